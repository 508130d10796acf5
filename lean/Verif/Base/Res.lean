import Mathlib.Data.List.Forall2

/-!
# Outcomes of Rust functions

`Res ε α` is the outcome of a Rust function returning `Result<α, ε>`, with a panic
(`unwrap` on `None`/`Err`, failed `assert!`, index out of bounds) as a third, explicit
outcome.  Functions that return a plain value but may panic use `ε := Empty`-like error
types or `Unit`.
-/

namespace Verif

/-- Outcome of a Rust call: `Ok`, `Err` or a panic. -/
inductive Res (ε α : Type) where
  | ok (a : α)
  | err (e : ε)
  | panic
  deriving DecidableEq, Repr

namespace Res

variable {ε α β : Type}

/-- Rust's `?` operator; a panic propagates. -/
@[inline] def bind (r : Res ε α) (f : α → Res ε β) : Res ε β :=
  match r with
  | ok a => f a
  | err e => err e
  | panic => panic

instance : Monad (Res ε) where
  pure := ok
  bind := bind

/-- `Option::unwrap` / indexing: `None` panics. -/
def ofOption : Option α → Res ε α
  | some a => ok a
  | none => panic

/-- `assert!`. -/
def assert (b : Bool) : Res ε Unit := if b then ok () else panic

/-- `Result::unwrap`: an `Err` becomes a panic. -/
def unwrap {ε' : Type} : Res ε α → Res ε' α
  | ok a => ok a
  | err _ => panic
  | panic => panic

/-- `Result::map_err`. -/
def mapErr {ε' : Type} (f : ε → ε') : Res ε α → Res ε' α
  | ok a => ok a
  | err e => err (f e)
  | panic => panic

/-- `Result::is_ok`, a panic stays a panic. -/
def isOk {ε' : Type} : Res ε α → Res ε' Bool
  | ok _ => ok true
  | err _ => ok false
  | panic => panic

@[simp] theorem bind_ok (a : α) (f : α → Res ε β) : (ok a >>= f) = f a := rfl
@[simp] theorem bind_err (e : ε) (f : α → Res ε β) : ((err e : Res ε α) >>= f) = err e := rfl
@[simp] theorem bind_panic (f : α → Res ε β) : ((panic : Res ε α) >>= f) = panic := rfl
@[simp] theorem pure_eq (a : α) : (pure a : Res ε α) = ok a := rfl
@[simp] theorem ofOption_some (a : α) : (ofOption (some a) : Res ε α) = ok a := rfl
@[simp] theorem ofOption_none : (ofOption none : Res ε α) = panic := rfl
@[simp] theorem unwrap_ok {ε' : Type} (a : α) : (unwrap (ok a : Res ε α) : Res ε' α) = ok a := rfl
@[simp] theorem unwrap_err {ε' : Type} (e : ε) :
    (unwrap (err e : Res ε α) : Res ε' α) = panic := rfl
@[simp] theorem unwrap_panic {ε' : Type} :
    (unwrap (panic : Res ε α) : Res ε' α) = panic := rfl
@[simp] theorem mapErr_ok {ε' : Type} (f : ε → ε') (a : α) :
    (mapErr f (ok a : Res ε α)) = ok a := rfl
@[simp] theorem mapErr_err {ε' : Type} (f : ε → ε') (e : ε) :
    (mapErr f (err e : Res ε α)) = err (f e) := rfl
@[simp] theorem mapErr_panic {ε' : Type} (f : ε → ε') :
    (mapErr f (panic : Res ε α)) = panic := rfl
@[simp] theorem assert_true : (assert true : Res ε Unit) = ok () := rfl
@[simp] theorem assert_false : (assert false : Res ε Unit) = panic := rfl

theorem assert_eq_ok {b : Bool} {u : Unit} : (assert b : Res ε Unit) = ok u ↔ b = true := by
  cases b <;> simp [assert]

theorem bind_eq_ok {r : Res ε α} {f : α → Res ε β} {b : β} :
    (r >>= f) = ok b ↔ ∃ a, r = ok a ∧ f a = ok b := by
  cases r <;> simp

theorem bind_eq_panic {r : Res ε α} {f : α → Res ε β} :
    (r >>= f) = panic ↔ r = panic ∨ ∃ a, r = ok a ∧ f a = panic := by
  cases r <;> simp

theorem bind_eq_err {r : Res ε α} {f : α → Res ε β} {e : ε} :
    (r >>= f) = err e ↔ r = err e ∨ ∃ a, r = ok a ∧ f a = err e := by
  cases r <;> simp

theorem ofOption_eq_ok {o : Option α} {a : α} :
    (ofOption o : Res ε α) = ok a ↔ o = some a := by
  cases o <;> simp [ofOption]

theorem ofOption_eq_panic {o : Option α} : (ofOption o : Res ε α) = panic ↔ o = none := by
  cases o <;> simp [ofOption]

/-- Run a fallible function over a list, stopping at the first failure
(`iter.map(f).collect::<Result<Vec<_>,_>>()?`, or a loop with `?`/`unwrap` inside). -/
def mapM (f : α → Res ε β) : List α → Res ε (List β)
  | [] => ok []
  | a :: l => do
    let b ← f a
    let bs ← mapM f l
    ok (b :: bs)

theorem mapM_ok_of_forall {f : α → Res ε β} {g : α → β} {l : List α}
    (h : ∀ a ∈ l, f a = ok (g a)) : mapM f l = ok (l.map g) := by
  induction l with
  | nil => rfl
  | cons a l ih =>
    simp only [mapM, h a (by simp), bind_ok]
    rw [ih (fun b hb => h b (by simp [hb]))]
    rfl

theorem mapM_eq_ok {f : α → Res ε β} {l : List α} {bs : List β} :
    mapM f l = ok bs ↔ List.Forall₂ (fun a b => f a = ok b) l bs := by
  induction l generalizing bs with
  | nil => simp [mapM, eq_comm]
  | cons a l ih =>
    simp only [mapM, bind_eq_ok, List.forall₂_cons_left_iff, ih]
    constructor
    · rintro ⟨b, hb, bs', hbs', h⟩
      cases h
      exact ⟨b, bs', hb, hbs', rfl⟩
    · rintro ⟨b, bs', hb, hbs', rfl⟩
      exact ⟨b, hb, bs', hbs', rfl⟩

end Res
end Verif
