import Verif.Base.Res

/-!
# The "check every party" idiom

The library checks all parties with

```text
let mut bad = Vec::new();
let ok = (0..n).map(|i| { if !test(i) { bad.push(i); false } else { true } }).all(|x| x);
```

Iterators are lazy and `all` stops at the first `false`, so at most one index is ever pushed.
-/

namespace Verif

variable {ε : Type}

/-- The value of `ok` and the final contents of `bad` (without the early values: see above);
`test` may panic. -/
def allPush (test : ℕ → Res ε Bool) : List ℕ → Res ε (Bool × List ℕ)
  | [] => .ok (true, [])
  | i :: is => do
    if (← test i) then allPush test is else .ok (false, [i])

theorem allPush_eq_true {test : ℕ → Res ε Bool} {is bad : List ℕ} :
    allPush test is = .ok (true, bad) ↔ bad = [] ∧ ∀ i ∈ is, test i = .ok true := by
  induction is with
  | nil => simp [allPush, eq_comm]
  | cons i is ih =>
    simp only [allPush, Res.bind_eq_ok, List.forall_mem_cons]
    constructor
    · rintro ⟨b, hb, h⟩
      cases b with
      | false => simp at h
      | true => simp only [if_true] at h; rw [ih] at h; exact ⟨h.1, hb, h.2⟩
    · rintro ⟨h1, h2, h3⟩
      exact ⟨true, h2, by simp only [if_true]; exact ih.2 ⟨h1, h3⟩⟩

theorem allPush_eq_false {test : ℕ → Res ε Bool} {is bad : List ℕ} :
    allPush test is = .ok (false, bad) ↔
      ∃ l i r, is = l ++ i :: r ∧ bad = [i] ∧ test i = .ok false ∧ ∀ j ∈ l, test j = .ok true := by
  induction is with
  | nil => simp [allPush]
  | cons i is ih =>
    simp only [allPush, Res.bind_eq_ok]
    constructor
    · rintro ⟨b, hb, h⟩
      cases b with
      | false =>
        simp only [Bool.false_eq_true, if_false, Res.ok.injEq, Prod.mk.injEq, true_and] at h
        exact ⟨[], i, is, rfl, h.symm, hb, by simp⟩
      | true =>
        simp only [if_true] at h
        obtain ⟨l, k, r, h1, h2, h3, h4⟩ := ih.1 h
        refine ⟨i :: l, k, r, by simp [h1], h2, h3, ?_⟩
        simpa using ⟨hb, h4⟩
    · rintro ⟨l, k, r, h1, h2, h3, h4⟩
      cases l with
      | nil =>
        simp only [List.nil_append, List.cons.injEq] at h1
        obtain ⟨rfl, rfl⟩ := h1
        exact ⟨false, h3, by simp [h2]⟩
      | cons a l =>
        simp only [List.cons_append, List.cons.injEq] at h1
        obtain ⟨rfl, rfl⟩ := h1
        refine ⟨true, h4 i (by simp), ?_⟩
        simp only [if_true]
        exact ih.2 ⟨l, k, r, rfl, h2, h3, fun j hj => h4 j (by simp [hj])⟩

theorem allPush_ne_err {test : ℕ → Res ε Bool} {is : List ℕ} {e : ε}
    (h : ∀ i ∈ is, ∀ e, test i ≠ .err e) : allPush test is ≠ .err e := by
  induction is with
  | nil => simp [allPush]
  | cons i is ih =>
    simp only [allPush, ne_eq, Res.bind_eq_err, not_or, not_exists, not_and]
    refine ⟨h i (by simp) e, fun b _ => ?_⟩
    cases b
    · simp
    · simpa using ih (fun j hj => h j (by simp [hj]))

theorem allPush_eq_panic {test : ℕ → Res ε Bool} {is : List ℕ} :
    allPush test is = .panic ↔
      ∃ l i r, is = l ++ i :: r ∧ test i = .panic ∧ ∀ j ∈ l, test j = .ok true := by
  induction is with
  | nil => simp [allPush]
  | cons i is ih =>
    simp only [allPush, Res.bind_eq_panic]
    constructor
    · rintro (h | ⟨b, hb, h⟩)
      · exact ⟨[], i, is, rfl, h, by simp⟩
      · cases b with
        | false => simp at h
        | true =>
          simp only [if_true] at h
          obtain ⟨l, k, r, h1, h3, h4⟩ := ih.1 h
          refine ⟨i :: l, k, r, by simp [h1], h3, ?_⟩
          simpa using ⟨hb, h4⟩
    · rintro ⟨l, k, r, h1, h3, h4⟩
      cases l with
      | nil =>
        simp only [List.nil_append, List.cons.injEq] at h1
        obtain ⟨rfl, rfl⟩ := h1
        exact Or.inl h3
      | cons a l =>
        simp only [List.cons_append, List.cons.injEq] at h1
        obtain ⟨rfl, rfl⟩ := h1
        refine Or.inr ⟨true, h4 i (by simp), ?_⟩
        simp only [if_true]
        exact ih.2 ⟨l, k, r, rfl, h3, fun j hj => h4 j (by simp [hj])⟩

/-- Splitting `0..n` at the first failing index. -/
theorem range_split {n i : ℕ} {l r : List ℕ} (h : List.range n = l ++ i :: r) :
    i < n ∧ ∀ j, j ∈ l ↔ j < i := by
  have hl : l.length = i := by
    have h1 : (List.range n)[l.length]? = some i := by rw [h]; simp
    have := List.getElem?_eq_some_iff.1 h1
    obtain ⟨h2, h3⟩ := this
    simpa using h3
  have hn : i < n := by
    have : i ∈ List.range n := by rw [h]; simp
    simpa using this
  refine ⟨hn, fun j => ?_⟩
  have : l = List.range i := by
    have h2 : (List.range n).take l.length = l := by rw [h]; simp
    rw [← h2, hl, List.take_range]
    congr 1; omega
  rw [this]; simp

theorem range_split_exists {n i : ℕ} (h : i < n) :
    ∃ r, List.range n = List.range i ++ i :: r := by
  refine ⟨(List.range n).drop (i + 1), ?_⟩
  conv_lhs => rw [← List.take_append_drop i (List.range n)]
  rw [List.take_range, Nat.min_eq_left (Nat.le_of_lt h)]
  congr 1
  rw [List.drop_eq_getElem_cons (by simpa using h)]
  simp

theorem allPush_range_true {test : ℕ → Res ε Bool} {n : ℕ} {bad : List ℕ} :
    allPush test (List.range n) = .ok (true, bad) ↔ bad = [] ∧ ∀ i < n, test i = .ok true := by
  rw [allPush_eq_true]; simp

theorem allPush_range_false {test : ℕ → Res ε Bool} {n : ℕ} {bad : List ℕ} :
    allPush test (List.range n) = .ok (false, bad) ↔
      ∃ i < n, bad = [i] ∧ test i = .ok false ∧ ∀ j < i, test j = .ok true := by
  rw [allPush_eq_false]
  constructor
  · rintro ⟨l, i, r, h1, h2, h3, h4⟩
    obtain ⟨h5, h6⟩ := range_split h1
    exact ⟨i, h5, h2, h3, fun j hj => h4 j ((h6 j).2 hj)⟩
  · rintro ⟨i, h1, h2, h3, h4⟩
    obtain ⟨r, hr⟩ := range_split_exists h1
    exact ⟨_, i, r, hr, h2, h3, fun j hj => h4 j (by simpa using hj)⟩

theorem allPush_range_panic {test : ℕ → Res ε Bool} {n : ℕ} :
    allPush test (List.range n) = .panic ↔
      ∃ i < n, test i = .panic ∧ ∀ j < i, test j = .ok true := by
  rw [allPush_eq_panic]
  constructor
  · rintro ⟨l, i, r, h1, h3, h4⟩
    obtain ⟨h5, h6⟩ := range_split h1
    exact ⟨i, h5, h3, fun j hj => h4 j ((h6 j).2 hj)⟩
  · rintro ⟨i, h1, h3, h4⟩
    obtain ⟨r, hr⟩ := range_split_exists h1
    exact ⟨_, i, r, hr, h3, fun j hj => h4 j (by simpa using hj)⟩

/-- `(0..n).all(test)`: stops at the first `false`; `test` may panic. -/
def allRes (test : ℕ → Res ε Bool) : List ℕ → Res ε Bool
  | [] => .ok true
  | i :: is => do
    if (← test i) then allRes test is else .ok false

theorem allRes_eq {test : ℕ → Res ε Bool} {is : List ℕ} :
    allRes test is = (allPush test is >>= fun r => .ok r.1) := by
  induction is with
  | nil => rfl
  | cons i is ih =>
    simp only [allRes, allPush]
    rcases test i with b | e | _
    · cases b
      · rfl
      · simpa using ih
    · rfl
    · rfl

theorem allRes_range_true {test : ℕ → Res ε Bool} {n : ℕ} :
    allRes test (List.range n) = .ok true ↔ ∀ i < n, test i = .ok true := by
  rw [allRes_eq, Res.bind_eq_ok]
  constructor
  · rintro ⟨⟨b, bad⟩, h1, h2⟩
    simp only [Res.ok.injEq] at h2
    subst h2
    exact (allPush_range_true.1 h1).2
  · intro h
    exact ⟨(true, []), allPush_range_true.2 ⟨rfl, h⟩, rfl⟩

theorem allRes_range_false {test : ℕ → Res ε Bool} {n : ℕ} :
    allRes test (List.range n) = .ok false ↔
      ∃ i < n, test i = .ok false ∧ ∀ j < i, test j = .ok true := by
  rw [allRes_eq, Res.bind_eq_ok]
  constructor
  · rintro ⟨⟨b, bad⟩, h1, h2⟩
    simp only [Res.ok.injEq] at h2
    subst h2
    obtain ⟨i, hi, -, h⟩ := allPush_range_false.1 h1
    exact ⟨i, hi, h⟩
  · rintro ⟨i, hi, h⟩
    exact ⟨(false, [i]), allPush_range_false.2 ⟨i, hi, rfl, h⟩, rfl⟩

theorem allRes_range_panic {test : ℕ → Res ε Bool} {n : ℕ} :
    allRes test (List.range n) = .panic ↔
      ∃ i < n, test i = .panic ∧ ∀ j < i, test j = .ok true := by
  rw [allRes_eq, Res.bind_eq_panic, ← allPush_range_panic]
  simp

/-- `Vec` indexing: out of bounds panics. -/
def Res.get {α : Type} (l : List α) (i : ℕ) : Res ε α := Res.ofOption l[i]?

theorem Res.get_eq_ok {α : Type} {l : List α} {i : ℕ} {a : α} :
    (Res.get l i : Res ε α) = .ok a ↔ l[i]? = some a := Res.ofOption_eq_ok

theorem Res.get_of_lt {α : Type} {l : List α} {i : ℕ} (h : i < l.length) :
    (Res.get l i : Res ε α) = .ok l[i] := by simp [Res.get, h]

/-- `a && b` for two tests that may panic (`none`): `b` is run only if `a` succeeds. -/
def andOpt (a b : Option Bool) : Option Bool := a.bind fun x => if x then b else some false

theorem andOpt_eq_true {a b : Option Bool} : andOpt a b = some true ↔ a = some true ∧ b = some true := by
  cases a with
  | none => simp [andOpt]
  | some x => cases x <;> simp [andOpt]

theorem andOpt_eq_none {a b : Option Bool} :
    andOpt a b = none ↔ a = none ∨ a = some true ∧ b = none := by
  cases a with
  | none => simp [andOpt]
  | some x => cases x <;> simp [andOpt]

end Verif
