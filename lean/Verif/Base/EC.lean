import Mathlib.Algebra.Field.ZMod
import Mathlib.Algebra.Module.Basic
import Mathlib.Algebra.Module.ZMod
import Mathlib.Tactic.Ring
import Mathlib.Tactic.LinearCombination

/-!
# The elliptic-curve interface

`EC` is the interface the code in `/repo` uses through `curv::elliptic::curves::{Point, Scalar}`
instantiated at `Secp256k1`: a prime-order group with affine coordinates.  The laws are
fields of the class; they are *proved* for the real curve in `Verif.Secp256k1.Instance` and
for a 31-point curve in `Verif.Base.Toy`, so they are not assumptions about the curve.
-/

namespace Verif

/-- A prime-order elliptic curve group as used by the code.

* `Scalar<Secp256k1>` is `ZMod q`, `Point<Secp256k1>` is `Pt`.
* `G` is `Point::generator()`, `H` is `Point::base_point2()`.
* `coords P` is `(P.x_coord(), P.y_coord())`, `none` at the identity. -/
class EC where
  /-- group order, `Scalar::group_order()` -/
  q : ℕ
  /-- field characteristic -/
  p : ℕ
  q_prime : Fact q.Prime
  q_ne_two : q ≠ 2
  p_odd : p % 2 = 1
  p_lt : p < 2 ^ 256
  /-- points of the curve, identity included -/
  Pt : Type
  grp : AddCommGroup Pt
  dec : DecidableEq Pt
  mod : Module (ZMod q) Pt
  G : Pt
  H : Pt
  G_ne_zero : G ≠ 0
  gen : ∀ P : Pt, ∃ k : ZMod q, P = k • G
  coords : Pt → Option (ℕ × ℕ)
  coords_eq_none : ∀ P, coords P = none ↔ P = 0
  coords_lt : ∀ P x y, coords P = some (x, y) → x < p ∧ y < p
  coords_neg : ∀ P x y, coords P = some (x, y) → coords (-P) = some (x, p - y)
  x_inj : ∀ P Q x y y', coords P = some (x, y) → coords Q = some (x, y') → Q = P ∨ Q = -P

attribute [instance_reducible] EC.grp EC.dec EC.mod
attribute [instance] EC.q_prime EC.grp EC.dec EC.mod

/-- `Scalar<Secp256k1>` -/
abbrev Sc [EC] : Type := ZMod EC.q
/-- `Point<Secp256k1>` -/
abbrev Pt [EC] : Type := EC.Pt

namespace EC

variable [EC]

/-- `Point::x_coord()` -/
def xc (P : Pt) : Option ℕ := (coords P).map Prod.fst
/-- `Point::y_coord()` -/
def yc (P : Pt) : Option ℕ := (coords P).map Prod.snd

/-- `BigInt::from_bytes(P.to_bytes(true))`: the compressed encoding read as a number.
The identity is encoded by curv as the single byte 0. -/
def ser (P : Pt) : ℤ :=
  match coords P with
  | none => 0
  | some (x, y) => ((2 + y % 2) * 2 ^ 256 + x : ℕ)

theorem q_pos : 0 < q := q_prime.out.pos
theorem q_one_lt : 1 < q := q_prime.out.one_lt
instance : NeZero q := ⟨q_pos.ne'⟩

theorem q_odd : q % 2 = 1 := by
  rcases q_prime.out.eq_two_or_odd with h | h
  · exact absurd h q_ne_two
  · exact h

@[simp] theorem coords_zero : coords (0 : Pt) = none := (coords_eq_none 0).2 rfl

theorem xc_eq_none {P : Pt} : xc P = none ↔ P = 0 := by
  rw [xc, Option.map_eq_none_iff, coords_eq_none]

theorem xc_zero : xc (0 : Pt) = none := xc_eq_none.2 rfl

theorem yc_eq_none {P : Pt} : yc P = none ↔ P = 0 := by
  rw [yc, Option.map_eq_none_iff, coords_eq_none]

theorem exists_coords {P : Pt} (h : P ≠ 0) : ∃ x y, coords P = some (x, y) := by
  cases hc : coords P with
  | none => exact absurd ((coords_eq_none P).1 hc) h
  | some xy => exact ⟨xy.1, xy.2, rfl⟩

theorem xc_neg (P : Pt) : xc (-P) = xc P := by
  by_cases h : P = 0
  · simp [h]
  · obtain ⟨x, y, hc⟩ := exists_coords h
    simp [xc, hc, coords_neg P x y hc]

theorem y_pos {P : Pt} {x y : ℕ} (h : coords P = some (x, y)) : 0 < y := by
  by_contra h0
  have : y = 0 := by omega
  subst this
  have h1 := coords_neg P x 0 h
  have h2 := coords_lt _ _ _ h1
  omega

/-- Two points with the same x-coordinate are equal or opposite. -/
theorem eq_or_eq_neg_of_xc {P Q : Pt} (h : xc P = xc Q) : Q = P ∨ Q = -P := by
  by_cases hP : P = 0
  · have : xc Q = none := by rw [← h, xc_eq_none, hP]
    rw [xc_eq_none] at this
    left; rw [this, hP]
  · have hQ : Q ≠ 0 := by
      intro hQ
      rw [hQ, xc_zero, xc_eq_none] at h
      exact hP h
    obtain ⟨x, y, hc⟩ := exists_coords hP
    obtain ⟨x', y', hc'⟩ := exists_coords hQ
    have hx : x = x' := by simpa [xc, hc, hc'] using h
    subst hx
    exact x_inj _ _ _ _ _ hc hc'

theorem coords_inj {P Q : Pt} (h : coords P = coords Q) : P = Q := by
  by_cases hP : P = 0
  · have : coords Q = none := by rw [← h, coords_eq_none, hP]
    rw [coords_eq_none] at this
    rw [this, hP]
  · obtain ⟨x, y, hc⟩ := exists_coords hP
    rcases x_inj P Q x y y hc (h ▸ hc) with h' | h'
    · exact h'.symm
    · exfalso
      have h1 := coords_neg P x y hc
      rw [← h', ← h, hc] at h1
      have h2 : y = p - y := by simpa using h1
      have h3 := (coords_lt _ _ _ hc).2
      have := p_odd (self := ‹EC›)
      omega

/-- The compressed encoding determines the point. -/
theorem ser_inj {P Q : Pt} (h : ser P = ser Q) : P = Q := by
  have key : ∀ {P Q : Pt} {x y x' y' : ℕ}, coords P = some (x, y) → coords Q = some (x', y') →
      (2 + y % 2) * 2 ^ 256 + x = (2 + y' % 2) * 2 ^ 256 + x' → P = Q := by
    intro P Q x y x' y' hP hQ h
    have hlt := p_lt (self := ‹EC›)
    obtain ⟨hx, hy⟩ := coords_lt _ _ _ hP
    obtain ⟨hx', hy'⟩ := coords_lt _ _ _ hQ
    have hxx : x = x' ∧ y % 2 = y' % 2 := by
      have h1 : x < 2 ^ 256 := by omega
      have h2 : x' < 2 ^ 256 := by omega
      generalize (2:ℕ) ^ 256 = B at *
      have e1 := congrArg (· % B) h
      have e2 := congrArg (· / B) h
      rw [Nat.add_comm, Nat.add_mul_mod_self_right, Nat.add_comm, Nat.add_mul_mod_self_right,
        Nat.mod_eq_of_lt h1, Nat.mod_eq_of_lt h2] at e1
      rw [Nat.add_comm, Nat.add_mul_div_right _ _ (by omega), Nat.add_comm _ x',
        Nat.add_mul_div_right _ _ (by omega), Nat.div_eq_of_lt h1, Nat.div_eq_of_lt h2] at e2
      omega
    obtain ⟨rfl, hpar⟩ := hxx
    rcases x_inj P Q x y y' hP hQ with h' | h'
    · exact h'.symm
    · exfalso
      have h1 := coords_neg P x y hP
      rw [← h', hQ] at h1
      have h2 : y' = p - y := by simpa using h1
      have := p_odd (self := ‹EC›)
      omega
  unfold ser at h
  cases hP : coords P with
  | none =>
    cases hQ : coords Q with
    | none => exact coords_inj (hP.trans hQ.symm)
    | some b =>
      obtain ⟨x, y⟩ := b
      rw [hP, hQ] at h
      simp only at h
      exfalso
      have : (0:ℤ) < ((2 + y % 2) * 2 ^ 256 + x : ℕ) := by positivity
      omega
  | some a =>
    obtain ⟨x, y⟩ := a
    cases hQ : coords Q with
    | none =>
      rw [hP, hQ] at h
      simp only at h
      exfalso
      have : (0:ℤ) < ((2 + y % 2) * 2 ^ 256 + x : ℕ) := by positivity
      omega
    | some b =>
      obtain ⟨x', y'⟩ := b
      rw [hP, hQ] at h
      simp only at h
      exact key hP hQ (by exact_mod_cast h)

/-- Scalar multiplication of the generator is injective. -/
theorem smul_G_inj {a b : Sc} : a • G = b • G ↔ a = b := by
  constructor
  · intro h
    by_contra hne
    have hsub : (a - b) • G = 0 := by rw [sub_smul, h, sub_self]
    have hne' : a - b ≠ 0 := sub_ne_zero.2 hne
    apply G_ne_zero (self := ‹EC›)
    have : ((a - b)⁻¹ * (a - b)) • G = 0 := by rw [mul_smul, hsub, smul_zero]
    rwa [inv_mul_cancel₀ hne', one_smul] at this
  · rintro rfl; rfl

theorem smul_G_eq_zero {a : Sc} : a • G = 0 ↔ a = 0 := by
  rw [← zero_smul Sc G, smul_G_inj]

theorem smul_eq_zero_iff {a : Sc} {P : Pt} : a • P = 0 ↔ a = 0 ∨ P = 0 := by
  obtain ⟨k, rfl⟩ := gen P
  rw [← mul_smul, smul_G_eq_zero, smul_G_eq_zero, mul_eq_zero]

theorem smul_pt_inj {a : Sc} (ha : a ≠ 0) {P Q : Pt} : a • P = a • Q ↔ P = Q := by
  constructor
  · intro h
    have : a⁻¹ • a • P = a⁻¹ • a • Q := by rw [h]
    rwa [← mul_smul, ← mul_smul, inv_mul_cancel₀ ha, one_smul, one_smul] at this
  · rintro rfl; rfl

theorem two_ne_zero : (2 : Sc) ≠ 0 := by
  intro h
  have : ((2 : ℕ) : ZMod q) = 0 := by exact_mod_cast h
  rw [ZMod.natCast_eq_zero_iff] at this
  have h2 := Nat.le_of_dvd (by norm_num) this
  have := q_one_lt
  have := q_ne_two (self := ‹EC›)
  omega

theorem neg_ne_self {P : Pt} (hP : P ≠ 0) : -P ≠ P := by
  intro h
  have h2 : (2 : Sc) • P = 0 := by
    rw [two_smul]
    nth_rewrite 1 [← h]
    simp
  rcases smul_eq_zero_iff.1 h2 with h | h
  · exact two_ne_zero h
  · exact hP h

end EC
end Verif
