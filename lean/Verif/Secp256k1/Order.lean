import Verif.Secp256k1.Curve
import Mathlib.GroupTheory.OrderOfElement
import Mathlib.GroupTheory.Perm.Cycle.Type
import Mathlib.SetTheory.Cardinal.Finite
import Mathlib.FieldTheory.Finite.Basic

/-!
# The order of secp256k1

The group of points is cyclic of prime order `n`, generated by the standard base point.
-/

namespace Verif.Secp256k1

/-- x-coordinate of the generator -/
def gx : ℕ := 0x79BE667EF9DCBBAC55A06295CE870B07029BFCDB2DCE28D959F2815B16F81798
/-- y-coordinate of the generator -/
def gy : ℕ := 0x483ADA7726A3C4655DA4FBFC0E1108A8FD17B448A68554199C47D08FFB10D4B8

/-- Points from numbers -/
theorem on_curve {x y : ℕ} (h : y ^ 2 % p = (x ^ 3 + 7) % p) : (y : K) ^ 2 = (x : K) ^ 3 + 7 := by
  have := (ZMod.natCast_eq_natCast_iff' (y ^ 2) (x ^ 3 + 7) p).2 h
  exact_mod_cast this

theorem g_on_curve : (gy : K) ^ 2 = (gx : K) ^ 3 + 7 := on_curve (by decide +kernel)

/-- The generator -/
def gen : Point := mk gx gy g_on_curve

theorem gen_ne_zero : gen ≠ 0 := WeierstrassCurve.Affine.Point.some_ne_zero _

/-- The result of a scalar multiplication, checked on numbers -/
theorem smul_of_check {x y k : ℕ} (hxy : (y : K) ^ 2 = (x : K) ^ 3 + 7) (hk : 1 ≤ k) (hk' : k < 2 ^ 256)
    (x' y' : ℕ)
    (h : (mulJ x y 255 k).Z % p ≠ 0 ∧
      (mulJ x y 255 k).X % p = x' * (mulJ x y 255 k).Z ^ 2 % p ∧
      (mulJ x y 255 k).Y % p = y' * (mulJ x y 255 k).Z ^ 3 % p) :
    ∃ h', k • mk x y hxy = mk x' y' h' := by
  obtain ⟨hZ, hX, hY⟩ := h
  have hZ := natCast_ne_zero hZ
  obtain ⟨he, h1⟩ := mulJ_rep hxy 255 k hk hk' hZ
  have hX := (ZMod.natCast_eq_natCast_iff' _ _ p).2 hX
  have hY := (ZMod.natCast_eq_natCast_iff' _ _ p).2 hY
  push_cast at hX hY
  have e1 : ((mulJ x y 255 k).X / (mulJ x y 255 k).Z ^ 2 : K) = x' := by
    rw [hX]; field_simp
  have e2 : ((mulJ x y 255 k).Y / (mulJ x y 255 k).Z ^ 3 : K) = y' := by
    rw [hY]; field_simp
  refine ⟨by rw [← e1, ← e2]; exact he, ?_⟩
  rw [h1]
  exact mk_congr e1 e2

theorem n_sub_one_smul_gen : (n - 1) • gen = -gen := by
  obtain ⟨h, e⟩ := smul_of_check (k := n - 1) g_on_curve (by decide +kernel) (by decide +kernel) gx (p - gy)
    (by decide +kernel)
  rw [gen, e, neg_mk]
  refine mk_congr rfl ?_
  rw [Nat.cast_sub (by decide +kernel)]
  simp

theorem n_smul_gen : n • gen = 0 := by
  have : n = n - 1 + 1 := by decide +kernel
  rw [this, add_smul, n_sub_one_smul_gen, one_smul, neg_add_cancel]

theorem addOrderOf_gen : addOrderOf gen = n := addOrderOf_eq_prime n_smul_gen gen_ne_zero

/-! ### No point of order two -/

theorem neg7_not_cube (x : K) : x ^ 3 ≠ -7 := by
  intro h
  have hx : x ≠ 0 := by
    rintro rfl
    have h7 : ((7 : ℕ) : K) = 0 := by
      push_cast
      linear_combination h
    exact natCast_ne_zero (a := 7) (by decide +kernel) h7
  have h1 := ZMod.pow_card_sub_one_eq_one hx
  have h2 : ((p - 7 : ℕ) : K) ^ ((p - 1) / 3) = 1 := by
    rw [Nat.cast_sub (by decide +kernel), Nat.cast_ofNat, CharP.cast_eq_zero, zero_sub, ← h, ← pow_mul,
      show 3 * ((p - 1) / 3) = p - 1 by decide +kernel, h1]
  have h3 := Pratt.pm_spec p 256 (p - 7) ((p - 1) / 3) 1 (by decide +kernel)
  rw [h2, Nat.cast_one, one_mul] at h3
  have h4 : ((Pratt.pm p 256 (p - 7) ((p - 1) / 3) 1 : ℕ) : K) = ((1 : ℕ) : K) := by rw [h3]; simp
  have h5 := (ZMod.natCast_eq_natCast_iff' _ _ p).1 h4
  exact absurd h5 (by decide +kernel)

theorem y_ne_zero {x y : K} (h : y ^ 2 = x ^ 3 + 7) : y ≠ 0 := by
  rintro rfl
  exact neg7_not_cube x (by linear_combination -h)

theorem no_two_torsion (P : Point) (h : P + P = 0) : P = 0 := by
  rcases cases_point P with h0 | ⟨x, y, hxy, rfl⟩
  · exact h0
  · have h1 := eq_neg_of_add_eq_zero_left h
    rw [neg_mk, mk, mk, WeierstrassCurve.Affine.Point.some.injEq] at h1
    have : 2 * y = 0 := by linear_combination h1.2
    exact absurd this (mul_ne_zero two_ne (y_ne_zero hxy))

/-! ### The number of points -/

/-- A point is determined by its x-coordinate and the parity of its y-coordinate. -/
def compress : Point → Option (K × Bool)
  | .zero => none
  | .some x y _ => some (x, decide (y.val % 2 = 1))

theorem val_neg_parity {y : K} (h : y ≠ 0) : (-y).val = p - y.val := by
  rw [ZMod.neg_val, if_neg h]

theorem compress_injective : Function.Injective compress := by
  intro P Q h
  rcases cases_point P with rfl | ⟨x, y, hxy, rfl⟩ <;> rcases cases_point Q with rfl | ⟨x', y', hxy', rfl⟩
  · rfl
  · exact absurd h (by simp [compress, mk])
  · exact absurd h (by simp [compress, mk])
  · simp only [compress, mk, Option.some.injEq, Prod.mk.injEq] at h
    obtain ⟨rfl, hp⟩ := h
    have hy : y = y' ∨ y = -y' := sq_eq_sq_iff_eq_or_eq_neg.1 (hxy.trans hxy'.symm)
    rcases hy with rfl | rfl
    · rfl
    · exfalso
      have h1 := val_neg_parity (y_ne_zero hxy')
      have h2 := ZMod.val_lt y'
      have h3 : p % 2 = 1 := by decide +kernel
      rw [h1, decide_eq_decide] at hp
      omega

instance : Finite Point := Finite.of_injective compress compress_injective

theorem card_le : Nat.card Point ≤ 2 * p + 1 := by
  refine (Nat.card_le_card_of_injective compress compress_injective).trans ?_
  rw [Nat.card_eq_fintype_card, Fintype.card_option, Fintype.card_prod, ZMod.card, Fintype.card_bool,
    Nat.mul_comm]

/-- secp256k1 has exactly `n` points. -/
theorem card_eq : Nat.card Point = n := by
  have hd : n ∣ Nat.card Point := addOrderOf_gen ▸ addOrderOf_dvd_natCard gen
  obtain ⟨c, hc⟩ := hd
  have hle := card_le
  have hpos : 0 < Nat.card Point := Nat.card_pos
  have h3 : 2 * p + 1 < n * 3 := by decide +kernel
  have hn : 0 < n := n_prime.pos
  have hc3 : c < 3 := by
    by_contra h
    have : n * 3 ≤ n * c := Nat.mul_le_mul_left _ (by omega)
    omega
  have hc0 : c ≠ 0 := by rintro rfl; omega
  have hc2 : c ≠ 2 := by
    rintro rfl
    have : (2 : ℕ) ∣ Nat.card Point := ⟨n, by rw [hc, Nat.mul_comm]⟩
    obtain ⟨P, hP⟩ := exists_prime_addOrderOf_dvd_card' 2 this
    have h2 : P + P = 0 := by rw [← two_nsmul, ← hP, addOrderOf_nsmul_eq_zero]
    have := no_two_torsion P h2
    rw [this, addOrderOf_zero] at hP
    omega
  obtain rfl : c = 1 := by omega
  rw [hc, Nat.mul_one]

theorem n_smul (P : Point) : n • P = 0 := by
  rw [← card_eq]; exact card_nsmul_eq_zero'

/-- Every point is a multiple of the generator. -/
theorem exists_smul_gen (P : Point) : ∃ k : ℤ, k • gen = P := by
  have htop : AddSubgroup.zmultiples gen = ⊤ :=
    AddSubgroup.eq_top_of_card_eq _ (by rw [Nat.card_zmultiples, addOrderOf_gen, card_eq])
  have : P ∈ AddSubgroup.zmultiples gen := htop ▸ AddSubgroup.mem_top P
  exact AddSubgroup.mem_zmultiples_iff.1 this

end Verif.Secp256k1
