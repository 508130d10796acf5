import Verif.Ext.Num
import Mathlib.Data.ZMod.Units
import Mathlib.NumberTheory.Basic
import Mathlib.Tactic.LinearCombination

/-! `BigInt` modular arithmetic, read in `ZMod M` and its units. -/

namespace Verif

theorem unit_of_gcd {M : ℕ} {b : ℤ} (h : Int.gcd b M = 1) : ∃ u : (ZMod M)ˣ, (b : ZMod M) = u := by
  have hu : IsUnit ((b : ℤ) : ZMod M) := by
    rw [ZMod.coe_int_isUnit_iff_isCoprime, Int.isCoprime_iff_gcd_eq_one, Int.gcd_comm]
    exact h
  exact ⟨hu.unit, rfl⟩

theorem gcd_of_unit {M : ℕ} {b : ℤ} {u : (ZMod M)ˣ} (h : (b : ZMod M) = u) : Int.gcd b M = 1 := by
  have hu : IsUnit ((b : ℤ) : ZMod M) := h ▸ u.isUnit
  rw [ZMod.coe_int_isUnit_iff_isCoprime, Int.isCoprime_iff_gcd_eq_one, Int.gcd_comm] at hu
  exact hu

theorem cast_rem (a : ℤ) (M : ℕ) : ((rem a M : ℤ) : ZMod M) = (a : ZMod M) :=
  (ZMod.intCast_eq_intCast_iff _ _ _).2 (rem_modEq a M)

theorem cast_emod (a : ℤ) (M : ℕ) : ((a % (M : ℤ) : ℤ) : ZMod M) = (a : ZMod M) :=
  (ZMod.intCast_eq_intCast_iff _ _ _).2 (Int.mod_modEq a M)

theorem modEq_of_cast {a b : ℤ} {M : ℕ} (h : (a : ZMod M) = b) : a ≡ b [ZMOD M] :=
  (ZMod.intCast_eq_intCast_iff _ _ _).1 h

theorem cast_of_modEq {a b : ℤ} {M : ℕ} (h : a ≡ b [ZMOD M]) : (a : ZMod M) = b :=
  (ZMod.intCast_eq_intCast_iff _ _ _).2 h

theorem modInv_unit {M : ℕ} {b : ℤ} {u : (ZMod M)ˣ} (h : (b : ZMod M) = u) :
    ∃ x, modInv b M = some x ∧ (x : ZMod M) = ↑(u⁻¹) := by
  obtain ⟨x, hx⟩ := Option.isSome_iff_exists.1 (modInv_isSome.2 (gcd_of_unit h))
  refine ⟨x, hx, ?_⟩
  have := cast_of_modEq (M := M) (modInv_eq_some hx)
  push_cast at this
  rw [h] at this
  rw [← Units.mul_right_inj u, this, Units.mul_inv]

theorem modInv_some_unit {M : ℕ} {b x : ℤ} (h : modInv b M = some x) :
    ∃ u : (ZMod M)ˣ, (b : ZMod M) = u ∧ (x : ZMod M) = ↑(u⁻¹) := by
  have hg : Int.gcd b M = 1 := modInv_isSome.1 (by rw [h]; rfl)
  obtain ⟨u, hu⟩ := unit_of_gcd hg
  obtain ⟨y, hy, hy2⟩ := modInv_unit hu
  rw [h, Option.some.injEq] at hy
  exact ⟨u, hu, hy ▸ hy2⟩

theorem modPow_unit {M : ℕ} (hM : 0 < M) {b : ℤ} {u : (ZMod M)ˣ} (h : (b : ZMod M) = u) (e : ℤ) :
    ∃ x, modPow b e M = some x ∧ (x : ZMod M) = ↑(u ^ e) := by
  have hM' : (M : ℤ) ≠ 0 := by exact_mod_cast hM.ne'
  unfold modPow
  rw [if_neg hM']
  by_cases he : 0 ≤ e
  · rw [if_pos he]
    refine ⟨_, rfl, ?_⟩
    rw [cast_emod]
    push_cast
    rw [h]
    obtain ⟨k, rfl⟩ := Int.eq_ofNat_of_zero_le he
    simp
  · rw [if_neg he]
    obtain ⟨x, hx, hx2⟩ := modInv_unit h
    rw [hx]
    refine ⟨_, rfl, ?_⟩
    rw [cast_emod]
    push_cast
    rw [hx2, ← Units.val_pow_eq_pow_val]
    congr 1
    obtain ⟨k, hk⟩ := Int.eq_ofNat_of_zero_le (by omega : 0 ≤ -e)
    rw [show e = -(k : ℤ) by omega]
    simp

/-- A power with a non-negative exponent, read in `ZMod M`. -/
theorem modPow_cast {M : ℕ} {b e x : ℤ} (he : 0 ≤ e) (h : modPow b e M = some x) :
    (x : ZMod M) = (b : ZMod M) ^ e.toNat := by
  unfold modPow at h
  split at h
  · cases h
  · rw [Option.some.injEq] at h
    rw [← h, cast_emod]; push_cast; rfl

theorem modPow_nat_cast {M : ℕ} {b x : ℤ} {e : ℕ} (h : modPow b e M = some x) :
    (x : ZMod M) = (b : ZMod M) ^ e := by
  have := modPow_cast (Int.natCast_nonneg e) h
  simpa using this

theorem modPow_nat {M : ℕ} (hM : 0 < M) (b : ℤ) (e : ℕ) : ∃ x, modPow b e M = some x := by
  have hM' : (M : ℤ) ≠ 0 := by exact_mod_cast hM.ne'
  exact ⟨_, modPow_natCast e hM'⟩

/-- The n-th power modulo n² depends only on the base modulo n. -/
theorem pow_cast_of_modEq {n : ℕ} {a b : ℤ} (h : a ≡ b [ZMOD n]) :
    ((a : ZMod (n * n)) ^ n) = (b : ZMod (n * n)) ^ n := by
  have h1 : (n : ℤ) ∣ a - b := by
    have := Int.modEq_iff_dvd.1 h.symm
    exact this
  have h2 := dvd_sub_pow_of_dvd_sub h1 1
  rw [pow_one] at h2
  have h3 : a ^ n ≡ b ^ n [ZMOD ((n * n : ℕ) : ℤ)] := by
    refine Int.ModEq.symm (Int.modEq_iff_dvd.2 ?_)
    push_cast
    simpa [pow_two] using h2
  have := cast_of_modEq h3
  push_cast at this
  exact this

/-- `1 + a n` to the `e`, modulo `n²`. -/
theorem one_add_mul_pow {n : ℕ} (a : ZMod (n * n)) (e : ℕ) :
    (1 + a * n) ^ e = 1 + e * a * n := by
  have hn : (n : ZMod (n * n)) * n = 0 := by
    have : ((n * n : ℕ) : ZMod (n * n)) = 0 := ZMod.natCast_self _
    push_cast at this
    exact this
  induction e with
  | zero => simp
  | succ e ih =>
    rw [pow_succ, ih]
    push_cast
    linear_combination (e * a * a) * hn

theorem cast_n_sq (n : ℕ) : (n : ZMod (n * n)) * n = 0 := by
  have : ((n * n : ℕ) : ZMod (n * n)) = 0 := ZMod.natCast_self _
  push_cast at this
  exact this

end Verif
