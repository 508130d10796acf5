import Verif.Base.Res
import Mathlib.Data.Int.GCD
import Mathlib.Data.Int.ModEq
import Mathlib.Data.Nat.Size
import Mathlib.Tactic.Ring
import Mathlib.Tactic.Linarith

/-!
# Big integers (`curv::arithmetic`, rust-gmp back end)

`BigInt` is `ℤ`.  Only the modular operations need a definition.
-/

namespace Verif

/-- `BigInt::modulus(a, m)` for a positive modulus: the representative in `[0, m)`. -/
def modulus (a m : ℤ) : ℤ := a % m

/-- `a % m` on `BigInt`: GMP's truncated remainder, which has the sign of `a`. -/
def rem (a m : ℤ) : ℤ := Int.tmod a m

/-- `BigInt::mod_inv(a, m)`: the inverse in `[0, m)` when `a` is invertible. -/
def modInv (a m : ℤ) : Option ℤ :=
  if Int.gcd a m = 1 then some (Int.gcdA a m % m) else none

/-- `BigInt::mod_pow(b, e, m)` (`mpz_powm`): a negative exponent inverts the base, and GMP aborts
when the base is not invertible or the modulus is zero (`none`). -/
def modPow (b e m : ℤ) : Option ℤ :=
  if m = 0 then none
  else if 0 ≤ e then some (b ^ e.toNat % m)
  else (modInv b m).map (fun i => i ^ (-e).toNat % m)

theorem rem_modEq (a m : ℤ) : rem a m ≡ a [ZMOD m] := by
  rw [Int.modEq_iff_dvd]
  exact ⟨a.tdiv m, by unfold rem; linarith [Int.tmod_add_mul_tdiv a m]⟩

theorem rem_of_nonneg {a m : ℤ} (h : 0 ≤ a) : rem a m = a % m := Int.tmod_eq_emod_of_nonneg h

theorem modInv_eq_some {a m i : ℤ} (h : modInv a m = some i) : a * i ≡ 1 [ZMOD m] := by
  unfold modInv at h
  split at h
  · rename_i hg
    cases h
    have := Int.gcd_eq_gcd_ab a m
    rw [hg] at this
    have h2 : a * Int.gcdA a m ≡ 1 [ZMOD m] := by
      rw [Int.modEq_iff_dvd]
      exact ⟨Int.gcdB a m, by push_cast at this; linarith⟩
    exact (Int.ModEq.mul_left a (Int.mod_modEq _ _)).trans h2
  · cases h

theorem modInv_isSome {a m : ℤ} : (modInv a m).isSome ↔ Int.gcd a m = 1 := by
  unfold modInv; split <;> simp_all

theorem modInv_eq_none {a m : ℤ} : modInv a m = none ↔ Int.gcd a m ≠ 1 := by
  unfold modInv; split <;> simp_all

theorem modPow_nonneg {b e m : ℤ} (hm : m ≠ 0) (he : 0 ≤ e) :
    modPow b e m = some (b ^ e.toNat % m) := by simp [modPow, hm, he]

theorem modPow_natCast {b m : ℤ} (e : ℕ) (hm : m ≠ 0) :
    modPow b e m = some (b ^ e % m) := by simp [modPow, hm]

theorem modInv_range {a m i : ℤ} (hm : 0 < m) (h : modInv a m = some i) : 0 ≤ i ∧ i < m := by
  unfold modInv at h
  split at h
  · cases h
    exact ⟨Int.emod_nonneg _ hm.ne', Int.emod_lt_of_pos _ hm⟩
  · cases h

theorem modPow_range {b e m i : ℤ} (hm : 0 < m) (h : modPow b e m = some i) : 0 ≤ i ∧ i < m := by
  unfold modPow at h
  rw [if_neg hm.ne'] at h
  split at h
  · cases h
    exact ⟨Int.emod_nonneg _ hm.ne', Int.emod_lt_of_pos _ hm⟩
  · rw [Option.map_eq_some_iff] at h
    obtain ⟨j, -, rfl⟩ := h
    exact ⟨Int.emod_nonneg _ hm.ne', Int.emod_lt_of_pos _ hm⟩

/-- Two representatives in `[0, m)` of one class are equal. -/
theorem eq_of_modEq_of_range {a b m : ℤ} (h : a ≡ b [ZMOD m]) (ha : 0 ≤ a ∧ a < m)
    (hb : 0 ≤ b ∧ b < m) : a = b := by
  have := h
  rwa [Int.ModEq, Int.emod_eq_of_lt ha.1 ha.2, Int.emod_eq_of_lt hb.1 hb.2] at this

end Verif
