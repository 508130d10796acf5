import Verif.Lemmas.Params
import Verif.Secp256k1.Crypto

/-!
# The malicious auxiliary parameters: facts checked by evaluation
-/

namespace Verif

open Spec

theorem Pratt.pow_mod_eq {m f b e : ℕ} (he : e < 2 ^ f) : b ^ e % m = Pratt.pm m f b e 1 % m := by
  have h := Pratt.pm_spec m f b e 1 he
  rw [Nat.cast_one, one_mul] at h
  refine (ZMod.natCast_eq_natCast_iff' _ _ _).1 ?_
  rw [h]; push_cast; rfl

/-- The auxiliary parameters -/
def leakSt : DLogStatement := ⟨leakN, leakH1, leakH2⟩

theorem leak_gcd1 : Int.gcd leakH1 leakN = 1 := by
  rw [Int.gcd_natCast_natCast]; decide +kernel

theorem leak_gcd2 : Int.gcd leakH2 leakN = 1 := by
  rw [Int.gcd_natCast_natCast]; decide +kernel

theorem leak_large : (2 : ℤ) ^ 128 < leakN := by
  have : 2 ^ 128 < leakN := by decide +kernel
  exact_mod_cast this

theorem natpow_modEq {a e m c : ℕ} (h : a ^ e % m = c % m) : (a : ℤ) ^ e ≡ c [ZMOD m] := by
  have : a ^ e ≡ c [MOD m] := h
  exact_mod_cast (Int.natCast_modEq_iff.2 this)

/-- The product of the two bases has order 65537. -/
theorem leak_order : ((leakH1 : ℤ) * leakH2) ^ 65537 ≡ 1 [ZMOD leakN] := by
  have : (leakH1 * leakH2) ^ 65537 % leakN = 1 % leakN := by
    rw [Pratt.pow_mod_eq (f := 17) (by norm_num)]; decide +kernel
  have := natpow_modEq this
  rwa [Nat.cast_mul, Nat.cast_one] at this

theorem leak_x1 : (leakX1 : ℤ) = (leakH1 : ℤ) ^ leakR1 % leakN := by
  have : leakX1 = leakH1 ^ leakR1 % leakN := by
    rw [Pratt.pow_mod_eq (f := 14) (by decide)]; decide +kernel
  exact_mod_cast congrArg (Nat.cast (R := ℤ)) this

theorem leak_x2 : (leakX2 : ℤ) = (leakH2 : ℤ) ^ leakR2 % leakN := by
  have : leakX2 = leakH2 ^ leakR2 % leakN := by
    rw [Pratt.pow_mod_eq (f := 14) (by decide)]; decide +kernel
  exact_mod_cast congrArg (Nat.cast (R := ℤ)) this

set_option maxRecDepth 100000 in
theorem leak_challenge1 :
    65537 ∣ Digest.ints Sha256.hash [(leakX1 : ℤ), (leakH1 : ℤ), (leakN : ℤ), (leakH2 : ℤ)] := by decide +kernel

set_option maxRecDepth 100000 in
theorem leak_challenge2 :
    65537 ∣ Digest.ints Sha256.hash [(leakX2 : ℤ), (leakH2 : ℤ), (leakN : ℤ), (leakH1 : ℤ)] := by decide +kernel

theorem leak_params : ParamsLeak leakSt leakP leakE 65537 where
  p_prime := leakP_prime
  p_dvd := by show (leakP : ℤ) ∣ (leakN : ℤ); exact Int.natCast_dvd_natCast.2 ⟨bigQ, rfl⟩
  l_prime := by norm_num
  ni_pow := by
    have : leakH2 ^ leakE % leakP = 1 % leakP := by
      rw [Pratt.pow_mod_eq (f := 1024) (by decide +kernel)]; decide +kernel
    have := natpow_modEq this
    rwa [Nat.cast_one] at this
  g_pow := by
    have : leakH1 ^ (leakE * 65537) % leakP = 1 % leakP := by
      rw [Pratt.pow_mod_eq (f := 1024) (by decide +kernel)]; decide +kernel
    have := natpow_modEq this
    rwa [Nat.cast_one, pow_mul] at this
  g_ne := by
    intro h
    have h1 : (leakH1 : ℤ) ^ leakE ≡ (1 : ℕ) [ZMOD leakP] := by rw [Nat.cast_one]; exact h
    have h2 : leakH1 ^ leakE % leakP = 1 % leakP := by
      have : ((leakH1 ^ leakE : ℕ) : ℤ) ≡ (1 : ℕ) [ZMOD leakP] := by rw [Nat.cast_pow]; exact h1
      exact Int.natCast_modEq_iff.1 this
    rw [Pratt.pow_mod_eq (f := 1024) (by decide +kernel)] at h2
    exact absurd h2 (by decide +kernel)

end Verif
