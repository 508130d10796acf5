import Verif.Base.Pratt
import Verif.Ext.Crypto

/-!
# Two 1024-bit primes

Used only to show that the hypotheses of the theorems (genuine 2048-bit Paillier and auxiliary
moduli) can be met.
-/

namespace Verif

def bigP : ℕ := 1331 * 2 ^ 1013 + 1
def bigQ : ℕ := 3931 * 2 ^ 1012 + 1

theorem bigP_prime : bigP.Prime := by
  refine Pratt.prime_of_cert (a := 3) 1024 (by decide +kernel) (by decide +kernel)
    (by decide +kernel) [2, 11] ?_ (by decide +kernel)
  intro q hq hd
  have : bigP - 1 = 11 ^ 3 * 2 ^ 1013 := by decide +kernel
  rw [this] at hd
  rcases (Nat.Prime.dvd_mul hq).1 hd with h | h
  · have := (Nat.prime_dvd_prime_iff_eq hq (by norm_num)).1 (hq.dvd_of_dvd_pow h)
    simp [this]
  · have := (Nat.prime_dvd_prime_iff_eq hq Nat.prime_two).1 (hq.dvd_of_dvd_pow h)
    simp [this]

theorem bigQ_prime : bigQ.Prime := by
  refine Pratt.prime_of_cert (a := 3) 1024 (by decide +kernel) (by decide +kernel)
    (by decide +kernel) [2, 3931] ?_ (by decide +kernel)
  intro q hq hd
  have : bigQ - 1 = 3931 * 2 ^ 1012 := by decide +kernel
  rw [this] at hd
  rcases (Nat.Prime.dvd_mul hq).1 hd with h | h
  · have := (Nat.prime_dvd_prime_iff_eq hq (by norm_num)).1 h
    simp [this]
  · have := (Nat.prime_dvd_prime_iff_eq hq Nat.prime_two).1 (hq.dvd_of_dvd_pow h)
    simp [this]

theorem bigP_ne_bigQ : bigP ≠ bigQ := by decide +kernel

theorem big_size : (bigP * bigQ).size = 2048 := by
  refine le_antisymm (Nat.size_le.2 (by decide +kernel)) ?_
  exact Nat.lt_size.2 (by decide +kernel)

theorem big_coprime : Nat.Coprime (bigP * bigQ) ((bigP - 1) * (bigQ - 1)) := by decide +kernel

theorem big_large : DecKey.Large ⟨bigP, bigQ⟩ := ⟨by decide +kernel, by decide +kernel⟩

end Verif
