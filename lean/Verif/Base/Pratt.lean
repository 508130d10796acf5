import Mathlib.NumberTheory.LucasPrimality
import Mathlib.Tactic.NormNum.Prime

/-!
# Lucas primality by kernel evaluation

Modular exponentiation that the kernel can evaluate on literals of hundreds of bits, and the Lucas
primality criterion stated with it.
-/

namespace Verif.Pratt

/-- `acc * b ^ e mod m` by repeated squaring; `fuel` bounds the number of bits of `e`. -/
def pm (m : ℕ) : ℕ → ℕ → ℕ → ℕ → ℕ
  | 0, _, _, acc => acc
  | f + 1, b, e, acc => pm m f (b * b % m) (e / 2) (if e % 2 = 1 then acc * b % m else acc)

theorem pm_spec (m : ℕ) : ∀ f b e acc : ℕ, e < 2 ^ f →
    (pm m f b e acc : ZMod m) = (acc : ZMod m) * (b : ZMod m) ^ e := by
  intro f
  induction f with
  | zero => intro b e acc h; have : e = 0 := by simpa using h
            simp [pm, this]
  | succ f ih =>
    intro b e acc h
    have h2 : e / 2 < 2 ^ f := by rw [pow_succ] at h; omega
    rw [pm, ih _ _ _ h2]
    have hb : ((b * b % m : ℕ) : ZMod m) = (b : ZMod m) * b := by
      rw [ZMod.natCast_mod]; push_cast; ring
    rw [hb]
    split
    · rename_i h1
      rw [ZMod.natCast_mod, Nat.cast_mul, ← pow_two, ← pow_mul, mul_assoc, ← pow_succ']
      congr 2; omega
    · rename_i h1
      rw [← pow_two, ← pow_mul]
      congr 2; omega

/-- Lucas' criterion with the computation done by `pm`. -/
theorem prime_of_cert {p a : ℕ} (F : ℕ) (hp : 1 < p) (hfuel : p < 2 ^ F)
    (h1 : pm p F a (p - 1) 1 = 1) (fs : List ℕ)
    (hfs : ∀ q : ℕ, q.Prime → q ∣ p - 1 → q ∈ fs)
    (h2 : ∀ q ∈ fs, pm p F a ((p - 1) / q) 1 % p ≠ 1) : p.Prime := by
  refine lucas_primality p (a : ZMod p) ?_ ?_
  · have := pm_spec p F a (p - 1) 1 (by omega)
    rw [h1] at this; simpa using this.symm
  · intro q hq hd h
    have hle : (p - 1) / q < 2 ^ F := lt_of_le_of_lt (Nat.div_le_self _ _) (by omega)
    have := pm_spec p F a ((p - 1) / q) 1 hle
    rw [Nat.cast_one, one_mul, h] at this
    have h3 : ((pm p F a ((p - 1) / q) 1 : ℕ) : ZMod p) = ((1 : ℕ) : ZMod p) := by simpa using this
    have h4 := (ZMod.natCast_eq_natCast_iff' _ _ _).1 h3
    rw [Nat.mod_eq_of_lt hp] at h4
    exact h2 q (hfs q hq hd) h4

/-- Lucas' criterion from a complete list of prime factors of `p - 1`. -/
theorem prime_of_list {p a : ℕ} (F : ℕ) (fs : List ℕ) (hp : 1 < p) (hfuel : p < 2 ^ F)
    (hprod : fs.prod = p - 1) (h1 : pm p F a (p - 1) 1 = 1)
    (h2 : ∀ q ∈ fs, pm p F a ((p - 1) / q) 1 % p ≠ 1) (hfs : ∀ q ∈ fs, q.Prime) : p.Prime := by
  refine prime_of_cert F hp hfuel h1 fs ?_ h2
  intro q hq hd
  rw [← hprod] at hd
  obtain ⟨a, ha, hqa⟩ := (Prime.dvd_prod_iff hq.prime).1 hd
  rwa [(Nat.prime_dvd_prime_iff_eq hq (hfs a ha)).1 hqa]

end Verif.Pratt
