import Verif.Lemmas.Paillier
import Mathlib.NumberTheory.Basic
import Mathlib.Tactic.LinearCombination

/-! Every integer coprime to the modulus is a Paillier ciphertext, and opening it gives back values that
re-encrypt to it. -/

namespace Verif.Paillier

theorem exists_isEnc {dk : DecKey} (hv : dk.Valid) {c : ℤ} (hc : Int.gcd c dk.n = 1) :
    ∃ m r, Int.gcd r dk.n = 1 ∧ IsEnc dk.n c m r := by
  set phi : ℕ := (dk.p - 1) * (dk.q - 1) with hphi
  have hp := hv.p_prime.two_le
  have hq := hv.q_prime.two_le
  have hne := hv.ne
  have hphi1 : 1 < phi := by
    by_contra hcon
    have : phi = 1 := by
      have : 0 < phi := by rw [hphi]; exact Nat.mul_pos (by omega) (by omega)
      omega
    have ha := Nat.eq_one_of_mul_eq_one_right this
    have hb := Nat.eq_one_of_mul_eq_one_left this
    omega
  have hco : Nat.Coprime dk.n phi := hv.coprime
  obtain ⟨d, -, hd⟩ := Nat.exists_mul_mod_eq_one_of_coprime hco hphi1
  obtain ⟨t, ht⟩ : ∃ t, dk.n * d = 1 + phi * t :=
    ⟨dk.n * d / phi, by have := Nat.mod_add_div (dk.n * d) phi; omega⟩
  have hcoz : IsCoprime (dk.n : ℤ) (phi : ℤ) := Nat.isCoprime_iff_coprime.2 hco
  obtain ⟨b, a, hab⟩ := hcoz
  have heuler : c ^ phi ≡ 1 [ZMOD dk.n] := by
    have := GG20.euler_pq hv.p_prime hv.q_prime hv.ne (h := c) (by
      unfold DecKey.n at hc; push_cast at hc; exact hc)
    unfold DecKey.n; push_cast; exact this
  obtain ⟨u, hu⟩ := Int.modEq_iff_dvd.1 heuler.symm
  set m : ℤ := u * a with hm
  set y : ℤ := c * (1 + (-m) * dk.n) with hy
  have hyphi : y ^ phi ≡ 1 [ZMOD (dk.n * dk.n : ℤ)] := by
    rw [hy, mul_pow]
    refine ((one_add_pow dk.n (-m) phi).mul_left _).trans ?_
    rw [Int.modEq_iff_dvd]
    have hc' : c ^ phi = 1 + dk.n * u := by linarith
    rw [hc']
    exact ⟨phi * m * u - u * b, by rw [hm]; linear_combination ((dk.n : ℤ) * u) * hab⟩
  have hyd : y ^ (d * dk.n) ≡ y [ZMOD (dk.n * dk.n : ℤ)] := by
    rw [mul_comm d, ht, pow_add, pow_one, pow_mul]
    simpa using (hyphi.pow t).mul_left y
  have henc : IsEnc dk.n c m (y ^ d) := by
    unfold IsEnc
    rw [← pow_mul]
    refine Int.ModEq.symm ((hyd.mul_left _).trans ?_)
    rw [hy, Int.modEq_iff_dvd]
    exact ⟨c * m * m, by ring⟩
  refine ⟨m, y ^ d, ?_, henc⟩
  rw [← Int.isCoprime_iff_gcd_eq_one] at hc ⊢
  refine IsCoprime.pow_left (IsCoprime.mul_left hc ?_)
  exact ⟨1, m, by ring⟩

/-- Opening a canonical ciphertext gives values that re-encrypt to it. -/
theorem encrypt_open {dk : DecKey} (hv : dk.Valid) {c : ℤ} (hc : Int.gcd c dk.n = 1) (h0 : 0 ≤ c)
    (h1 : c < dk.n * dk.n) {x r : ℤ} (h : openCiphertext dk c = some (x, r)) :
    decrypt dk c = some x ∧ encrypt dk.n x r = c := by
  obtain ⟨m, s, hs, henc⟩ := exists_isEnc hv hc
  rw [open_spec hv henc hs] at h
  cases h
  refine ⟨decrypt_spec hv henc hs, ?_⟩
  have hn : 0 < dk.n := Nat.mul_pos hv.p_prime.pos hv.q_prime.pos
  have hnz : (0 : ℤ) < dk.n := by exact_mod_cast hn
  obtain ⟨r0, r1⟩ := encrypt_range (r := s % dk.n) hn (Int.emod_nonneg m hnz.ne')
  have h2 : encrypt dk.n (m % dk.n) (s % dk.n) ≡ c [ZMOD (dk.n * dk.n : ℤ)] := by
    have e1 : IsEnc dk.n (encrypt dk.n (m % dk.n) (s % dk.n)) m (s % dk.n) :=
      (isEnc_encrypt _ _ _).congr (Int.mod_modEq _ _)
    refine Int.ModEq.trans e1 ?_
    refine Int.ModEq.trans ?_ henc.symm
    refine Int.ModEq.mul_left _ ?_
    have h3 : (dk.n : ℤ) ∣ s - s % dk.n := Int.dvd_self_sub_emod
    have h4 := dvd_sub_pow_of_dvd_sub h3 1
    rw [Int.modEq_iff_dvd]
    simpa [pow_two] using h4
  have h3 := h2.eq
  rwa [Int.emod_eq_of_lt r0 r1, Int.emod_eq_of_lt h0 h1] at h3

/-- Two ciphertexts in range with the same plaintext and randomness are equal. -/
theorem IsEnc.unique {n : ℕ} {c c' m r : ℤ} (h : IsEnc n c m r) (h' : IsEnc n c' m r)
    (h0 : 0 ≤ c) (h1 : c < (n : ℤ) * n) (h0' : 0 ≤ c') (h1' : c' < (n : ℤ) * n) : c = c' := by
  have h2 : c % ((n : ℤ) * n) = c' % ((n : ℤ) * n) := (Int.ModEq.trans h h'.symm).eq
  rwa [Int.emod_eq_of_lt h0 h1, Int.emod_eq_of_lt h0' h1'] at h2

end Verif.Paillier
