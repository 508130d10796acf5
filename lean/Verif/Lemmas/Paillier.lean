import Verif.Ext.Paillier
import Verif.Lemmas.AuxModulus

/-! Lemmas on Paillier encryption. -/

namespace Verif.Paillier

theorem one_add_pow (n : ℕ) (m : ℤ) (k : ℕ) :
    (1 + m * n) ^ k ≡ 1 + k * m * n [ZMOD (n * n : ℤ)] := by
  induction k with
  | zero => simp
  | succ k ih =>
    rw [pow_succ]
    refine (ih.mul_right _).trans ?_
    rw [Int.modEq_iff_dvd]
    exact ⟨-(k * m * m), by push_cast; ring⟩

theorem isEnc_encrypt (n : ℕ) (m r : ℤ) : IsEnc n (encrypt n m r) m r := by
  unfold IsEnc encrypt
  refine (rem_modEq _ _).trans ?_
  refine Int.ModEq.mul ((rem_modEq _ _).trans ?_) (Int.mod_modEq _ _)
  rw [add_comm]

theorem IsEnc.add {n : ℕ} {c1 c2 m1 m2 r1 r2 : ℤ} (h1 : IsEnc n c1 m1 r1) (h2 : IsEnc n c2 m2 r2) :
    IsEnc n (Paillier.add n c1 c2) (m1 + m2) (r1 * r2) := by
  unfold IsEnc Paillier.add at *
  refine (rem_modEq _ _).trans ((h1.mul h2).trans ?_)
  rw [Int.modEq_iff_dvd]
  exact ⟨-(m1 * m2 * (r1 ^ n * r2 ^ n)), by ring⟩

theorem IsEnc.mul {n : ℕ} {c m r : ℤ} (h : IsEnc n c m r) (k : ℕ) :
    IsEnc n (Paillier.mul n c k) (k * m) (r ^ k) := by
  unfold IsEnc Paillier.mul at *
  refine (Int.mod_modEq _ _).trans ((h.pow k).trans ?_)
  rw [mul_pow, ← pow_mul, ← pow_mul, mul_comm n k]
  exact (one_add_pow n m k).mul_right _

theorem IsEnc.congr {n : ℕ} {c m m' r : ℤ} (h : IsEnc n c m r) (hm : m ≡ m' [ZMOD n]) :
    IsEnc n c m' r := by
  unfold IsEnc at *
  refine h.trans (Int.ModEq.mul_right _ ?_)
  obtain ⟨k, hk⟩ := Int.modEq_iff_dvd.1 hm
  rw [Int.modEq_iff_dvd]
  exact ⟨k, by linear_combination (n : ℤ) * hk⟩

/-- Plaintexts that differ by the modulus have the same encryptions. -/
theorem encrypt_add_modulus (n : ℕ) {m r : ℤ} (hm : 0 ≤ m) :
    encrypt n (m + n) r = encrypt n m r := by
  unfold encrypt
  have h1 : rem ((m + n) * n + 1) (n * n) = rem (m * n + 1) (n * n) := by
    rw [rem_of_nonneg (by positivity), rem_of_nonneg (by positivity)]
    have : (m + n) * n + 1 = m * n + 1 + (n * n : ℤ) * 1 := by ring
    rw [this, Int.add_mul_emod_self_left]
  simp only [h1]

theorem encrypt_range {n : ℕ} {m r : ℤ} (hn : 0 < n) (hm : 0 ≤ m) :
    0 ≤ encrypt n m r ∧ encrypt n m r < n * n := by
  unfold encrypt
  have hnn : (0 : ℤ) < n * n := by positivity
  have h1 : 0 ≤ rem (m * n + 1) (n * n) := by
    rw [rem_of_nonneg (by positivity)]; exact Int.emod_nonneg _ hnn.ne'
  rw [rem_of_nonneg (mul_nonneg h1 (Int.emod_nonneg _ hnn.ne'))]
  exact ⟨Int.emod_nonneg _ hnn.ne', Int.emod_lt_of_pos _ hnn⟩

theorem IsEnc.coprime {n : ℕ} {c m r : ℤ} (h : IsEnc n c m r) (hr : Int.gcd r n = 1) :
    Int.gcd c n = 1 := by
  have h1 : c ≡ r ^ n [ZMOD n] := by
    have := h.of_mul_right n
    refine this.trans ?_
    rw [Int.modEq_iff_dvd]
    exact ⟨-(m * r ^ n), by ring⟩
  obtain ⟨k, hk⟩ := Int.modEq_iff_dvd.1 h1
  rw [← Int.isCoprime_iff_gcd_eq_one] at hr ⊢
  have e : c = r ^ n + n * (-k) := by linarith
  rw [e]
  exact hr.pow_left.add_mul_left_left _

theorem gcd_mul_self {c n : ℤ} : Int.gcd c (n * n) = 1 ↔ Int.gcd c n = 1 := by
  rw [← Int.isCoprime_iff_gcd_eq_one, ← Int.isCoprime_iff_gcd_eq_one]
  exact ⟨fun h => h.of_mul_right_left, fun h => IsCoprime.mul_right h h⟩

theorem l_spec {p u k : ℤ} (hp : p ≠ 0) (h : u = 1 + p * k) : l u p = k := by
  unfold l
  rw [h, show 1 + p * k - 1 = p * k by ring, Int.mul_tdiv_cancel_left _ hp]

theorem pow_one_mod_sq {p : ℕ} (hp : p.Prime) {r : ℤ} (hr : Int.gcd r p = 1) :
    r ^ (p * (p - 1)) ≡ 1 [ZMOD (p * p : ℤ)] := by
  have ht : Nat.totient (p * p) = p * (p - 1) := by
    rw [← pow_two, Nat.totient_prime_pow hp (by norm_num)]; simp
  have hu : IsUnit ((r : ℤ) : ZMod (p * p)) := by
    rw [ZMod.coe_int_isUnit_iff_isCoprime, Int.isCoprime_iff_gcd_eq_one, Int.gcd_comm]
    push_cast
    exact gcd_mul_self.2 hr
  have h2 : ((r : ZMod (p * p))) ^ (p * (p - 1)) = 1 := by
    have := ZMod.pow_totient hu.unit
    rw [← ht]
    rw [← Units.val_eq_one, Units.val_pow_eq_pow_val, IsUnit.unit_spec] at this
    exact this
  have h3 : (((r ^ (p * (p - 1)) : ℤ)) : ZMod (p * p)) = ((1 : ℤ) : ZMod (p * p)) := by
    push_cast; exact h2
  have := (ZMod.intCast_eq_intCast_iff _ _ _).1 h3
  simpa using this

theorem h_isSome {p q : ℕ} (hp : p.Prime) (hq : q.Prime) (hne : p ≠ q) :
    ∃ hp' : ℤ, h p (p * q) = some hp' ∧ -(q : ℤ) * hp' ≡ 1 [ZMOD p] := by
  have hp0 : (p : ℤ) ≠ 0 := by exact_mod_cast hp.ne_zero
  obtain ⟨k, hk⟩ : ∃ k : ℤ, (1 - ((p * q : ℕ) : ℤ)) % (p * p) = 1 + p * (-q + p * k) := by
    refine ⟨-((1 - ((p * q : ℕ) : ℤ)) / (p * p)), ?_⟩
    have := Int.emod_add_mul_ediv (1 - ((p * q : ℕ) : ℤ)) (p * p)
    push_cast at this ⊢
    linarith
  unfold h
  rw [hk, l_spec hp0 rfl]
  have hg : Int.gcd (-(q : ℤ) + p * k) p = 1 := by
    rw [← Int.isCoprime_iff_gcd_eq_one]
    have : IsCoprime (q : ℤ) p := by
      rw [Nat.isCoprime_iff_coprime]; exact (Nat.coprime_primes hq hp).2 (Ne.symm hne)
    exact (this.neg_left).add_mul_left_left k
  have hs := modInv_isSome.2 hg
  obtain ⟨i, hi⟩ := Option.isSome_iff_exists.1 hs
  refine ⟨i, hi, ?_⟩
  have := modInv_eq_some hi
  refine Int.ModEq.trans ?_ this
  rw [Int.modEq_iff_dvd]
  exact ⟨k * i, by ring⟩

theorem decryptMod_spec {p q : ℕ} (hp : p.Prime) (hq : q.Prime) (hne : p ≠ q) {c m r : ℤ}
    (hc : IsEnc (p * q) c m r) (hr : Int.gcd r p = 1) :
    ∃ x, decryptMod p (p * q) c = some x ∧ x ≡ m [ZMOD p] ∧ 0 ≤ x ∧ x < p := by
  obtain ⟨hp', h1, h2⟩ := h_isSome hp hq hne
  have hp0 : (p : ℤ) ≠ 0 := by exact_mod_cast hp.ne_zero
  have hppos : (0 : ℤ) < p := by exact_mod_cast hp.pos
  unfold decryptMod
  rw [h1]
  refine ⟨_, rfl, ?_, Int.emod_nonneg _ hp0, Int.emod_lt_of_pos _ hppos⟩
  -- the power modulo p²
  have hc2 : c ≡ (1 + m * ((p * q : ℕ) : ℤ)) * r ^ (p * q) [ZMOD (p * p : ℤ)] := by
    unfold IsEnc at hc
    refine hc.of_dvd ⟨(q : ℤ) * q, by push_cast; ring⟩
  have hpow : (c % (p * p)) ^ (p - 1) ≡ 1 - m * (p * q) [ZMOD (p * p : ℤ)] := by
    refine ((Int.mod_modEq _ _).pow _).trans ((hc2.pow _).trans ?_)
    rw [mul_pow, ← pow_mul]
    have e1 : r ^ (p * q * (p - 1)) ≡ 1 [ZMOD (p * p : ℤ)] := by
      rw [show p * q * (p - 1) = (p * (p - 1)) * q by ring, pow_mul]
      simpa using (pow_one_mod_sq hp hr).pow q
    have e2 : (1 + m * ((p * q : ℕ) : ℤ)) ^ (p - 1) ≡ 1 - m * (p * q) [ZMOD (p * p : ℤ)] := by
      have h3 := (one_add_pow p (m * q) (p - 1))
      have h4 : 1 + m * ((p * q : ℕ) : ℤ) = 1 + m * q * p := by push_cast; ring
      rw [h4]
      refine h3.trans ?_
      rw [Int.modEq_iff_dvd]
      refine ⟨-(m * q), ?_⟩
      rw [Nat.cast_sub hp.one_le]
      push_cast; ring
    simpa using e2.mul e1
  obtain ⟨k, hk⟩ : ∃ k : ℤ, (c % (p * p)) ^ (p - 1) % (p * p) = 1 + p * (-(m * q) + p * k) := by
    obtain ⟨k, hk⟩ := Int.modEq_iff_dvd.1 ((Int.mod_modEq ((c % (p * p)) ^ (p - 1)) (p * p)).trans hpow)
    exact ⟨-k, by linarith⟩
  rw [hk, l_spec hp0 rfl]
  refine (Int.mod_modEq _ _).trans ?_
  have : (-(m * q) + p * k) * hp' = m * (-(q : ℤ) * hp') + p * (k * hp') := by ring
  rw [this]
  have h5 : m * (-(q : ℤ) * hp') + p * (k * hp') ≡ m * (-(q : ℤ) * hp') [ZMOD p] := by
    rw [Int.modEq_iff_dvd]; exact ⟨-(k * hp'), by ring⟩
  exact h5.trans (by simpa using h2.mul_left m)

theorem recombine_spec {p q : ℕ} {x1 x2 pinv m : ℤ} (hq0 : 0 < q)
    (h1 : x1 ≡ m [ZMOD p]) (h1r : 0 ≤ x1 ∧ x1 < p) (h2 : x2 ≡ m [ZMOD q])
    (hinv : (p : ℤ) * pinv ≡ 1 [ZMOD q]) (hco : IsCoprime (p : ℤ) q) :
    recombine x1 x2 p q pinv = m % (p * q) := by
  unfold recombine
  set u := (x2 - x1) % (q : ℤ) * pinv % q with hu
  have hqz : (0 : ℤ) < q := by exact_mod_cast hq0
  have hu0 : 0 ≤ u := Int.emod_nonneg _ hqz.ne'
  have hu1 : u < q := Int.emod_lt_of_pos _ hqz
  have hmp : x1 + u * p ≡ m [ZMOD p] := by
    refine Int.ModEq.trans ?_ h1
    rw [Int.modEq_iff_dvd]; exact ⟨-u, by ring⟩
  have hmq : x1 + u * p ≡ m [ZMOD q] := by
    have e : u ≡ (x2 - x1) * pinv [ZMOD q] :=
      (Int.mod_modEq _ _).trans ((Int.mod_modEq _ _).mul_right _)
    have e2 : x1 + u * p ≡ x1 + (x2 - x1) * (p * pinv) [ZMOD q] := by
      have := (e.mul_right (p : ℤ)).add_left x1
      refine this.trans ?_
      rw [show (x2 - x1) * pinv * (p : ℤ) = (x2 - x1) * (p * pinv) by ring]
    refine e2.trans ?_
    have e3 : x1 + (x2 - x1) * (p * pinv) ≡ x1 + (x2 - x1) * 1 [ZMOD q] :=
      (hinv.mul_left _).add_left _
    refine e3.trans ?_
    rw [show x1 + (x2 - x1) * 1 = x2 by ring]; exact h2
  have hm : x1 + u * p ≡ m [ZMOD (p * q)] := by
    rw [Int.modEq_iff_dvd] at *
    exact hco.mul_dvd hmp hmq
  have hr : 0 ≤ x1 + u * p ∧ x1 + u * p < p * q := by
    have hp0 : (0 : ℤ) ≤ p := by positivity
    constructor
    · exact add_nonneg h1r.1 (mul_nonneg hu0 hp0)
    · nlinarith [h1r.2]
  rw [← Int.emod_eq_of_lt hr.1 hr.2]; exact hm

/-- Decryption inverts encryption. -/
theorem decrypt_spec {dk : DecKey} (hv : dk.Valid) {c m r : ℤ} (hc : IsEnc dk.n c m r)
    (hr : Int.gcd r dk.n = 1) : decrypt dk c = some (m % dk.n) := by
  have hco : IsCoprime r ((dk.p : ℤ) * dk.q) := by
    rw [Int.isCoprime_iff_gcd_eq_one]; unfold DecKey.n at hr; push_cast at hr; exact hr
  have hrp : Int.gcd r dk.p = 1 := Int.isCoprime_iff_gcd_eq_one.1 hco.of_mul_right_left
  have hrq : Int.gcd r dk.q = 1 := Int.isCoprime_iff_gcd_eq_one.1 hco.of_mul_right_right
  obtain ⟨x1, e1, m1, r1⟩ := decryptMod_spec hv.p_prime hv.q_prime hv.ne hc hrp
  have hc' : IsEnc (dk.q * dk.p) c m r := by rw [mul_comm]; exact hc
  obtain ⟨x2, e2, m2, r2⟩ := decryptMod_spec hv.q_prime hv.p_prime (Ne.symm hv.ne) hc' hrq
  have hpq : IsCoprime (dk.p : ℤ) dk.q := by
    rw [Nat.isCoprime_iff_coprime]; exact (Nat.coprime_primes hv.p_prime hv.q_prime).2 hv.ne
  obtain ⟨pinv, e3⟩ := Option.isSome_iff_exists.1
    (modInv_isSome.2 (Int.isCoprime_iff_gcd_eq_one.1 hpq))
  unfold decrypt
  have e2' : decryptMod dk.q dk.n c = some x2 := by unfold DecKey.n; rw [mul_comm]; exact e2
  have e1' : decryptMod dk.p dk.n c = some x1 := e1
  rw [e1', e2', e3]
  simp only [Option.bind_eq_bind, Option.bind_some]
  rw [recombine_spec hv.q_prime.pos m1 r1 m2 (modInv_eq_some e3) hpq]
  simp [DecKey.n]

/-- Decryption with a valid key never fails, even on values that are no ciphertexts. -/
theorem decrypt_isSome {dk : DecKey} (hv : dk.Valid) (c : ℤ) : ∃ m, decrypt dk c = some m := by
  obtain ⟨a, ha, -⟩ := h_isSome hv.p_prime hv.q_prime hv.ne
  obtain ⟨b, hb, -⟩ := h_isSome hv.q_prime hv.p_prime (Ne.symm hv.ne)
  have hpq : IsCoprime (dk.p : ℤ) dk.q := by
    rw [Nat.isCoprime_iff_coprime]; exact (Nat.coprime_primes hv.p_prime hv.q_prime).2 hv.ne
  obtain ⟨pinv, e3⟩ := Option.isSome_iff_exists.1
    (modInv_isSome.2 (Int.isCoprime_iff_gcd_eq_one.1 hpq))
  have ha' : h dk.p dk.n = some a := ha
  have hb' : h dk.q dk.n = some b := by unfold DecKey.n; rw [mul_comm]; exact hb
  unfold decrypt decryptMod
  rw [ha', hb', e3]
  exact ⟨_, rfl⟩

/-- Opening recovers plaintext and randomness. -/
theorem open_spec {dk : DecKey} (hv : dk.Valid) {c m r : ℤ} (hc : IsEnc dk.n c m r)
    (hr : Int.gcd r dk.n = 1) : openCiphertext dk c = some (m % dk.n, r % dk.n) := by
  unfold openCiphertext
  rw [decrypt_spec hv hc hr]
  set phi : ℕ := (dk.p - 1) * (dk.q - 1) with hphi
  have hphipos : 0 < phi := by
    have := hv.p_prime.two_le; have := hv.q_prime.two_le
    rw [hphi]; exact Nat.mul_pos (by omega) (by omega)
  have hg : Int.gcd (dk.n : ℤ) (phi : ℤ) = 1 := by
    rw [Int.gcd_natCast_natCast]; exact hv.coprime
  obtain ⟨d, hd⟩ := Option.isSome_iff_exists.1 (modInv_isSome.2 hg)
  simp only [Option.bind_eq_bind, Option.bind_some, hd]
  have hd1 := modInv_eq_some hd
  have hd2 := modInv_range (by exact_mod_cast hphipos) hd
  congr 2
  -- the n-th root
  have hrn : c * ((1 - m % dk.n * dk.n) % (dk.n * dk.n)) ≡ r ^ dk.n [ZMOD dk.n] := by
    have e1 : (1 - m % dk.n * dk.n) % (dk.n * dk.n : ℤ) ≡ 1 [ZMOD dk.n] := by
      refine ((Int.mod_modEq _ _).of_mul_right _).trans ?_
      rw [Int.modEq_iff_dvd]; exact ⟨m % dk.n, by ring⟩
    have e2 : c ≡ r ^ dk.n [ZMOD dk.n] := by
      refine (Int.ModEq.of_mul_right _ hc).trans ?_
      rw [Int.modEq_iff_dvd]; exact ⟨-(m * r ^ dk.n), by ring⟩
    simpa using e2.mul e1
  have hfin : (c * ((1 - m % dk.n * dk.n) % (dk.n * dk.n)) % dk.n) ^ d.toNat ≡ r [ZMOD dk.n] := by
    refine (((Int.mod_modEq _ _).trans hrn).pow _).trans ?_
    rw [← pow_mul]
    obtain ⟨k, hk⟩ := Int.modEq_iff_dvd.1 hd1
    have hex : ∃ j : ℕ, dk.n * d.toNat = 1 + phi * j := by
      refine ⟨(-k).toNat, ?_⟩
      have h3 : (d.toNat : ℤ) = d := by omega
      have hk' : (dk.n : ℤ) * d = 1 + phi * (-k) := by linarith
      have hn1 : 0 < dk.n := Nat.mul_pos hv.p_prime.pos hv.q_prime.pos
      have hk0 : 0 ≤ -k := by
        by_contra hneg
        have h5 : (phi : ℤ) * (-k) ≤ -phi := by nlinarith
        have h6 : 0 ≤ (dk.n : ℤ) * d := mul_nonneg (by positivity) hd2.1
        have h7 : (phi : ℤ) = 1 := by omega
        have h8 : d = 0 := by omega
        have : -k = -1 := by rw [h8, h7] at hk'; linarith
        -- d = 0 and phi = 1: impossible, since then p = q = 2
        have hpq : (dk.p - 1) * (dk.q - 1) = 1 := by
          have : phi = 1 := by exact_mod_cast h7
          exact this
        have ha := Nat.eq_one_of_mul_eq_one_right hpq
        have hb := Nat.eq_one_of_mul_eq_one_left hpq
        exact hv.ne (by omega)
      have : ((dk.n * d.toNat : ℕ) : ℤ) = ((1 + phi * (-k).toNat : ℕ) : ℤ) := by
        push_cast
        rw [h3, hk', Int.toNat_of_nonneg hk0]
      exact_mod_cast this
    obtain ⟨j, hj⟩ := hex
    rw [hj, pow_add, pow_one, pow_mul]
    have heuler : r ^ phi ≡ 1 [ZMOD dk.n] := by
      have := GG20.euler_pq hv.p_prime hv.q_prime hv.ne (h := r) (by
        unfold DecKey.n at hr; push_cast at hr; exact hr)
      unfold DecKey.n; push_cast; exact this
    simpa using (heuler.pow j).mul_left r
  simp only [hfin.eq]

end Verif.Paillier
