import Verif.Ext.ZkPaillier
import Verif.Lemmas.Paillier

namespace Verif.ZkPaillier

variable (digest : List ℤ → ℕ)

theorem mod_mul_mod_eq_iff {a b x N : ℤ} (hx : 0 ≤ x ∧ x < N) :
    x = a * b % N ↔ x ≡ a * b [ZMOD N] := by
  constructor
  · intro h; rw [h]; exact Int.mod_modEq _ _
  · intro h; rw [← h.eq, Int.emod_eq_of_lt hx.1 hx.2]

/-- An honest proof of a discrete logarithm verifies. -/
theorem CompositeDLogProof.complete (st : DLogStatement) (secret r : ℕ) (hN : 2 ^ 128 < st.N)
    (hg : Int.gcd st.g st.N = 1) (hni : Int.gcd st.ni st.N = 1)
    (hs : st.g ^ secret * st.ni ≡ 1 [ZMOD st.N]) :
    (prove digest st secret r).verify digest st = some true := by
  have hpos : 0 < st.N := lt_trans (by norm_num) hN
  unfold verify
  rw [if_pos ⟨hN, hg, hni⟩]
  set x := st.g ^ r % st.N with hx
  set e := challenge digest st x with he
  have hy : (prove digest st secret r).y = ((r + e * secret : ℕ) : ℤ) := by
    simp [prove, he, hx]
  rw [hy]
  show ((modPow st.ni (e : ℕ) st.N).bind fun a => _) = _
  rw [modPow_natCast _ hpos.ne', modPow_natCast _ hpos.ne']
  simp only [Option.bind_some, Option.bind_eq_bind, Option.some.injEq, decide_eq_true_eq]
  refine (mod_mul_mod_eq_iff ⟨Int.emod_nonneg _ hpos.ne', Int.emod_lt_of_pos _ hpos⟩).2 ?_
  have h1 : (st.g ^ secret * st.ni) ^ e ≡ 1 [ZMOD st.N] := by simpa using hs.pow e
  have h2 : st.g ^ (r + e * secret) * st.ni ^ e ≡ st.g ^ r [ZMOD st.N] := by
    have := h1.mul_left (st.g ^ r)
    rw [mul_one] at this
    have he : st.g ^ (r + e * secret) * st.ni ^ e = st.g ^ r * (st.g ^ secret * st.ni) ^ e := by
      rw [mul_pow, ← pow_mul, pow_add, mul_comm secret e]; ring
    rw [he]; exact this
  refine ((Int.mod_modEq _ _).trans h2.symm).trans ?_
  exact ((Int.mod_modEq _ _).mul (Int.mod_modEq _ _)).symm

/-- When verification panics -/
theorem CompositeDLogProof.verify_eq_none (pf : CompositeDLogProof) (st : DLogStatement) :
    pf.verify digest st = none ↔
      ¬ (2 ^ 128 < st.N ∧ Int.gcd st.g st.N = 1 ∧ Int.gcd st.ni st.N = 1) := by
  unfold verify
  by_cases h : 2 ^ 128 < st.N ∧ Int.gcd st.g st.N = 1 ∧ Int.gcd st.ni st.N = 1
  · rw [if_pos h]
    have hpos : 0 < st.N := lt_trans (by norm_num) h.1
    obtain ⟨b, hb⟩ : ∃ b, modPow st.g pf.y st.N = some b := by
      unfold modPow
      rw [if_neg hpos.ne']
      split
      · exact ⟨_, rfl⟩
      · obtain ⟨i, hi⟩ := Option.isSome_iff_exists.1 (modInv_isSome.2 h.2.1)
        exact ⟨_, by rw [hi]; rfl⟩
    rw [modPow_natCast _ hpos.ne', hb]
    exact ⟨fun h => (nomatch h), fun h' => absurd h h'⟩
  · rw [if_neg h]
    exact ⟨fun _ => h, fun _ => rfl⟩

/-- Exponents that invert each other modulo `p - 1` -/
theorem pow_pow_inv {p d n : ℕ} (hp : p.Prime) (h2 : 2 < p) (hd : d * n ≡ 1 [MOD (p - 1)]) (z : ℤ) :
    (z ^ d) ^ n ≡ z [ZMOD p] := by
  have : Fact p.Prime := ⟨hp⟩
  rw [← pow_mul, ← ZMod.intCast_eq_intCast_iff]
  push_cast
  have hpos : 1 ≤ d * n := by
    rcases Nat.eq_zero_or_pos (d * n) with h | h
    · rw [h] at hd
      have := (Nat.modEq_iff_dvd' (Nat.zero_le 1)).1 hd
      have := Nat.le_of_dvd (by norm_num) this
      omega
    · exact h
  obtain ⟨k, hk⟩ := (Nat.modEq_iff_dvd' hpos).1 hd.symm
  have hdn : d * n = (p - 1) * k + 1 := by omega
  rw [hdn, pow_succ, pow_mul]
  by_cases h0 : (z : ZMod p) = 0
  · simp [h0]
  · rw [ZMod.pow_card_sub_one_eq_one h0, one_pow, one_mul]

/-- The root modulo one of the primes -/
theorem nroot_mod {dk : DecKey} (hv : dk.Valid) (hl : dk.Large) (z : ℤ) :
    (nroot dk z) ^ dk.n ≡ z [ZMOD dk.p] ∧ (nroot dk z) ^ dk.n ≡ z [ZMOD dk.q] := by
  have hp := hl.p_large
  have hq := hl.q_large
  set phi : ℕ := (dk.p - 1) * (dk.q - 1) with hphi
  have hco : Int.gcd (dk.n : ℤ) (phi : ℤ) = 1 := by
    rw [Int.gcd_natCast_natCast]; exact hv.coprime
  obtain ⟨dn, hdn⟩ := Option.isSome_iff_exists.1 (modInv_isSome.2 hco)
  have hpq : IsCoprime (dk.p : ℤ) dk.q := by
    rw [Nat.isCoprime_iff_coprime]; exact (Nat.coprime_primes hv.p_prime hv.q_prime).2 hv.ne
  obtain ⟨pinv, hpinv⟩ := Option.isSome_iff_exists.1
    (modInv_isSome.2 (Int.isCoprime_iff_gcd_eq_one.1 hpq))
  have hphi0 : 0 < (phi : ℤ) := by
    rw [hphi]; exact_mod_cast Nat.mul_pos (by omega) (by omega)
  have hr := modInv_range hphi0 hdn
  have hinv : dn.toNat * dk.n ≡ 1 [MOD phi] := by
    have h := modInv_eq_some hdn
    rw [← Int.natCast_modEq_iff]
    push_cast
    rw [Int.toNat_of_nonneg hr.1, mul_comm]
    exact h
  have hp0 : (0 : ℤ) < dk.p := by exact_mod_cast hv.p_prime.pos
  have hq0 : (0 : ℤ) < dk.q := by exact_mod_cast hv.q_prime.pos
  have half : ∀ s : ℕ, s.Prime → 6370 < s → (s - 1) ∣ phi →
      ((z % s) ^ (dn.toNat % (s - 1)) % s) ^ dk.n ≡ z [ZMOD s] := by
    intro s hs hlt hd
    have h1 : (dn.toNat % (s - 1)) * dk.n ≡ 1 [MOD (s - 1)] :=
      ((Nat.mod_modEq _ _).mul_right _).trans (hinv.of_dvd hd)
    refine ((Int.mod_modEq _ _).pow _).trans ?_
    exact (((Int.mod_modEq z s).pow _).pow _).trans (pow_pow_inv hs (by omega) h1 z)
  set rp := (z % dk.p) ^ (dn.toNat % (dk.p - 1)) % dk.p with hrp
  set rq := (z % dk.q) ^ (dn.toNat % (dk.q - 1)) % dk.q with hrq
  have hn : nroot dk z = Paillier.recombine rp rq dk.p dk.q pinv := by
    unfold nroot
    rw [hdn, hpinv]
    rfl
  obtain ⟨a, b, hab⟩ := hpq
  set m := rq * (a * dk.p) + rp * (b * dk.q) with hm
  have hmp : rp ≡ m [ZMOD dk.p] := by
    rw [Int.modEq_iff_dvd]
    exact ⟨rq * a - rp * a, by rw [hm]; linear_combination rp * hab⟩
  have hmq : rq ≡ m [ZMOD dk.q] := by
    rw [Int.modEq_iff_dvd]
    exact ⟨rp * b - rq * b, by rw [hm]; linear_combination rq * hab⟩
  have hrec := Paillier.recombine_spec (p := dk.p) (q := dk.q) hv.q_prime.pos hmp
    ⟨Int.emod_nonneg _ hp0.ne', Int.emod_lt_of_pos _ hp0⟩ hmq (modInv_eq_some hpinv) ⟨a, b, hab⟩
  rw [hn, hrec]
  have hmm : m % ((dk.p : ℤ) * dk.q) ≡ m [ZMOD ((dk.p : ℤ) * dk.q)] := Int.mod_modEq _ _
  constructor
  · exact (((hmm.of_mul_right _).trans hmp.symm).pow _).trans
      (half dk.p hv.p_prime hl.p_large (hphi ▸ Dvd.intro _ rfl))
  · exact (((hmm.of_mul_left _).trans hmq.symm).pow _).trans
      (half dk.q hv.q_prime hl.q_large (hphi ▸ Dvd.intro_left _ rfl))

theorem nroot_pow {dk : DecKey} (hv : dk.Valid) (hl : dk.Large) (z : ℤ) :
    (nroot dk z) ^ dk.n ≡ z [ZMOD dk.n] := by
  obtain ⟨h1, h2⟩ := nroot_mod hv hl z
  have hpq : IsCoprime (dk.p : ℤ) dk.q := by
    rw [Nat.isCoprime_iff_coprime]; exact (Nat.coprime_primes hv.p_prime hv.q_prime).2 hv.ne
  rw [Int.modEq_iff_dvd] at h1 h2 ⊢
  show ((dk.p * dk.q : ℕ) : ℤ) ∣ _
  push_cast
  exact hpq.mul_dvd h1 h2

/-- The test for small factors -/
theorem small_factors {n : ℕ} : Nat.gcd (primorial 6370) n = 1 ↔ ∀ s : ℕ, s.Prime → s ≤ 6370 → ¬ s ∣ n := by
  rw [← Nat.coprime_iff_gcd_eq_one]
  constructor
  · intro h s hs hle hd
    have h1 : s ∣ primorial 6370 :=
      Finset.dvd_prod_of_mem (fun p => p) (Finset.mem_filter.2 ⟨Finset.mem_range.2 (by omega), hs⟩)
    have := Nat.dvd_gcd h1 hd
    rw [Nat.coprime_iff_gcd_eq_one.1 h] at this
    exact hs.one_lt.ne' (Nat.dvd_one.1 this)
  · intro h
    refine Nat.Coprime.prod_left fun s hs => ?_
    obtain ⟨h1, h2⟩ := Finset.mem_filter.1 hs
    rw [Nat.Prime.coprime_iff_not_dvd h2]
    exact h s h2 (by have := Finset.mem_range.1 h1; omega)

/-- An honest key correctness proof verifies. -/
theorem NiCorrectKeyProof.complete (dk : DecKey) (hv : dk.Valid) (hl : dk.Large) :
    (prove digest dk).verify digest dk.n = some true := by
  have hn : 0 < dk.n := Nat.mul_pos hv.p_prime.pos hv.q_prime.pos
  have hn' : (0 : ℤ) < dk.n := by exact_mod_cast hn
  unfold verify
  rw [if_neg (by simp [prove, hn.ne'])]
  simp only [Option.some.injEq, Bool.and_eq_true, List.all_eq_true, List.mem_range, decide_eq_true_eq]
  constructor
  · intro i hi
    have : (prove digest dk).sigma_vec.getD i 0 = nroot dk (rho digest dk.n i) := by
      simp [prove, List.getD_eq_getElem?_getD, hi]
    rw [this, (nroot_pow hv hl _).eq, Int.emod_eq_of_lt (by positivity)]
    exact_mod_cast Nat.mod_lt _ hn
  · rw [small_factors]
    intro s hs hle hd
    rcases (Nat.Prime.dvd_mul hs).1 hd with h | h
    · have := (Nat.prime_dvd_prime_iff_eq hs hv.p_prime).1 h
      have := hl.p_large
      omega
    · have := (Nat.prime_dvd_prime_iff_eq hs hv.q_prime).1 h
      have := hl.q_large
      omega

/-- When verification panics -/
theorem NiCorrectKeyProof.verify_eq_none (pf : NiCorrectKeyProof) (n : ℕ) :
    pf.verify digest n = none ↔ n = 0 ∨ pf.sigma_vec.length < 11 := by
  unfold verify
  by_cases h : n = 0 ∨ pf.sigma_vec.length < M2
  · rw [if_pos h]; exact ⟨fun _ => h, fun _ => rfl⟩
  · rw [if_neg h]; exact ⟨fun h => (nomatch h), fun h' => absurd h' h⟩

variable {digest} in
/-- What acceptance of a key correctness proof means -/
theorem NiCorrectKeyProof.accepted {pf : NiCorrectKeyProof} {n : ℕ} (h : pf.verify digest n = some true) :
    (∀ p, p.Prime → p ≤ 6370 → ¬ p ∣ n) ∧
      ∀ i < 11, pf.sigma_vec.getD i 0 ^ n ≡ rho digest n i [ZMOD n] := by
  unfold verify at h
  split at h
  · cases h
  · rename_i hn
    rw [Option.some.injEq, Bool.and_eq_true, List.all_eq_true, decide_eq_true_eq] at h
    refine ⟨fun p hp hle hd => ?_, fun i hi => ?_⟩
    · have h1 : p ∣ primorial 6370 := by
        unfold primorial
        exact Finset.dvd_prod_of_mem (fun x => x) (Finset.mem_filter.2 ⟨Finset.mem_range.2 (by omega), hp⟩)
      have := Nat.dvd_gcd h1 hd
      rw [h.2] at this
      exact hp.one_lt.ne' (Nat.dvd_one.1 this)
    · have := of_decide_eq_true (h.1 i (List.mem_range.2 hi))
      show _ % _ = _ % _
      rw [this, eq_comm]
      have hr : rho digest n i < n := Nat.mod_lt _ (by omega)
      exact Int.emod_eq_of_lt (by positivity) (by exact_mod_cast hr)

end Verif.ZkPaillier
