import Verif.Model.RangeProofs
import Verif.Spec.RangeProofs
import Verif.Lemmas.ModUnits
import Verif.Lemmas.Paillier

/-! Lemmas on the range proofs of the MtA exchange. -/

namespace Verif

open EC Crypto

/-- An auxiliary statement as generated: a positive modulus and two units. -/
structure DLogStatement.Usable (st : DLogStatement) : Prop where
  pos : 0 < st.N
  g_unit : Int.gcd st.g st.N = 1
  ni_unit : Int.gcd st.ni st.N = 1

theorem DLogStatement.Usable.units {st : DLogStatement} (h : st.Usable) :
    ∃ M : ℕ, 0 < M ∧ st.N = M ∧ ∃ u1 u2 : (ZMod M)ˣ, (st.g : ZMod M) = u1 ∧ (st.ni : ZMod M) = u2 := by
  obtain ⟨M, hM⟩ := Int.eq_ofNat_of_zero_le h.pos.le
  have h1 := h.g_unit
  have h2 := h.ni_unit
  have h0 := h.pos
  rw [hM] at h1 h2 h0
  obtain ⟨u1, hu1⟩ := unit_of_gcd h1
  obtain ⟨u2, hu2⟩ := unit_of_gcd h2
  exact ⟨M, by exact_mod_cast h0, hM, u1, u2, hu1, hu2⟩

theorem commitInts_unit {st : DLogStatement} {M : ℕ} (hM : 0 < M) (hN : st.N = M)
    {u1 u2 : (ZMod M)ˣ} (h1 : (st.g : ZMod M) = u1) (h2 : (st.ni : ZMod M) = u2) (a b : ℤ) :
    ∃ x, commitInts st a b = some x ∧ (x : ZMod M) = ↑(u1 ^ a * u2 ^ b) ∧ 0 ≤ x ∧ x < M := by
  obtain ⟨x, hx, hx2⟩ := modPow_unit hM h1 a
  obtain ⟨y, hy, hy2⟩ := modPow_unit hM h2 b
  have hMz : (0 : ℤ) < M := by exact_mod_cast hM
  unfold commitInts
  rw [hN, hx, hy]
  refine ⟨_, rfl, ?_, ?_⟩
  · rw [cast_rem]; push_cast; rw [hx2, hy2]
  · rw [rem_of_nonneg (mul_nonneg (modPow_range hMz hx).1 (modPow_range hMz hy).1)]
    exact ⟨Int.emod_nonneg _ hMz.ne', Int.emod_lt_of_pos _ hMz⟩

theorem commitInts3_unit {st : DLogStatement} {M : ℕ} (hM : 0 < M) (hN : st.N = M)
    {u1 u2 u3 : (ZMod M)ˣ} (h1 : (st.g : ZMod M) = u1) (h2 : (st.ni : ZMod M) = u2) {c : ℤ}
    (hc : 0 ≤ c) (h3 : (c : ZMod M) = u3) (a b : ℤ) :
    ∃ x, commitInts3 st a b c = some x ∧ (x : ZMod M) = ↑(u1 ^ a * u2 ^ b * u3) ∧
      0 ≤ x ∧ x < M := by
  obtain ⟨x, hx, hx2⟩ := modPow_unit hM h1 a
  obtain ⟨y, hy, hy2⟩ := modPow_unit hM h2 b
  have hMz : (0 : ℤ) < M := by exact_mod_cast hM
  unfold commitInts3
  rw [hN, hx, hy]
  refine ⟨_, rfl, ?_, ?_⟩
  · rw [cast_rem]; push_cast; rw [hx2, hy2, h3]
  · rw [rem_of_nonneg (mul_nonneg (mul_nonneg (modPow_range hMz hx).1 (modPow_range hMz hy).1) hc)]
    exact ⟨Int.emod_nonneg _ hMz.ne', Int.emod_lt_of_pos _ hMz⟩

/-- Completeness of the commitment equation. -/
theorem commit_group {A : Type} [CommGroup A] (h1 h2 : A) (e a ro al ga : ℤ) :
    h1 ^ (e * a + al) * h2 ^ (e * ro + ga) * ((h1 ^ a * h2 ^ ro) ^ e)⁻¹ = h1 ^ al * h2 ^ ga := by
  rw [mul_inv_eq_iff_eq_mul, mul_zpow, ← zpow_mul, ← zpow_mul, zpow_add, zpow_add, mul_comm a e,
    mul_comm ro e]
  simp only [mul_comm, mul_assoc, mul_left_comm]

/-- The two values a verifier recomputes are representatives in the same range, so they are equal as
integers as soon as they are congruent. -/
theorem eq_of_cast {M : ℕ} {a b : ℤ} (h : (a : ZMod M) = b) (ha : 0 ≤ a ∧ a < M)
    (hb : 0 ≤ b ∧ b < M) : a = b := eq_of_modEq_of_range (modEq_of_cast h) ha hb

/-! ### Extraction from two transcripts -/

theorem eq_zero_of_nth_power {dk : DecKey} (hv : dk.Valid) {k : ℤ} {t : (ZMod (dk.n * dk.n))ˣ}
    (h : (1 + (k : ZMod (dk.n * dk.n)) * dk.n) * ((t ^ dk.n : (ZMod (dk.n * dk.n))ˣ) : ZMod (dk.n * dk.n)) = 1) :
    (dk.n : ℤ) ∣ k := by
  have hn : 0 < dk.n := Nat.mul_pos hv.p_prime.pos hv.q_prime.pos
  have : NeZero (dk.n * dk.n) := ⟨(Nat.mul_pos hn hn).ne'⟩
  set r : ℤ := (((t : ZMod (dk.n * dk.n)).val : ℕ) : ℤ) with hr
  have hrt : (r : ZMod (dk.n * dk.n)) = t := by rw [hr]; simp
  have hg : Int.gcd r dk.n = 1 := by
    have := gcd_of_unit hrt
    push_cast at this
    exact Paillier.gcd_mul_self.1 this
  have e1 : Paillier.IsEnc dk.n 1 k r := by
    unfold Paillier.IsEnc
    have : ((1 : ℤ) : ZMod (dk.n * dk.n)) = (((1 + k * dk.n) * r ^ dk.n : ℤ) : ZMod (dk.n * dk.n)) := by
      push_cast; rw [hrt]; push_cast at h; exact h.symm
    have := modEq_of_cast this
    push_cast at this
    exact this
  have e2 : Paillier.IsEnc dk.n 1 0 1 := by unfold Paillier.IsEnc; simp
  have d1 := Paillier.decrypt_spec hv e1 hg
  rw [Paillier.decrypt_spec hv e2 (by simp), Option.some.injEq] at d1
  simp only [Int.zero_emod] at d1
  exact Int.dvd_of_emod_eq_zero d1.symm

/-- Two answers to one first message open the ciphertext. -/
theorem plaintext_of_two {dk : DecKey} (hv : dk.Valid) {m r : ℤ} (hr : Int.gcd r dk.n = 1)
    {u : ZMod (dk.n * dk.n)} {e e' : ℕ} {s s1 s' s1' : ℤ}
    (E : (1 + (s1 : ZMod (dk.n * dk.n)) * dk.n) * (s : ZMod (dk.n * dk.n)) ^ dk.n =
      u * (Paillier.encrypt dk.n m r : ZMod (dk.n * dk.n)) ^ e)
    (E' : (1 + (s1' : ZMod (dk.n * dk.n)) * dk.n) * (s' : ZMod (dk.n * dk.n)) ^ dk.n =
      u * (Paillier.encrypt dk.n m r : ZMod (dk.n * dk.n)) ^ e')
    (hs : Int.gcd s dk.n = 1) (hs' : Int.gcd s' dk.n = 1) :
    ((e : ℤ) - e') * m ≡ s1 - s1' [ZMOD dk.n] := by
  have sq : ∀ x : ℤ, Int.gcd x dk.n = 1 → ∃ y : (ZMod (dk.n * dk.n))ˣ, (x : ZMod (dk.n * dk.n)) = y := by
    intro x hx
    exact unit_of_gcd (by push_cast; exact Paillier.gcd_mul_self.2 hx)
  obtain ⟨us, hus⟩ := sq s hs
  obtain ⟨us', hus'⟩ := sq s' hs'
  obtain ⟨ur, hur⟩ := sq r hr
  have hc : ((Paillier.encrypt dk.n m r : ℤ) : ZMod (dk.n * dk.n)) =
      (1 + (m : ZMod (dk.n * dk.n)) * dk.n) * ((ur ^ dk.n : (ZMod (dk.n * dk.n))ˣ) : ZMod (dk.n * dk.n)) := by
    have := cast_of_modEq (M := dk.n * dk.n)
      (by push_cast; exact Paillier.isEnc_encrypt dk.n m r)
    push_cast at this
    rw [this, hur]; push_cast; rfl
  have hone : ∀ k : ZMod (dk.n * dk.n), IsUnit (1 + k * dk.n) := fun k =>
    IsUnit.of_mul_eq_one (1 - k * dk.n) (by linear_combination (-k ^ 2) * cast_n_sq dk.n)
  rw [hc, mul_pow, one_add_mul_pow, hus] at E
  rw [hc, mul_pow, one_add_mul_pow, hus'] at E'
  -- u is a unit
  have key : (1 + ((s1 - s1' - ((e : ℤ) - e') * m : ℤ) : ZMod (dk.n * dk.n)) * dk.n) *
      (((us * us'⁻¹ * (ur ^ e)⁻¹ * ur ^ e') ^ dk.n : (ZMod (dk.n * dk.n))ˣ) : ZMod (dk.n * dk.n)) = 1 := by
    have hu : IsUnit u := by
      have : IsUnit (u * ((1 + (e : ZMod (dk.n * dk.n)) * m * dk.n) *
          (((ur ^ dk.n : (ZMod (dk.n * dk.n))ˣ) : ZMod (dk.n * dk.n)) ^ e))) := by
        rw [← E]
        exact (hone _).mul ((Units.isUnit us).pow _)
      exact isUnit_of_mul_isUnit_left this
    -- multiply through by the units of the second transcript
    have hX : IsUnit ((1 + (s1' : ZMod (dk.n * dk.n)) * dk.n) * (us' : ZMod (dk.n * dk.n)) ^ dk.n *
        ((1 + (e : ZMod (dk.n * dk.n)) * m * dk.n) *
          (((ur ^ dk.n : (ZMod (dk.n * dk.n))ˣ) : ZMod (dk.n * dk.n)) ^ e))) := by
      exact ((hone _).mul ((Units.isUnit us').pow _)).mul
        ((hone _).mul ((Units.isUnit _).pow _))
    rw [← hX.mul_left_inj, one_mul]
    have hcross : (1 + (s1 : ZMod (dk.n * dk.n)) * dk.n) * (us : ZMod (dk.n * dk.n)) ^ dk.n *
        ((1 + (e' : ZMod (dk.n * dk.n)) * m * dk.n) *
          (((ur ^ dk.n : (ZMod (dk.n * dk.n))ˣ) : ZMod (dk.n * dk.n)) ^ e')) =
        (1 + (s1' : ZMod (dk.n * dk.n)) * dk.n) * (us' : ZMod (dk.n * dk.n)) ^ dk.n *
        ((1 + (e : ZMod (dk.n * dk.n)) * m * dk.n) *
          (((ur ^ dk.n : (ZMod (dk.n * dk.n))ˣ) : ZMod (dk.n * dk.n)) ^ e)) := by
      rw [E, E']; ring
    refine Eq.trans ?_ hcross
    have hunits : (((us * us'⁻¹ * (ur ^ e)⁻¹ * ur ^ e') ^ dk.n : (ZMod (dk.n * dk.n))ˣ) : ZMod (dk.n * dk.n)) *
        ((us' : ZMod (dk.n * dk.n)) ^ dk.n * ((ur ^ dk.n : (ZMod (dk.n * dk.n))ˣ) : ZMod (dk.n * dk.n)) ^ e) =
        (us : ZMod (dk.n * dk.n)) ^ dk.n * ((ur ^ dk.n : (ZMod (dk.n * dk.n))ˣ) : ZMod (dk.n * dk.n)) ^ e' := by
      rw [← Units.val_pow_eq_pow_val, ← Units.val_pow_eq_pow_val, ← Units.val_pow_eq_pow_val,
        ← Units.val_pow_eq_pow_val, ← Units.val_mul, ← Units.val_mul, ← Units.val_mul]
      congr 1
      rw [mul_pow, mul_pow, mul_pow, inv_pow, inv_pow, ← pow_mul, ← pow_mul, ← pow_mul, ← pow_mul,
        mul_comm e dk.n, mul_comm e' dk.n]
      rw [show us ^ dk.n * (us' ^ dk.n)⁻¹ * (ur ^ (dk.n * e))⁻¹ * ur ^ (dk.n * e') *
        (us' ^ dk.n * ur ^ (dk.n * e)) = us ^ dk.n * ur ^ (dk.n * e') *
          ((us' ^ dk.n)⁻¹ * us' ^ dk.n) * ((ur ^ (dk.n * e))⁻¹ * ur ^ (dk.n * e)) by
            simp only [mul_comm, mul_assoc, mul_left_comm]]
      simp
    have hn2 := cast_n_sq dk.n
    push_cast
    push_cast at hunits
    have hlin : (1 + ((s1 : ZMod (dk.n * dk.n)) - s1' - (e - e') * m) * dk.n) *
        (1 + (s1' : ZMod (dk.n * dk.n)) * dk.n) * (1 + (e : ZMod (dk.n * dk.n)) * m * dk.n) =
        (1 + (s1 : ZMod (dk.n * dk.n)) * dk.n) * (1 + (e' : ZMod (dk.n * dk.n)) * m * dk.n) := by
      generalize (s1 : ZMod (dk.n * dk.n)) = a at *
      generalize (s1' : ZMod (dk.n * dk.n)) = x at *
      linear_combination ((a - x - (e - e') * m) * x + (a - x - (e - e') * m) * (e * m) +
        x * (e * m) + (a - x - (e - e') * m) * x * (e * m) * dk.n - a * (e' * m)) * hn2
    linear_combination (1 + ((s1 : ZMod (dk.n * dk.n)) - s1' - (e - e') * m) * dk.n) *
      (1 + (s1' : ZMod (dk.n * dk.n)) * dk.n) * (1 + (e : ZMod (dk.n * dk.n)) * m * dk.n) * hunits
      + ((us : ZMod (dk.n * dk.n)) ^ dk.n * ((ur : ZMod (dk.n * dk.n)) ^ dk.n) ^ e') * hlin
  have := eq_zero_of_nth_power hv key
  exact Int.modEq_iff_dvd.2 this
/-- Two answers to one first message open the commitment. -/
theorem commitment_of_two {M : ℕ} {h1 h2 : (ZMod M)ˣ} {z w : ZMod M} {e e' : ℕ} {s1 s2 s1' s2' : ℤ}
    (E : ((h1 ^ s1 * h2 ^ s2 : (ZMod M)ˣ) : ZMod M) = w * z ^ e)
    (E' : ((h1 ^ s1' * h2 ^ s2' : (ZMod M)ˣ) : ZMod M) = w * z ^ e') :
    ((h1 ^ (s1 - s1') * h2 ^ (s2 - s2') : (ZMod M)ˣ) : ZMod M) * z ^ e' = z ^ e := by
  have hw : IsUnit w := isUnit_of_mul_isUnit_left (by rw [← E]; exact Units.isUnit _)
  rw [← hw.mul_right_inj, ← E]
  have : ((h1 ^ (s1 - s1') * h2 ^ (s2 - s2') : (ZMod M)ˣ) : ZMod M) * (w * z ^ e') =
      ((h1 ^ s1 * h2 ^ s2 : (ZMod M)ˣ) : ZMod M) := by
    rw [← E', ← Units.val_mul]
    congr 1
    rw [zpow_sub, zpow_sub]
    rw [show h1 ^ s1 * (h1 ^ s1')⁻¹ * (h2 ^ s2 * (h2 ^ s2')⁻¹) * (h1 ^ s1' * h2 ^ s2') =
      h1 ^ s1 * h2 ^ s2 * ((h1 ^ s1')⁻¹ * h1 ^ s1') * ((h2 ^ s2')⁻¹ * h2 ^ s2') by
        simp only [mul_comm, mul_assoc, mul_left_comm]]
    simp
  rw [← this]; ring

variable [Crypto]

theorem q3_pos : 0 < q3 := by
  unfold q3
  have : 0 < EC.q := EC.q_prime.out.pos
  positivity

section alice

variable {st : DLogStatement} {N : ℕ} {a cipher r : ℤ} {rnd : AliceRand}

/-- What is checked after the range check, when all the inverses exist. -/
theorem alice_verify_of_units {pf : AliceProof} {M : ℕ} (hM : 0 < M) (hstN : st.N = M) (hN : 0 < N)
    {u1 u2 uz : (ZMod M)ˣ} (h1 : (st.g : ZMod M) = u1) (h2 : (st.ni : ZMod M) = u2)
    (hz : (pf.z : ZMod M) = uz) {uc : (ZMod (N * N))ˣ} (hc : (cipher : ZMod (N * N)) = uc)
    (hs : pf.s1 ≤ q3) :
    ∃ u w : ℤ, (w : ZMod M) = ↑(u1 ^ pf.s1 * u2 ^ pf.s2 * (uz ^ pf.e)⁻¹) ∧ 0 ≤ w ∧ w < M ∧
      (u : ZMod (N * N)) = (1 + (pf.s1 : ZMod (N * N)) * N) * (pf.s : ZMod (N * N)) ^ N *
        ↑((uc ^ pf.e)⁻¹) ∧ (0 ≤ pf.s1 → 0 ≤ u ∧ u < N * N) ∧
      pf.verify cipher N st = some (decide (aliceChallenge N cipher pf.z u w = pf.e)) := by
  have hNN : 0 < N * N := Nat.mul_pos hN hN
  obtain ⟨ze, hze, hze2⟩ := modPow_unit hM hz pf.e
  obtain ⟨zi, hzi, hzi2⟩ := modInv_unit hze2
  have hMz : (0 : ℤ) < M := by exact_mod_cast hM
  have hNNz : (0 : ℤ) < ((N * N : ℕ) : ℤ) := by exact_mod_cast hNN
  obtain ⟨w, hw, hw2, hw3⟩ := commitInts3_unit hM hstN h1 h2 (modInv_range hMz hzi).1 hzi2 pf.s1 pf.s2
  obtain ⟨ce, hce, hce2⟩ := modPow_unit hNN hc pf.e
  obtain ⟨ci, hci, hci2⟩ := modInv_unit hce2
  obtain ⟨sn, hsn⟩ := modPow_nat hNN pf.s N
  refine ⟨rem (rem (pf.s1 * N + 1) ((N * N : ℕ) : ℤ) * sn * ci) ((N * N : ℕ) : ℤ), w, hw2, hw3.1,
    hw3.2, ?_, ?_, ?_⟩
  · rw [cast_rem]
    push_cast [cast_rem]
    have e1 := cast_rem (pf.s1 * N + 1) (N * N)
    push_cast at e1
    rw [e1, modPow_nat_cast hsn, hci2]
    ring
  · intro hs0
    have e1 : 0 ≤ rem (pf.s1 * N + 1) ((N * N : ℕ) : ℤ) := by
      rw [rem_of_nonneg (by positivity)]; exact Int.emod_nonneg _ hNNz.ne'
    rw [rem_of_nonneg (mul_nonneg (mul_nonneg e1 (modPow_range hNNz hsn).1)
      (modInv_range hNNz hci).1)]
    have := Int.emod_lt_of_pos (rem (pf.s1 * N + 1) ((N * N : ℕ) : ℤ) * sn * ci) hNNz
    exact ⟨Int.emod_nonneg _ hNNz.ne', by push_cast at this ⊢; exact this⟩
  · unfold AliceProof.verify
    rw [if_neg (by omega), hstN, hze]
    simp only [Option.bind_eq_bind, Option.bind_some, hzi, hw]
    push_cast at hce hci hsn ⊢
    rw [hce]
    simp only [Option.bind_some, hci]
    rw [hsn]
    rfl

theorem alice_generate {M : ℕ} (hM : 0 < M) (hstN : st.N = M) (hN : 0 < N)
    {u1 u2 : (ZMod M)ˣ} (h1 : (st.g : ZMod M) = u1) (h2 : (st.ni : ZMod M) = u2)
    (hal : 0 ≤ rnd.alpha) :
    ∃ z u w : ℤ, ∃ pf, AliceProof.generate a cipher N st r rnd = some pf ∧
      (z : ZMod M) = ↑(u1 ^ a * u2 ^ rnd.ro) ∧
      (w : ZMod M) = ↑(u1 ^ rnd.alpha * u2 ^ rnd.gamma) ∧ 0 ≤ w ∧ w < M ∧
      (u : ZMod (N * N)) = (1 + (rnd.alpha : ZMod (N * N)) * N) * (rnd.beta : ZMod (N * N)) ^ N ∧
      0 ≤ u ∧ u < N * N ∧
      pf.z = z ∧ pf.e = aliceChallenge N cipher z u w ∧
      pf.s1 = pf.e * a + rnd.alpha ∧ pf.s2 = pf.e * rnd.ro + rnd.gamma ∧
      pf.s ≡ r ^ pf.e.toNat * rnd.beta [ZMOD N] := by
  have hNN : 0 < N * N := Nat.mul_pos hN hN
  have hNNz : (0 : ℤ) < ((N * N : ℕ) : ℤ) := by exact_mod_cast hNN
  have hNz : (N : ℤ) ≠ 0 := by exact_mod_cast hN.ne'
  obtain ⟨z, hz, hz2, hz3⟩ := commitInts_unit hM hstN h1 h2 a rnd.ro
  obtain ⟨w, hw, hw2, hw3⟩ := commitInts_unit hM hstN h1 h2 rnd.alpha rnd.gamma
  obtain ⟨bn, hbn⟩ := modPow_nat hNN rnd.beta N
  set u := rem ((rnd.alpha * N + 1) * bn) ((N * N : ℕ) : ℤ) with hu
  have he : 0 ≤ aliceChallenge N cipher z u w := Int.natCast_nonneg _
  refine ⟨z, u, w,
    { z := z
      e := aliceChallenge N cipher z u w
      s := rem (r ^ (aliceChallenge N cipher z u w).toNat % N * rnd.beta) N
      s1 := aliceChallenge N cipher z u w * a + rnd.alpha
      s2 := aliceChallenge N cipher z u w * rnd.ro + rnd.gamma },
    ?_, hz2, hw2, hw3.1, hw3.2, ?_, ?_, ?_, rfl, rfl, rfl, rfl, ?_⟩
  · unfold AliceProof.generate AliceZkpRound1.make
    push_cast at hbn hu
    rw [hz, hw, hbn]
    simp only [Option.bind_eq_bind, Option.bind_some, ← hu]
    unfold AliceProof.respond
    rw [modPow_nonneg hNz he]
    rfl
  · rw [hu, cast_rem]
    push_cast
    rw [modPow_nat_cast hbn]
    ring
  · rw [hu, rem_of_nonneg (mul_nonneg (by positivity) (modPow_range hNNz hbn).1)]
    exact Int.emod_nonneg _ hNNz.ne'
  · rw [hu, rem_of_nonneg (mul_nonneg (by positivity) (modPow_range hNNz hbn).1)]
    have := Int.emod_lt_of_pos ((rnd.alpha * N + 1) * bn) hNNz
    push_cast at this ⊢; exact this
  · exact (rem_modEq _ _).trans ((Int.mod_modEq _ _).mul_right _)

/-- An honest proof for an encryption of `a ≥ 0` is accepted exactly when its response is within the
bound. -/
theorem alice_complete (hst : st.Usable) (hN : 0 < N) (ha : 0 ≤ a) (hal : 0 ≤ rnd.alpha)
    (hr : Int.gcd r N = 1) (hc : Paillier.IsEnc N cipher a r) :
    ∃ pf, AliceProof.generate a cipher N st r rnd = some pf ∧
      pf.s1 = pf.e * a + rnd.alpha ∧ pf.verify cipher N st = some (decide (pf.s1 ≤ q3)) := by
  obtain ⟨M, hM, hstN, u1, u2, h1, h2⟩ := hst.units
  obtain ⟨z, u, w, pf, hgen, hz, hw, hw0, hw1, hu, hu0, hu1, pz, pe, ps1, ps2, ps⟩ :=
    alice_generate (a := a) (cipher := cipher) (r := r) (rnd := rnd) hM hstN hN h1 h2 hal
  refine ⟨pf, hgen, ps1, ?_⟩
  by_cases hs : pf.s1 ≤ q3
  · have hcg : Int.gcd cipher ((N * N : ℕ) : ℤ) = 1 := by
      push_cast; exact Paillier.gcd_mul_self.2 (hc.coprime hr)
    obtain ⟨uc, huc⟩ := unit_of_gcd hcg
    have hzz : (pf.z : ZMod M) = ↑(u1 ^ a * u2 ^ rnd.ro) := by rw [pz]; exact hz
    obtain ⟨u', w', e1, w0, w1, e2, u0, hver⟩ :=
      alice_verify_of_units (pf := pf) hM hstN hN h1 h2 hzz huc hs
    have he0 : 0 ≤ pf.e := by rw [pe]; exact Int.natCast_nonneg _
    have hs10 : 0 ≤ pf.s1 := by rw [ps1]; exact add_nonneg (mul_nonneg he0 ha) hal
    have hww : w' = w := by
      refine eq_of_cast (M := M) ?_ ⟨w0, w1⟩ ⟨hw0, hw1⟩
      rw [e1, hw, ps1, ps2, commit_group]
    have huu : u' = u := by
      refine eq_of_cast (M := N * N) ?_ (by push_cast; exact u0 hs10) (by push_cast; exact ⟨hu0, hu1⟩)
      rw [e2, hu]
      obtain ⟨k, hk⟩ := Int.eq_ofNat_of_zero_le he0
      rw [pow_cast_of_modEq ps, ps1]
      rw [← Units.mul_left_inj (uc ^ pf.e)]
      rw [mul_assoc, Units.inv_mul, mul_one]
      have hcz : (cipher : ZMod (N * N)) = (1 + (a : ZMod (N * N)) * N) * (r : ZMod (N * N)) ^ N := by
        have := cast_of_modEq (M := N * N) (by push_cast; exact hc)
        push_cast at this; exact this
      have huce : ((uc ^ pf.e : (ZMod (N * N))ˣ) : ZMod (N * N)) = (cipher : ZMod (N * N)) ^ k := by
        rw [hk, huc]; simp
      rw [huce, hcz, mul_pow, one_add_mul_pow, hk]
      push_cast
      rw [Int.toNat_natCast, mul_pow, ← pow_mul, ← pow_mul, mul_comm k N]
      linear_combination (-(k * a * rnd.alpha * (rnd.beta : ZMod (N * N)) ^ N * (r : ZMod (N * N)) ^ (N * k))) * cast_n_sq N
    rw [hver, hww, huu, pz, ← pe]
    simp [hs]
  · unfold AliceProof.verify
    rw [if_pos (by omega)]
    simp [hs]

/-- What acceptance of Alice's proof means. -/
theorem alice_accepted {pf : AliceProof} {M : ℕ} (hM : 0 < M) (hstN : st.N = M) (hN : 0 < N)
    {u1 u2 : (ZMod M)ˣ} (h1 : (st.g : ZMod M) = u1) (h2 : (st.ni : ZMod M) = u2)
    (h : pf.verify cipher N st = some true) :
    ∃ (e : ℕ) (u w : ℤ), pf.e = e ∧ e = hashInts [(N : ℤ), (N : ℤ) + 1, cipher, pf.z, u, w] ∧
      Spec.AliceTranscript M N u1 u2 (cipher : ZMod (N * N)) (pf.z : ZMod M) (w : ZMod M)
        (u : ZMod (N * N)) e pf.s pf.s1 pf.s2 := by
  have hNN : 0 < N * N := Nat.mul_pos hN hN
  have hMz : (0 : ℤ) < M := by exact_mod_cast hM
  unfold AliceProof.verify at h
  split at h
  · cases h
  · rename_i hb
    rw [hstN] at h
    simp only [Option.bind_eq_bind, Option.bind_eq_some_iff] at h
    obtain ⟨ze, hze, h⟩ := h
    split at h
    · cases h
    · rename_i zi hzi
      rw [Option.bind_eq_some_iff] at h
      obtain ⟨w, hw, h⟩ := h
      rw [Option.bind_eq_some_iff] at h
      obtain ⟨ce, hce, h⟩ := h
      split at h
      · cases h
      · rename_i ci hci
        simp only [Option.bind_eq_some_iff, Option.some.injEq, decide_eq_true_iff] at h
        obtain ⟨sn, hsn, he⟩ := h
        obtain ⟨uz, huz, huz'⟩ := modInv_some_unit hzi
        obtain ⟨x, hx, hx2, -⟩ := commitInts3_unit hM hstN h1 h2 (modInv_range hMz hzi).1 huz'
          pf.s1 pf.s2
        rw [hw, Option.some.injEq] at hx
        subst hx
        have hci' : modInv ce ((N * N : ℕ) : ℤ) = some ci := by push_cast; exact hci
        have hce' : modPow cipher pf.e ((N * N : ℕ) : ℤ) = some ce := by push_cast; exact hce
        have hsn' : modPow pf.s N ((N * N : ℕ) : ℤ) = some sn := by push_cast; exact hsn
        obtain ⟨uc, huc, huc'⟩ := modInv_some_unit hci'
        have he0 : 0 ≤ pf.e := by rw [← he]; exact Int.natCast_nonneg _
        refine ⟨_, _, _, he.symm, rfl, ⟨by unfold q3 at hb; omega, ?_, ?_⟩⟩
        · rw [show (pf.z : ZMod M) ^ (hashInts _) = ze by
            rw [modPow_cast he0 hze, ← he]; unfold aliceChallenge; rw [Int.toNat_natCast]]
          rw [hx2, huz]
          push_cast
          rw [mul_assoc, Units.inv_mul, mul_one]
        · rw [show (cipher : ZMod (N * N)) ^ (hashInts _) = ce by
            rw [modPow_cast he0 hce', ← he]; unfold aliceChallenge; rw [Int.toNat_natCast]]
          rw [huc]
          have e2 := cast_rem (rem (pf.s1 * N + 1) (N * N) * sn * ci) (N * N)
          have e3 := cast_rem (pf.s1 * N + 1) (N * N)
          push_cast at e2 e3
          rw [e2, e3, modPow_nat_cast hsn', huc', mul_assoc, Units.inv_mul]
          ring

end alice

section bob

variable {st : DLogStatement} {N : ℕ} {b : Sc} {a_enc mta beta_prim r : ℤ} {rnd : BobRand}
  {check : Option BobCheck}

/-- What `BobProof::verify` computes when all the inverses exist. -/
theorem bob_verify_of_units {pf : BobProof} {M : ℕ} (hM : 0 < M) (hstN : st.N = M) (hN : 0 < N)
    {u1 u2 uz ut : (ZMod M)ˣ} (h1 : (st.g : ZMod M) = u1) (h2 : (st.ni : ZMod M) = u2)
    (hz : (pf.z : ZMod M) = uz) (ht : (pf.t : ZMod M) = ut) {ua uc : (ZMod (N * N))ˣ}
    (ha : (a_enc : ZMod (N * N)) = ua) (hc : (mta : ZMod (N * N)) = uc) (hs : pf.s1 ≤ q3) :
    ∃ z' v w : ℤ, (z' : ZMod M) = ↑(u1 ^ pf.s1 * u2 ^ pf.s2 * (uz ^ pf.e)⁻¹) ∧ 0 ≤ z' ∧ z' < M ∧
      (w : ZMod M) = ↑(u1 ^ pf.t1 * u2 ^ pf.t2 * (ut ^ pf.e)⁻¹) ∧ 0 ≤ w ∧ w < M ∧
      (v : ZMod (N * N)) = ↑(ua ^ pf.s1) * (pf.s : ZMod (N * N)) ^ N *
        (1 + (pf.t1 : ZMod (N * N)) * N) * ↑((uc ^ pf.e)⁻¹) ∧ (0 ≤ pf.t1 → 0 ≤ v ∧ v < N * N) ∧
      pf.verify a_enc mta N st check =
        (bobChallenge N a_enc mta ⟨pf.z, z', pf.t, w, v⟩ check).map (fun e => decide (e = pf.e)) := by
  have hNN : 0 < N * N := Nat.mul_pos hN hN
  have hMz : (0 : ℤ) < M := by exact_mod_cast hM
  have hNNz : (0 : ℤ) < ((N * N : ℕ) : ℤ) := by exact_mod_cast hNN
  obtain ⟨ze, hze, hze2⟩ := modPow_unit hM hz pf.e
  obtain ⟨zi, hzi, hzi2⟩ := modInv_unit hze2
  obtain ⟨te, hte, hte2⟩ := modPow_unit hM ht pf.e
  obtain ⟨ti, hti, hti2⟩ := modInv_unit hte2
  obtain ⟨z', hz', hz'2, hz'3⟩ := commitInts3_unit hM hstN h1 h2 (modInv_range hMz hzi).1 hzi2
    pf.s1 pf.s2
  obtain ⟨w, hw, hw2, hw3⟩ := commitInts3_unit hM hstN h1 h2 (modInv_range hMz hti).1 hti2
    pf.t1 pf.t2
  obtain ⟨me, hme, hme2⟩ := modPow_unit hNN hc pf.e
  obtain ⟨mi, hmi, hmi2⟩ := modInv_unit hme2
  obtain ⟨ca, hca, hca2⟩ := modPow_unit hNN ha pf.s1
  obtain ⟨sn, hsn⟩ := modPow_nat hNN pf.s N
  refine ⟨z', rem (ca * sn * (pf.t1 * N + 1) * mi) ((N * N : ℕ) : ℤ), w, hz'2, hz'3.1, hz'3.2, hw2,
    hw3.1, hw3.2, ?_, ?_, ?_⟩
  · rw [cast_rem]
    push_cast
    rw [hca2, modPow_nat_cast hsn, hmi2]
    ring
  · intro ht0
    rw [rem_of_nonneg (mul_nonneg (mul_nonneg (mul_nonneg (modPow_range hNNz hca).1
      (modPow_range hNNz hsn).1) (by positivity)) (modInv_range hNNz hmi).1)]
    have := Int.emod_lt_of_pos (ca * sn * (pf.t1 * N + 1) * mi) hNNz
    exact ⟨Int.emod_nonneg _ hNNz.ne', by push_cast at this ⊢; exact this⟩
  · unfold BobProof.verify
    push_cast at hme hmi hca hsn ⊢
    rw [if_neg (by omega), hstN, hze, hme, hca, hsn, hte]
    simp only [Option.bind_eq_bind, Option.bind_some, hzi, hz', hmi, hti, hw]
    cases bobChallenge N a_enc mta _ check <;> rfl

theorem bob_make {M : ℕ} (hM : 0 < M) (hstN : st.N = M) (hN : 0 < N)
    {u1 u2 : (ZMod M)ˣ} (h1 : (st.g : ZMod M) = u1) (h2 : (st.ni : ZMod M) = u2)
    {ua : (ZMod (N * N))ˣ} (ha : (a_enc : ZMod (N * N)) = ua) (hga : 0 ≤ rnd.gamma) :
    ∃ r1, BobZkpRound1.make N st b beta_prim a_enc rnd = some r1 ∧
      (r1.z : ZMod M) = ↑(u1 ^ (b.val : ℤ) * u2 ^ rnd.ro) ∧
      ((r1.z_prim : ZMod M) = ↑(u1 ^ rnd.alpha * u2 ^ rnd.ro_prim) ∧
        0 ≤ r1.z_prim ∧ r1.z_prim < M) ∧
      (r1.t : ZMod M) = ↑(u1 ^ beta_prim * u2 ^ rnd.sigma) ∧
      ((r1.w : ZMod M) = ↑(u1 ^ rnd.gamma * u2 ^ rnd.tau) ∧ 0 ≤ r1.w ∧ r1.w < M) ∧
      (r1.v : ZMod (N * N)) = ↑(ua ^ rnd.alpha) * (1 + (rnd.gamma : ZMod (N * N)) * N) *
        (rnd.beta : ZMod (N * N)) ^ N ∧ 0 ≤ r1.v ∧ r1.v < N * N := by
  have hNN : 0 < N * N := Nat.mul_pos hN hN
  have hNNz : (0 : ℤ) < ((N * N : ℕ) : ℤ) := by exact_mod_cast hNN
  obtain ⟨z, hz, hz2, -⟩ := commitInts_unit hM hstN h1 h2 b.val rnd.ro
  obtain ⟨z', hz', hz'2, hz'3⟩ := commitInts_unit hM hstN h1 h2 rnd.alpha rnd.ro_prim
  obtain ⟨t, ht, ht2, -⟩ := commitInts_unit hM hstN h1 h2 beta_prim rnd.sigma
  obtain ⟨w, hw, hw2, hw3⟩ := commitInts_unit hM hstN h1 h2 rnd.gamma rnd.tau
  obtain ⟨ca, hca, hca2⟩ := modPow_unit hNN ha rnd.alpha
  obtain ⟨bn, hbn⟩ := modPow_nat hNN rnd.beta N
  have hnn : 0 ≤ ca * (rnd.gamma * N + 1) * bn :=
    mul_nonneg (mul_nonneg (modPow_range hNNz hca).1 (by positivity)) (modPow_range hNNz hbn).1
  refine ⟨⟨z, z', t, w, rem (ca * (rnd.gamma * N + 1) * bn) ((N * N : ℕ) : ℤ)⟩, ?_, hz2,
    ⟨hz'2, hz'3⟩, ht2, ⟨hw2, hw3⟩, ?_, ?_, ?_⟩
  · unfold BobZkpRound1.make
    push_cast at hca hbn ⊢
    rw [hz, hz', ht, hw, hca, hbn]
    rfl
  · simp only [cast_rem]
    push_cast
    rw [hca2, modPow_nat_cast hbn]
    ring
  · simp only [rem_of_nonneg hnn]
    exact Int.emod_nonneg _ hNNz.ne'
  · simp only [rem_of_nonneg hnn]
    have := Int.emod_lt_of_pos (ca * (rnd.gamma * N + 1) * bn) hNNz
    push_cast at this ⊢; exact this

theorem bobChallenge_eq {r1 : BobZkpRound1} {e : ℤ} (h : bobChallenge N a_enc mta r1 check = some e) :
    ∃ l, e = (hashInts l : ℕ) := by
  unfold bobChallenge at h
  split at h
  · simp only [Option.bind_eq_bind, Option.bind_eq_some_iff, Option.some.injEq] at h
    obtain ⟨cs, -, rfl⟩ := h
    exact ⟨_, rfl⟩
  · simp only [Option.some.injEq] at h
    exact ⟨_, h.symm⟩

/-- An honest proof of Bob's is accepted exactly when its response is within the bound; it can be
made whenever the points that go into the hash have coordinates. -/
theorem bob_complete (chk : Bool) (hst : st.Usable) (hN : 0 < N) (hca : Int.gcd a_enc N = 1)
    (hbeta : 0 ≤ beta_prim) (hga : 0 ≤ rnd.gamma) (hr : Int.gcd r N = 1)
    (hc : mta ≡ a_enc ^ b.val * (1 + beta_prim * N) * r ^ N [ZMOD (N * N : ℤ)])
    (hpts : chk = true → b ≠ 0 ∧ (rnd.alpha : Sc) ≠ 0) :
    ∃ pf, BobProof.generate a_enc mta b beta_prim N st r chk rnd =
        some (pf, if chk then some ((rnd.alpha : Sc) • G) else none) ∧
      pf.s1 = pf.e * b.val + rnd.alpha ∧
      pf.verify a_enc mta N st
        (if chk then some ⟨(rnd.alpha : Sc) • G, b • G⟩ else none) =
          some (decide (pf.s1 ≤ q3)) := by
  obtain ⟨M, hM, hstN, u1, u2, h1, h2⟩ := hst.units
  have hNz : (N : ℤ) ≠ 0 := by exact_mod_cast hN.ne'
  have hcg : Int.gcd a_enc ((N * N : ℕ) : ℤ) = 1 := by
    push_cast; exact Paillier.gcd_mul_self.2 hca
  obtain ⟨ua, hua⟩ := unit_of_gcd hcg
  obtain ⟨r1, hmake, hz, hz', ht, hw, hv, hv0, hv1⟩ :=
    bob_make (b := b) (beta_prim := beta_prim) (rnd := rnd) hM hstN hN h1 h2 hua hga
  set chkv : Option BobCheck := if chk then some ⟨(rnd.alpha : Sc) • G, b • G⟩ else none with hchkv
  have hcase : chkv = if chk = true then some ⟨(rnd.alpha : Sc) • G, b • G⟩ else none := hchkv
  obtain ⟨e, he⟩ : ∃ e, bobChallenge N a_enc mta r1 chkv = some e := by
    unfold bobChallenge
    cases chk with
    | false => exact ⟨_, rfl⟩
    | true =>
      obtain ⟨hb0, ha0⟩ := hpts rfl
      have hne : ∀ k : Sc, k ≠ 0 → ∃ c, EC.coords (k • G : Pt) = some c := by
        intro k hk
        rcases hco : EC.coords (k • G : Pt) with _ | c
        · exact absurd ((EC.coords_eq_none _).1 hco) (by simp [hk, EC.G_ne_zero])
        · exact ⟨c, rfl⟩
      obtain ⟨c1, hc1⟩ := hne b hb0
      obtain ⟨c2, hc2⟩ := hne _ ha0
      simp [hchkv, BobCheck.coords, xc, yc, hc1, hc2]
  obtain ⟨l, hl⟩ := bobChallenge_eq he
  have he0 : 0 ≤ e := by rw [hl]; exact Int.natCast_nonneg _
  set pf : BobProof :=
    { t := r1.t
      z := r1.z
      e := e
      s := rem (r ^ e.toNat % N * rnd.beta) N
      s1 := e * b.val + rnd.alpha
      s2 := e * rnd.ro + rnd.ro_prim
      t1 := e * beta_prim + rnd.gamma
      t2 := e * rnd.sigma + rnd.tau } with hpf
  refine ⟨pf, ?_, rfl, ?_⟩
  · unfold BobProof.generate
    rw [hmake]
    simp only [Option.bind_eq_bind, Option.bind_some]
    rw [← hchkv, he]
    simp only [Option.bind_some]
    unfold BobProof.respond
    rw [modPow_nonneg hNz he0]
    rfl
  by_cases hs : pf.s1 ≤ q3
  · have hrz : IsUnit (r : ZMod (N * N)) := by
      obtain ⟨u, hu⟩ := unit_of_gcd (M := N * N) (b := r)
        (by push_cast; exact Paillier.gcd_mul_self.2 hr)
      rw [hu]; exact u.isUnit
    have hone : IsUnit (1 + (beta_prim : ZMod (N * N)) * N) := by
      refine IsUnit.of_mul_eq_one (1 - (beta_prim : ZMod (N * N)) * N) ?_
      linear_combination (-(beta_prim : ZMod (N * N)) ^ 2) * cast_n_sq N
    have hcz : (mta : ZMod (N * N)) = (a_enc : ZMod (N * N)) ^ b.val *
        (1 + (beta_prim : ZMod (N * N)) * N) * (r : ZMod (N * N)) ^ N := by
      have := cast_of_modEq (M := N * N) (by push_cast; exact hc)
      push_cast at this; exact this
    obtain ⟨uc, huc⟩ : IsUnit (mta : ZMod (N * N)) := by
      rw [hcz, hua]; exact ((ua.isUnit.pow _).mul hone).mul (hrz.pow _)
    have hzz : (pf.z : ZMod M) = ↑(u1 ^ (b.val : ℤ) * u2 ^ rnd.ro) := hz
    have htt : (pf.t : ZMod M) = ↑(u1 ^ beta_prim * u2 ^ rnd.sigma) := ht
    obtain ⟨z', v, w, e1, e1a, e1b, e2, e2a, e2b, e3, e3a, hver⟩ :=
      bob_verify_of_units (check := chkv) (pf := pf) hM hstN hN h1 h2 hzz htt hua huc.symm hs
    have ht10 : 0 ≤ pf.t1 := add_nonneg (mul_nonneg he0 hbeta) hga
    have hzeq : z' = r1.z_prim := by
      refine eq_of_cast (M := M) ?_ ⟨e1a, e1b⟩ hz'.2
      rw [e1, hz'.1, hpf]
      simp only
      rw [commit_group]
    have hweq : w = r1.w := by
      refine eq_of_cast (M := M) ?_ ⟨e2a, e2b⟩ hw.2
      rw [e2, hw.1, hpf]
      simp only
      rw [commit_group]
    have hveq : v = r1.v := by
      refine eq_of_cast (M := N * N) ?_ (by push_cast; exact e3a ht10) (by push_cast; exact ⟨hv0, hv1⟩)
      rw [e3, hv]
      obtain ⟨k, hk⟩ := Int.eq_ofNat_of_zero_le he0
      have ps : pf.s ≡ r ^ e.toNat * rnd.beta [ZMOD N] :=
        (rem_modEq _ _).trans ((Int.mod_modEq _ _).mul_right _)
      rw [pow_cast_of_modEq ps]
      rw [← Units.mul_left_inj (uc ^ pf.e)]
      rw [mul_assoc, Units.inv_mul, mul_one]
      have huce : ((uc ^ pf.e : (ZMod (N * N))ˣ) : ZMod (N * N)) = (mta : ZMod (N * N)) ^ k := by
        have : pf.e = k := hk
        rw [this, ← huc]; simp
      have h5 : ((ua ^ pf.s1 : (ZMod (N * N))ˣ) : ZMod (N * N)) =
          (a_enc : ZMod (N * N)) ^ (b.val * k) * ↑(ua ^ rnd.alpha) := by
        have : pf.s1 = ((b.val * k : ℕ) : ℤ) + rnd.alpha := by
          simp only [hpf, hk]; push_cast; ring
        rw [this, zpow_add, hua, zpow_natCast, Units.val_mul, Units.val_pow_eq_pow_val]
      have h6 : (pf.t1 : ZMod (N * N)) = k * beta_prim + rnd.gamma := by
        simp only [hpf, hk]; push_cast; rfl
      rw [huce, hcz, h5, h6, mul_pow, mul_pow, one_add_mul_pow, hk]
      push_cast
      rw [Int.toNat_natCast, mul_pow, ← pow_mul, ← pow_mul, ← pow_mul, mul_comm k N]
      linear_combination (-(k * beta_prim * rnd.gamma * (a_enc : ZMod (N * N)) ^ (b.val * k) *
        ↑(ua ^ rnd.alpha) * (rnd.beta : ZMod (N * N)) ^ N *
        (r : ZMod (N * N)) ^ (N * k))) * cast_n_sq N
    rw [hver, hzeq, hweq, hveq]
    have : bobChallenge N a_enc mta ⟨pf.z, r1.z_prim, pf.t, r1.w, r1.v⟩ chkv = some e := he
    rw [this, decide_eq_true hs]
    simp [hpf]
  · unfold BobProof.verify
    rw [if_pos (by omega)]
    simp [hs]

/-- What acceptance of Bob's proof means, for a ciphertext of Alice's that is a unit. -/
theorem bob_accepted {pf : BobProof} {M : ℕ} (hM : 0 < M) (hstN : st.N = M) (hN : 0 < N)
    {u1 u2 : (ZMod M)ˣ} (h1 : (st.g : ZMod M) = u1) (h2 : (st.ni : ZMod M) = u2)
    {ua : (ZMod (N * N))ˣ} (hua : (a_enc : ZMod (N * N)) = ua)
    (h : pf.verify a_enc mta N st check = some true) :
    ∃ (e : ℕ) (z' v w : ℤ), pf.e = e ∧
      bobChallenge N a_enc mta ⟨pf.z, z', pf.t, w, v⟩ check = some (e : ℤ) ∧
      Spec.BobTranscript M N u1 u2 ua (mta : ZMod (N * N)) (pf.z : ZMod M) (z' : ZMod M)
        (pf.t : ZMod M) (w : ZMod M) (v : ZMod (N * N)) e pf.s pf.s1 pf.s2 pf.t1 pf.t2 := by
  have hNN : 0 < N * N := Nat.mul_pos hN hN
  have hMz : (0 : ℤ) < M := by exact_mod_cast hM
  unfold BobProof.verify at h
  split at h
  · cases h
  · rename_i hb
    rw [hstN] at h
    simp only [Option.bind_eq_bind, Option.bind_eq_some_iff] at h
    obtain ⟨ze, hze, h⟩ := h
    split at h
    · cases h
    · rename_i zi hzi
      rw [Option.bind_eq_some_iff] at h
      obtain ⟨z', hz', h⟩ := h
      rw [Option.bind_eq_some_iff] at h
      obtain ⟨me, hme, h⟩ := h
      split at h
      · cases h
      · rename_i mi hmi
        rw [Option.bind_eq_some_iff] at h
        obtain ⟨ca, hca, h⟩ := h
        rw [Option.bind_eq_some_iff] at h
        obtain ⟨sn, hsn, h⟩ := h
        rw [Option.bind_eq_some_iff] at h
        obtain ⟨te, hte, h⟩ := h
        split at h
        · cases h
        · rename_i ti hti
          simp only [Option.bind_eq_some_iff, Option.some.injEq, decide_eq_true_iff] at h
          obtain ⟨w, hw, e, he, hpe⟩ := h
          obtain ⟨uz, huz, huz'⟩ := modInv_some_unit hzi
          obtain ⟨ut, hut, hut'⟩ := modInv_some_unit hti
          obtain ⟨x, hx, hx2, -⟩ := commitInts3_unit hM hstN h1 h2 (modInv_range hMz hzi).1 huz'
            pf.s1 pf.s2
          rw [hz', Option.some.injEq] at hx
          subst hx
          obtain ⟨y, hy, hy2, -⟩ := commitInts3_unit hM hstN h1 h2 (modInv_range hMz hti).1 hut'
            pf.t1 pf.t2
          rw [hw, Option.some.injEq] at hy
          subst hy
          have hmi' : modInv me ((N * N : ℕ) : ℤ) = some mi := by push_cast; exact hmi
          have hme' : modPow mta pf.e ((N * N : ℕ) : ℤ) = some me := by push_cast; exact hme
          have hsn' : modPow pf.s N ((N * N : ℕ) : ℤ) = some sn := by push_cast; exact hsn
          have hca' : modPow a_enc pf.s1 ((N * N : ℕ) : ℤ) = some ca := by push_cast; exact hca
          obtain ⟨uc, huc, huc'⟩ := modInv_some_unit hmi'
          obtain ⟨ca2, hca2, hca3⟩ := modPow_unit hNN hua pf.s1
          rw [hca', Option.some.injEq] at hca2
          subst hca2
          obtain ⟨l, hl⟩ := bobChallenge_eq he
          have hpe' : pf.e = (hashInts l : ℕ) := by rw [← hpe, hl]
          have he0 : 0 ≤ pf.e := by rw [hpe']; exact Int.natCast_nonneg _
          have hk : pf.e.toNat = hashInts l := by rw [hpe', Int.toNat_natCast]
          refine ⟨hashInts l, _, _, _, hpe', by rw [he, hl], ⟨by unfold q3 at hb; omega, ?_, ?_, ?_⟩⟩
          · rw [hx2, ← hk, ← modPow_cast he0 hze, huz]
            push_cast
            rw [mul_assoc, Units.inv_mul, mul_one]
          · rw [hy2, ← hk, ← modPow_cast he0 hte, hut]
            push_cast
            rw [mul_assoc, Units.inv_mul, mul_one]
          · rw [← hk, ← modPow_cast he0 hme', huc]
            have e2 := cast_rem (ca * sn * (pf.t1 * N + 1) * mi) (N * N)
            push_cast at e2
            rw [e2, hca3, modPow_nat_cast hsn', huc', mul_assoc _ _ (uc : ZMod (N * N)), Units.inv_mul]
            ring

end bob

end Verif
