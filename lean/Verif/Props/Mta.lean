import Verif.Lemmas.Mta
import Verif.Base.ToyCrypto
import Mathlib.Tactic.NormNum.Prime

/-!
# Properties C26-C31, C36: Paillier, the range proofs and the MtA exchange
-/

namespace Verif.Props

open EC Crypto Spec

/-! ### Paillier -/

/-- **C36.** Decrypting an encryption returns the plaintext modulo `n`; the product of two
ciphertexts decrypts to the sum, a power of a ciphertext to the multiple; opening a ciphertext returns
values that encrypt to it again. -/
theorem C36_paillier {dk : DecKey} (hv : dk.Valid) {m1 m2 r1 r2 : ℤ} (k : ℕ)
    (h1 : Int.gcd r1 dk.n = 1) (h2 : Int.gcd r2 dk.n = 1) :
    let c1 := Paillier.encrypt dk.n m1 r1
    let c2 := Paillier.encrypt dk.n m2 r2
    Paillier.decrypt dk c1 = some (m1 % dk.n) ∧
    Paillier.decrypt dk (Paillier.add dk.n c1 c2) = some ((m1 + m2) % dk.n) ∧
    Paillier.decrypt dk (Paillier.mul dk.n c1 k) = some (k * m1 % dk.n) := by
  intro c1 c2
  have e1 := Paillier.isEnc_encrypt dk.n m1 r1
  have e2 := Paillier.isEnc_encrypt dk.n m2 r2
  refine ⟨Paillier.decrypt_spec hv e1 h1, ?_, ?_⟩
  · refine Paillier.decrypt_spec hv (e1.add e2) ?_
    simpa using gcd_pow_mul 1 h1 h2
  · refine Paillier.decrypt_spec hv (e1.mul k) ?_
    simpa using gcd_pow_mul k h1 (Int.one_gcd (a := (dk.n : ℤ)))

/-- **C36** (recovering the randomness): what `open` returns re-encrypts to the ciphertext. -/
theorem C36_open {dk : DecKey} (hv : dk.Valid) {m r : ℤ} (hm : 0 ≤ m) (hr : Int.gcd r dk.n = 1) :
    ∃ m' r', Paillier.openCiphertext dk (Paillier.encrypt dk.n m r) = some (m', r') ∧
      m' = m % dk.n ∧ r' = r % dk.n ∧
      Paillier.encrypt dk.n m' r' = Paillier.encrypt dk.n m r := by
  have hn : 0 < dk.n := Nat.mul_pos hv.p_prime.pos hv.q_prime.pos
  have hnz : (dk.n : ℤ) ≠ 0 := by exact_mod_cast hn.ne'
  refine ⟨_, _, Paillier.open_spec hv (Paillier.isEnc_encrypt dk.n m r) hr, rfl, rfl, ?_⟩
  have r1 := Paillier.encrypt_range (r := r) hn hm
  have r2 := Paillier.encrypt_range (m := m % dk.n) (r := r % dk.n) hn (Int.emod_nonneg _ hnz)
  refine eq_of_modEq_of_range ?_ r2 r1
  have e1 : Paillier.IsEnc dk.n (Paillier.encrypt dk.n m r) (m % dk.n) r :=
    (Paillier.isEnc_encrypt dk.n m r).congr (Int.mod_modEq m dk.n).symm
  refine (Paillier.isEnc_encrypt dk.n _ _).trans (Int.ModEq.trans ?_ e1.symm)
  refine Int.ModEq.mul_left _ ?_
  have := pow_cast_of_modEq (Int.mod_modEq r dk.n)
  have h2 : ((r % (dk.n : ℤ)) ^ dk.n) ≡ r ^ dk.n [ZMOD ((dk.n * dk.n : ℕ) : ℤ)] :=
    modEq_of_cast (by push_cast at this ⊢; exact this)
  push_cast at h2
  exact h2

/-- A small valid key, used in the examples below. -/
def toyKey : DecKey := ⟨43, 47⟩

theorem toyKey_valid : toyKey.Valid := by
  constructor
  · show Nat.Prime 43; norm_num
  · show Nat.Prime 47; norm_num
  · decide
  · decide

/-- A valid key without factors below 6370. -/
def toyKey3 : DecKey := ⟨10007, 10009⟩

theorem toyKey3_valid : toyKey3.Valid := by
  constructor
  · show Nat.Prime 10007; norm_num
  · show Nat.Prime 10009; norm_num
  · decide
  · decide +kernel

theorem toyKey3_large : toyKey3.Large := ⟨by decide, by decide⟩

example := C36_paillier toyKey_valid (m1 := 1900) (m2 := 500) (r1 := 5) (r2 := 9) 7
  (by decide) (by decide)
example := C36_open toyKey_valid (m := 3000) (r := 5) (by decide) (by decide)

section
variable [Crypto]

/-! ### Alice's range proof -/

/-- **C29** (what holds): an honest proof for a value below `q` verifies exactly when its response
`e * a + alpha` stays within `q^3`. -/
theorem C29_accepts_iff {st : DLogStatement} {N : ℕ} {a : Sc} {r : ℤ} {rnd : AliceRand}
    (hst : 0 < st.N ∧ Int.gcd st.g st.N = 1 ∧ Int.gcd st.ni st.N = 1) (hN : 0 < N)
    (hal : 0 ≤ rnd.alpha) (hr : Int.gcd r N = 1) :
    ∃ pf, AliceProof.generate a.val (Paillier.encrypt N a.val r) N st r rnd = some pf ∧
      pf.verify (Paillier.encrypt N a.val r) N st =
        some (decide (pf.e * a.val + rnd.alpha ≤ (q : ℤ) ^ 3)) := by
  obtain ⟨pf, h1, h2, h3⟩ := alice_complete (rnd := rnd) ⟨hst.1, hst.2.1, hst.2.2⟩ hN
    (Int.natCast_nonneg a.val) hal hr (Paillier.isEnc_encrypt N a.val r)
  refine ⟨pf, h1, ?_⟩
  rw [h3, h2]; rfl

/-- **C29** (partial): with challenges below `B`, an honest proof whose sample `alpha` is at most
`q^3 - B * q` verifies.  Missing: the samples between that bound and `q^3`, for which the verifier
may reject. -/
theorem C29_honest_partial {st : DLogStatement} {N B : ℕ} {a : Sc} {r : ℤ} {rnd : AliceRand}
    (hst : 0 < st.N ∧ Int.gcd st.g st.N = 1 ∧ Int.gcd st.ni st.N = 1) (hN : 0 < N)
    (hB : ∀ l, hashInts l ≤ B) (hal : 0 ≤ rnd.alpha) (hal2 : rnd.alpha ≤ (q : ℤ) ^ 3 - B * q)
    (hr : Int.gcd r N = 1) :
    ∃ pf, AliceProof.generate a.val (Paillier.encrypt N a.val r) N st r rnd = some pf ∧
      pf.verify (Paillier.encrypt N a.val r) N st = some true := by
  obtain ⟨M, hM, hstN, u1, u2, h1, h2⟩ :=
    (DLogStatement.Usable.mk hst.1 hst.2.1 hst.2.2).units
  obtain ⟨z, u, w, pf', hgen, -, -, -, -, -, -, -, -, pe, -⟩ :=
    alice_generate (a := a.val) (cipher := Paillier.encrypt N a.val r) (r := r) (rnd := rnd)
      hM hstN hN h1 h2 hal
  obtain ⟨pf, hg, hv⟩ := C29_accepts_iff (a := a) hst hN hal hr
  rw [hgen, Option.some.injEq] at hg
  subst hg
  refine ⟨pf', hgen, ?_⟩
  rw [hv]
  have he : pf'.e ≤ B := by rw [pe]; unfold aliceChallenge; exact_mod_cast hB _
  have ha : (a.val : ℤ) ≤ q := by exact_mod_cast (ZMod.val_lt a).le
  have : pf'.e * a.val ≤ B * q := by
    exact mul_le_mul he ha (Int.natCast_nonneg _) (Int.natCast_nonneg _)
  simp only [Option.some.injEq, decide_eq_true_eq]
  linarith

/-- **C30** (acceptance): an accepted proof is an accepting transcript of the sigma protocol for the
Fiat-Shamir challenge of its first message. -/
theorem C30_accepted_transcript {st : DLogStatement} {N M : ℕ} (hM : 0 < M) (hst : st.N = M)
    (hN : 0 < N) {h1 h2 : (ZMod M)ˣ} (hh1 : (st.g : ZMod M) = h1) (hh2 : (st.ni : ZMod M) = h2)
    {c : ℤ} {pf : AliceProof} (h : pf.verify c N st = some true) :
    ∃ (e : ℕ) (u w : ℤ), pf.e = e ∧ e = hashInts [(N : ℤ), (N : ℤ) + 1, c, pf.z, u, w] ∧
      AliceTranscript M N h1 h2 (c : ZMod (N * N)) (pf.z : ZMod M) (w : ZMod M)
        (u : ZMod (N * N)) e pf.s pf.s1 pf.s2 :=
  alice_accepted hM hst hN hh1 hh2 h

/-- **C30** (partial): two accepting transcripts with the same first message, whose responses `s` are
units modulo `N`, open the ciphertext: the difference of the challenges times the plaintext is the
difference of the responses modulo `N`, and the same difference opens the commitment.  For non-negative
responses it is at most `q^3` in absolute value.  Missing: responses `s` that are not units, and
negative `s1`, which `verify` accepts too. -/
theorem C30_special_soundness_partial {dk : DecKey} (hv : dk.Valid) {M : ℕ} {h1 h2 : (ZMod M)ˣ}
    {m r : ℤ} (hr : Int.gcd r dk.n = 1) {z w : ZMod M} {u : ZMod (dk.n * dk.n)} {e e' : ℕ}
    {s s1 s2 s' s1' s2' : ℤ}
    (ht : AliceTranscript M dk.n h1 h2 (Paillier.encrypt dk.n m r : ZMod (dk.n * dk.n)) z w u e s s1 s2)
    (ht' : AliceTranscript M dk.n h1 h2 (Paillier.encrypt dk.n m r : ZMod (dk.n * dk.n)) z w u
      e' s' s1' s2')
    (hs : Int.gcd s dk.n = 1) (hs' : Int.gcd s' dk.n = 1) :
    (((e : ℤ) - e') * m ≡ s1 - s1' [ZMOD dk.n]) ∧
    ((h1 ^ (s1 - s1') * h2 ^ (s2 - s2') : (ZMod M)ˣ) : ZMod M) * z ^ e' = z ^ e ∧
    (0 ≤ s1 → 0 ≤ s1' → |s1 - s1'| ≤ (q : ℤ) ^ 3) := by
  refine ⟨plaintext_of_two hv hr ht.ciphertext ht'.ciphertext hs hs',
    commitment_of_two ht.commitment ht'.commitment, ?_⟩
  intro h0 h0'
  have := ht.bound
  have := ht'.bound
  rw [abs_le]; constructor <;> linarith

/-- The constant proof with the matching challenge; it does not depend on the auxiliary statement. -/
theorem alice_constant_proof {st : DLogStatement} {N : ℕ} (hst : 1 < st.N)
    (hN : 0 < N) {c : ℤ} (hc : Int.gcd c N = 1) :
    AliceProof.verify ⟨1, aliceChallenge N c 1 0 1, 0, 0, 0⟩ c N st = some true := by
  obtain ⟨M, hM⟩ := Int.eq_ofNat_of_zero_le (by omega : 0 ≤ st.N)
  have hM1 : 1 < M := by rw [hM] at hst; exact_mod_cast hst
  have hNN : (0 : ℤ) < (N : ℤ) * N := by positivity
  set e : ℤ := aliceChallenge N c 1 0 1 with he
  have he0 : 0 ≤ e := Int.natCast_nonneg _
  have hone : (1 : ℤ) % st.N = 1 := Int.emod_eq_of_lt (by omega) hst
  have hone' : ∀ k : ℕ, modPow st.g (0 : ℤ) st.N = some 1 ∧ modPow st.ni (0 : ℤ) st.N = some 1 :=
    fun _ => ⟨by rw [modPow_nonneg (by omega) (le_refl _)]; simp [hone],
      by rw [modPow_nonneg (by omega) (le_refl _)]; simp [hone]⟩
  have hze : modPow 1 e st.N = some 1 := by
    rw [modPow_nonneg (by omega) he0]; simp [hone]
  obtain ⟨zi, hzi⟩ := Option.isSome_iff_exists.1 (modInv_isSome.2 (Int.one_gcd (a := st.N)))
  have hzi1 : zi = 1 := by
    refine eq_of_modEq_of_range ?_ (modInv_range (by omega) hzi) ⟨by omega, hst⟩
    simpa using modInv_eq_some hzi
  subst hzi1
  have hcg : Int.gcd c ((N * N : ℕ) : ℤ) = 1 := by
    push_cast; exact Paillier.gcd_mul_self.2 hc
  obtain ⟨uc, huc⟩ := unit_of_gcd hcg
  obtain ⟨ce, hce, hce2⟩ := modPow_unit (Nat.mul_pos hN hN) huc e
  obtain ⟨ci, hci, -⟩ := modInv_unit hce2
  push_cast at hce hci
  have hs : modPow 0 (N : ℤ) ((N : ℤ) * N) = some 0 := by
    rw [modPow_natCast N hNN.ne', zero_pow hN.ne', Int.zero_emod]
  unfold AliceProof.verify commitInts3
  have hq := q3_pos
  simp only
  rw [if_neg (by omega), hze, (hone' 0).1, (hone' 0).2]
  simp only [Option.bind_eq_bind, Option.bind_some, hzi, hce, hci, hs]
  have hw : rem (1 * 1 * 1) st.N = 1 := by rw [rem_of_nonneg (by norm_num)]; simpa using hone
  rw [hw, mul_zero, zero_mul, rem_of_nonneg (le_refl _), Int.zero_emod]
  simp [he]

/-- **C30 fails**: `verify` does not check that the response `s` is invertible.  For every
auxiliary statement and every invertible ciphertext -- whatever its plaintext -- the constant proof
`z = 1, s = s1 = s2 = 0` with the matching challenge is accepted. -/
theorem C30_any_ciphertext_accepted {st : DLogStatement} {N : ℕ} (hst : 1 < st.N)
    (hN : 0 < N) {c : ℤ} (hc : Int.gcd c N = 1) :
    ∃ pf : AliceProof, pf.z = 1 ∧ pf.s = 0 ∧ pf.s1 = 0 ∧ pf.s2 = 0 ∧
      pf.verify c N st = some true :=
  ⟨_, rfl, rfl, rfl, rfl, alice_constant_proof hst hN hc⟩

/-! ### The exchange -/

/-- **C28.** Bob answers exactly when there is one range proof per statement and each verifies. -/
theorem C28_answers_iff {b : Sc} {N : ℕ} {m_a : MessageA} {r beta_tag : ℤ}
    {sts : List DLogStatement} {t_b t_beta : Sc} :
    (∃ out, MessageB.b b N m_a r beta_tag sts t_b t_beta = .ok out) ↔
      m_a.range_proofs.length = sts.length ∧
      ∀ (i : ℕ) (pf : AliceProof) (st : DLogStatement), m_a.range_proofs[i]? = some pf → sts[i]? = some st →
        pf.verify m_a.c N st = some true := by
  constructor
  · rintro ⟨out, h⟩
    obtain ⟨h1, h2, -⟩ := MessageB.b_ok_iff.1 h
    refine ⟨h1, fun i pf st hpf hst => h2 (pf, st) ?_⟩
    rw [List.mem_iff_getElem?]
    exact ⟨i, by rw [List.getElem?_zip_eq_some]; exact ⟨hpf, hst⟩⟩
  · rintro ⟨h1, h2⟩
    refine ⟨_, MessageB.b_ok_iff.2 ⟨h1, ?_, rfl⟩⟩
    rintro ⟨pf, st⟩ hx
    obtain ⟨i, hi⟩ := List.mem_iff_getElem?.1 hx
    rw [List.getElem?_zip_eq_some] at hi
    exact h2 i pf st hi.1 hi.2

/-- **C28** (the refusal): when the counts differ, or when the first proofs verify and the next one is
checked and fails, Bob returns `InvalidKey`. -/
theorem C28_refuses {b : Sc} {N : ℕ} {m_a : MessageA} {r beta_tag : ℤ}
    {sts : List DLogStatement} {t_b t_beta : Sc} :
    (m_a.range_proofs.length ≠ sts.length →
      MessageB.b b N m_a r beta_tag sts t_b t_beta = .err .InvalidKey) ∧
    (∀ (i : ℕ) (pf : AliceProof) (st : DLogStatement), m_a.range_proofs[i]? = some pf → sts[i]? = some st →
      pf.verify m_a.c N st = some false →
      (∀ j < i, ∀ (pf' : AliceProof) (st' : DLogStatement), m_a.range_proofs[j]? = some pf' → sts[j]? = some st' →
        pf'.verify m_a.c N st' = some true) →
      MessageB.b b N m_a r beta_tag sts t_b t_beta = .err .InvalidKey) := by
  constructor
  · intro h; unfold MessageB.b; rw [if_pos h]
  · intro i pf st hpf hst hv hbefore
    by_cases hl : m_a.range_proofs.length = sts.length
    · unfold MessageB.b
      rw [if_neg (by omega)]
      have : ∀ (l : List (AliceProof × DLogStatement)) (i : ℕ), l[i]? = some (pf, st) →
          (∀ j < i, ∀ x, l[j]? = some x → x.1.verify m_a.c N x.2 = some true) →
          allVerify m_a.c N l = some false := by
        intro l
        induction l with
        | nil => intro i hi; simp at hi
        | cons x l ih =>
          intro i hi hb
          unfold allVerify
          cases i with
          | zero =>
            simp only [List.getElem?_cons_zero, Option.some.injEq] at hi
            subst hi
            simp [hv]
          | succ i =>
            have h0 := hb 0 (by omega) x (by simp)
            simp only [h0, Option.bind_eq_bind, Option.bind_some, if_true]
            exact ih i (by simpa using hi) fun j hj y hy => hb (j + 1) (by omega) y (by simpa using hy)
      rw [this _ i (List.getElem?_zip_eq_some.2 ⟨hpf, hst⟩) ?_]
      rintro j hj ⟨pf', st'⟩ hx
      rw [List.getElem?_zip_eq_some] at hx
      exact hbefore j hj pf' st' hx.1 hx.2
    · unfold MessageB.b; rw [if_pos hl]

/-- **C28** (the other outcome): Bob panics exactly when there is one range proof per statement and the first
one that does not verify makes its verification abort. -/
theorem C28_panics_iff {b : Sc} {N : ℕ} {m_a : MessageA} {r beta_tag : ℤ}
    {sts : List DLogStatement} {t_b t_beta : Sc} :
    MessageB.b b N m_a r beta_tag sts t_b t_beta = .panic ↔
      m_a.range_proofs.length = sts.length ∧ ∃ (i : ℕ) (pf : AliceProof) (st : DLogStatement),
        m_a.range_proofs[i]? = some pf ∧ sts[i]? = some st ∧ pf.verify m_a.c N st = none ∧
        ∀ j < i, ∀ (pf' : AliceProof) (st' : DLogStatement), m_a.range_proofs[j]? = some pf' →
          sts[j]? = some st' → pf'.verify m_a.c N st' = some true := by
  have key : ∀ l : List (AliceProof × DLogStatement), allVerify m_a.c N l = none ↔
      ∃ (i : ℕ) (x : AliceProof × DLogStatement), l[i]? = some x ∧ x.1.verify m_a.c N x.2 = none ∧
        ∀ j < i, ∀ y : AliceProof × DLogStatement, l[j]? = some y → y.1.verify m_a.c N y.2 = some true := by
    intro l
    induction l with
    | nil => simp [allVerify]
    | cons x l ih =>
      unfold allVerify
      cases hx : x.1.verify m_a.c N x.2 with
      | none =>
        simp only [Option.bind_eq_bind, Option.bind_none, true_iff]
        exact ⟨0, x, rfl, hx, fun j hj => by omega⟩
      | some v =>
        cases v with
        | false =>
          simp only [Option.bind_eq_bind, Option.bind_some, Bool.false_eq_true, if_false, reduceCtorEq,
            false_iff]
          rintro ⟨i, y, h1, h2, h3⟩
          cases i with
          | zero =>
            rw [List.getElem?_cons_zero, Option.some.injEq] at h1
            subst h1; rw [hx] at h2; cases h2
          | succ i =>
            have := h3 0 (by omega) x rfl
            rw [hx] at this; cases this
        | true =>
          simp only [Option.bind_eq_bind, Option.bind_some, if_true]
          rw [ih]
          constructor
          · rintro ⟨i, y, h1, h2, h3⟩
            refine ⟨i + 1, y, by rw [List.getElem?_cons_succ]; exact h1, h2, fun j hj z hz => ?_⟩
            cases j with
            | zero =>
              rw [List.getElem?_cons_zero, Option.some.injEq] at hz
              subst hz; exact hx
            | succ j => exact h3 j (by omega) z (by rwa [List.getElem?_cons_succ] at hz)
          · rintro ⟨i, y, h1, h2, h3⟩
            cases i with
            | zero =>
              rw [List.getElem?_cons_zero, Option.some.injEq] at h1
              subst h1; rw [hx] at h2; cases h2
            | succ i =>
              rw [List.getElem?_cons_succ] at h1
              exact ⟨i, y, h1, h2, fun j hj z hz => h3 (j + 1) (by omega) z
                (by rwa [List.getElem?_cons_succ])⟩
  unfold MessageB.b
  split
  · rename_i h
    simp only [reduceCtorEq, false_iff]
    exact fun h' => h h'.1
  · rename_i h
    rw [not_not] at h
    have hk := key (m_a.range_proofs.zip sts)
    have hz : (∃ (i : ℕ) (x : AliceProof × DLogStatement), (m_a.range_proofs.zip sts)[i]? = some x ∧ x.1.verify m_a.c N x.2 = none ∧
        ∀ j < i, ∀ y : AliceProof × DLogStatement, (m_a.range_proofs.zip sts)[j]? = some y → y.1.verify m_a.c N y.2 = some true) ↔
        ∃ (i : ℕ) (pf : AliceProof) (st : DLogStatement),
        m_a.range_proofs[i]? = some pf ∧ sts[i]? = some st ∧ pf.verify m_a.c N st = none ∧
        ∀ j < i, ∀ (pf' : AliceProof) (st' : DLogStatement), m_a.range_proofs[j]? = some pf' →
          sts[j]? = some st' → pf'.verify m_a.c N st' = some true := by
      constructor
      · rintro ⟨i, ⟨pf, st⟩, h1, h2, h3⟩
        rw [List.getElem?_zip_eq_some] at h1
        exact ⟨i, pf, st, h1.1, h1.2, h2, fun j hj pf' st' e1 e2 => h3 j hj (pf', st')
          (List.getElem?_zip_eq_some.2 ⟨e1, e2⟩)⟩
      · rintro ⟨i, pf, st, e1, e2, h2, h3⟩
        exact ⟨i, (pf, st), List.getElem?_zip_eq_some.2 ⟨e1, e2⟩, h2, fun j hj y hy => by
          rw [List.getElem?_zip_eq_some] at hy
          exact h3 j hj y.1 y.2 hy.1 hy.2⟩
    rw [← hz, ← hk]
    cases allVerify m_a.c N (m_a.range_proofs.zip sts) with
    | none => simp [h]
    | some v => cases v <;> simp

/-- **C28** (the refusal, exactly): Bob returns an error only in the two cases of `C28_refuses`. -/
theorem C28_refuses_iff {b : Sc} {N : ℕ} {m_a : MessageA} {r beta_tag : ℤ}
    {sts : List DLogStatement} {t_b t_beta : Sc} (e : Error) :
    MessageB.b b N m_a r beta_tag sts t_b t_beta = .err e ↔ e = .InvalidKey ∧
      (m_a.range_proofs.length ≠ sts.length ∨
        ∃ (i : ℕ) (pf : AliceProof) (st : DLogStatement), m_a.range_proofs[i]? = some pf ∧
          sts[i]? = some st ∧ pf.verify m_a.c N st = some false ∧
          ∀ j < i, ∀ (pf' : AliceProof) (st' : DLogStatement), m_a.range_proofs[j]? = some pf' →
            sts[j]? = some st' → pf'.verify m_a.c N st' = some true) := by
  constructor
  · intro h
    have he : e = .InvalidKey := by
      unfold MessageB.b at h
      split at h
      · cases h; rfl
      · split at h <;> cases h
        rfl
    refine ⟨he, ?_⟩
    by_cases hl : m_a.range_proofs.length = sts.length
    · refine Or.inr ?_
      by_contra hno
      have hnot : ¬ ∃ i, i < sts.length ∧ ∀ pf st, m_a.range_proofs[i]? = some pf → sts[i]? = some st →
          pf.verify m_a.c N st ≠ some true := by
        intro hex
        classical
        obtain ⟨h1, h2⟩ := Nat.find_spec hex
        have hmin := fun j (hj : j < Nat.find hex) => Nat.find_min hex hj
        generalize Nat.find hex = i at h1 h2 hmin
        have e1 : m_a.range_proofs[i]? = some (m_a.range_proofs[i]'(by omega)) :=
          List.getElem?_eq_getElem _
        have e2 : sts[i]? = some (sts[i]'h1) := List.getElem?_eq_getElem _
        have hbefore : ∀ j < i, ∀ (pf' : AliceProof) (st' : DLogStatement),
            m_a.range_proofs[j]? = some pf' → sts[j]? = some st' →
            pf'.verify m_a.c N st' = some true := by
          intro j hj pf' st' g1 g2
          by_contra hne
          exact hmin j hj ⟨by omega, fun pf'' st'' k1 k2 => by
            rw [g1] at k1; rw [g2] at k2; cases k1; cases k2; exact hne⟩
        have hv := h2 _ _ e1 e2
        cases hc : (m_a.range_proofs[i]'(by omega)).verify m_a.c N (sts[i]'h1) with
        | none =>
          have := C28_panics_iff (b := b) (r := r) (beta_tag := beta_tag) (t_b := t_b) (t_beta := t_beta)
            |>.2 ⟨hl, i, _, _, e1, e2, hc, hbefore⟩
          rw [this] at h; cases h
        | some v =>
          cases v with
          | true => exact hv hc
          | false => exact hno ⟨i, _, _, e1, e2, hc, hbefore⟩
      have hall : ∀ (i : ℕ) (pf : AliceProof) (st : DLogStatement), m_a.range_proofs[i]? = some pf →
          sts[i]? = some st → pf.verify m_a.c N st = some true := by
        intro i pf st g1 g2
        by_contra hne
        exact hnot ⟨i, (List.getElem?_eq_some_iff.1 g2).1, fun pf' st' k1 k2 => by
          rw [g1] at k1; rw [g2] at k2; cases k1; cases k2; exact hne⟩
      obtain ⟨out, ho⟩ := C28_answers_iff (b := b) (r := r) (beta_tag := beta_tag) (t_b := t_b)
        (t_beta := t_beta) |>.2 ⟨hl, hall⟩
      rw [ho] at h; cases h
    · exact Or.inl hl
  · rintro ⟨rfl, h | ⟨i, pf, st, h1, h2, h3, h4⟩⟩
    · exact C28_refuses.1 h
    · exact C28_refuses.2 i pf st h1 h2 h3 h4

/-- **C28 is violated**: whatever the ciphertext and the statements (at least one, moduli above 1), there are
range proofs, one per statement, that make Bob panic instead of returning an error: the challenge is negative
and the commitment not invertible. -/
theorem C28_panics {b : Sc} {N : ℕ} {c r beta_tag : ℤ} {st : DLogStatement} {sts : List DLogStatement}
    {t_b t_beta : Sc} (hst : 1 < st.N) :
    ∃ pfs : List AliceProof, pfs.length = (st :: sts).length ∧
      MessageB.b b N ⟨c, pfs⟩ r beta_tag (st :: sts) t_b t_beta = .panic := by
  refine ⟨List.replicate (st :: sts).length ⟨0, -1, 0, 0, 0⟩, by simp, ?_⟩
  refine C28_panics_iff.2 ⟨by simp, 0, ⟨0, -1, 0, 0, 0⟩, st, rfl, rfl, ?_, fun j hj => by omega⟩
  unfold AliceProof.verify
  rw [if_neg (not_lt.2 (by unfold q3; positivity))]
  have : modPow (0 : ℤ) (-1) st.N = none := by
    unfold modPow modInv
    rw [if_neg (by omega), if_neg (by decide), if_neg (by rw [Int.gcd_zero_left]; omega)]
    rfl
  show (do let ze ← modPow 0 (-1) (st.N : ℤ); _) = _
  rw [this]
  rfl

/-- **C28** (no statements): Bob answers any ciphertext that comes without range proofs. -/
theorem C28_no_statements {b : Sc} {N : ℕ} {c r beta_tag : ℤ} {t_b t_beta : Sc} :
    ∃ out, MessageB.b b N ⟨c, []⟩ r beta_tag [] t_b t_beta = .ok out :=
  C28_answers_iff.2 ⟨rfl, by simp⟩

/-- **C27.** Whatever the message: `verify_proofs_get_alpha` returns a value exactly when both
discrete-log proofs verify and the decrypted share `alpha` satisfies `alpha G = a B + B'`. -/
theorem C27_accepts_iff {m : MessageB} {dk : DecKey} {a alpha : Sc} {share : ℤ} :
    m.verify_proofs_get_alpha dk a = .ok (alpha, share) ↔
      Paillier.decrypt dk m.c = some share ∧ alpha = (share : Sc) ∧ m.b_proof.verify = true ∧
        m.beta_tag_proof.verify = true ∧
        alpha • (G : Pt) = a • m.b_proof.pk + m.beta_tag_proof.pk := by
  rw [MessageB.verify_ok_iff, eq_comm (a := alpha • (G : Pt))]

/-- **C27** (the shares): for the discrete logs `b` and `beta_tag` of the two points Bob proved, the
accepted `alpha` and `beta = -beta_tag` add up to `a b`. -/
theorem C27_shares_sum {m : MessageB} {dk : DecKey} {a alpha : Sc} {share : ℤ}
    (h : m.verify_proofs_get_alpha dk a = .ok (alpha, share)) (b beta_tag : Sc)
    (hb : m.b_proof.pk = b • G) (hbt : m.beta_tag_proof.pk = beta_tag • G) :
    alpha + (-beta_tag) = a * b := by
  obtain ⟨-, -, -, -, h⟩ := C27_accepts_iff.1 h
  rw [hb, hbt, ← mul_smul, ← add_smul] at h
  rw [smul_G_inj.1 h]; ring

/-- **C27** (GG18 variant): the same decision and the same share. -/
theorem C27_gg18_same {m : MessageB} {dk : DecKey} {a : Sc} :
    m.verify_proofs_get_alpha_gg18 dk a = (m.verify_proofs_get_alpha dk a >>= fun x => .ok x.1) := by
  unfold MessageB.verify_proofs_get_alpha_gg18 MessageB.verify_proofs_get_alpha
  cases Paillier.decrypt dk m.c with
  | none => rfl
  | some x => dsimp only; split <;> rfl

/-- An honest first message exists, and all its range proofs verify if their responses are in the
range. -/
theorem honest_message_a {N : ℕ} {a : Sc} {ra : ℤ} {sts : List DLogStatement} {rs : ℕ → AliceRand}
    (hN : 0 < N) (hra : Int.gcd ra N = 1)
    (hst : ∀ st ∈ sts, 0 < st.N ∧ Int.gcd st.g st.N = 1 ∧ Int.gcd st.ni st.N = 1)
    (hrs : ∀ i, 0 ≤ (rs i).alpha) :
    ∃ m_a, MessageA.a a N ra sts rs = some m_a ∧ m_a.c = Paillier.encrypt N a.val ra ∧
      m_a.range_proofs.length = sts.length ∧
      ∀ x ∈ m_a.range_proofs.zip sts, x.1.verify m_a.c N x.2 = some (decide (x.1.s1 ≤ q3)) := by
  obtain ⟨pfs, h1, h2, h3⟩ := aliceProofs_spec (rs := rs) hN (Int.natCast_nonneg a.val) hra
    (Paillier.isEnc_encrypt N a.val ra) 0
    (fun st h => ⟨(hst st h).1, (hst st h).2.1, (hst st h).2.2⟩) hrs
  refine ⟨⟨Paillier.encrypt N a.val ra, pfs⟩, ?_, rfl, h2, h3⟩
  unfold MessageA.a
  simp only [h1]
  rfl

/-- **C26** (partial): in an honest exchange whose range-proof responses are in the range (see C29)
and whose plaintext `a b + beta_tag` does not wrap around the Paillier modulus, Bob answers, Alice
accepts, and the shares add up to the product.  Missing: the samples `beta_tag` within `a b` of the
modulus. -/
theorem C26_honest_mta_partial {dk : DecKey} (hv : dk.Valid) {a b : Sc} {ra r beta_tag : ℤ}
    {sts : List DLogStatement} {rs : ℕ → AliceRand} {t_b t_beta : Sc}
    (hra : Int.gcd ra dk.n = 1) (hr : Int.gcd r dk.n = 1)
    (hst : ∀ st ∈ sts, 0 < st.N ∧ Int.gcd st.g st.N = 1 ∧ Int.gcd st.ni st.N = 1)
    (hrs : ∀ i, 0 ≤ (rs i).alpha)
    (hrange : ∀ m_a, MessageA.a a dk.n ra sts rs = some m_a →
      ∀ pf ∈ m_a.range_proofs, pf.s1 ≤ (q : ℤ) ^ 3)
    (hbt : 0 ≤ beta_tag) (hwrap : a.val * b.val + beta_tag < dk.n) :
    ∃ m_a m_b beta alpha share, MessageA.a a dk.n ra sts rs = some m_a ∧
      MessageB.b b dk.n m_a r beta_tag sts t_b t_beta = .ok (m_b, beta) ∧
      m_b.verify_proofs_get_alpha dk a = .ok (alpha, share) ∧
      share = a.val * b.val + beta_tag ∧ alpha + beta = a * b := by
  have hn : 0 < dk.n := Nat.mul_pos hv.p_prime.pos hv.q_prime.pos
  obtain ⟨m_a, h1, h2, h3, h4⟩ := honest_message_a hn hra hst hrs (a := a)
  have hall : ∀ x ∈ m_a.range_proofs.zip sts, x.1.verify m_a.c dk.n x.2 = some true := by
    intro x hx
    rw [h4 x hx, decide_eq_true (p := x.1.s1 ≤ q3)]
    exact hrange m_a h1 x.1 (List.of_mem_zip hx).1
  have hb : MessageB.b b dk.n m_a r beta_tag sts t_b t_beta = .ok _ :=
    MessageB.b_ok_iff.2 ⟨h3, hall, rfl⟩
  have hver := mta_verify_honest hv hra hr hb
    (by rw [h2]; exact Paillier.isEnc_encrypt dk.n a.val ra)
  have hshare : ((a.val : ℤ) * b.val + beta_tag) % dk.n = a.val * b.val + beta_tag :=
    Int.emod_eq_of_lt (by positivity) hwrap
  simp only [hshare] at hver
  have hcast : (((a.val : ℤ) * b.val + beta_tag : ℤ) : Sc) = a * b + beta_tag := by push_cast; simp
  rw [if_pos hcast] at hver
  refine ⟨m_a, _, _, _, _, h1, hb, hver, rfl, ?_⟩
  rw [hcast]; ring

/-- **C26** (exact): for a modulus of at least `q^2` that `q` does not divide, and a sample
`beta_tag < N`, Alice accepts Bob's honest answer if and only if the plaintext does not wrap around. -/
theorem C26_accepts_iff {dk : DecKey} (hv : dk.Valid) {a b : Sc} {m_a : MessageA} {ra r beta_tag : ℤ}
    {sts : List DLogStatement} {t_b t_beta : Sc} {m_b : MessageB} {beta : Sc}
    (hra : Int.gcd ra dk.n = 1) (hr : Int.gcd r dk.n = 1) (hq : (q : ℤ) ^ 2 ≤ dk.n)
    (hqn : ¬ q ∣ dk.n) (hbt : 0 ≤ beta_tag) (hbt2 : beta_tag < dk.n)
    (hc : m_a.c = Paillier.encrypt dk.n a.val ra)
    (hb : MessageB.b b dk.n m_a r beta_tag sts t_b t_beta = .ok (m_b, beta)) :
    (∃ alpha share, m_b.verify_proofs_get_alpha dk a = .ok (alpha, share)) ↔
      a.val * b.val + beta_tag < dk.n := by
  have hver := mta_verify_honest hv hra hr hb
    (by rw [hc]; exact Paillier.isEnc_encrypt dk.n a.val ra)
  simp only at hver
  have hiff : ((((a.val : ℤ) * b.val + beta_tag) % dk.n : ℤ) : Sc) = a * b + beta_tag ↔
      (a.val : ℤ) * b.val + beta_tag < dk.n := by
    have hcast : (((a.val : ℤ) * b.val + beta_tag : ℤ) : Sc) = a * b + beta_tag := by push_cast; simp
    rw [← hcast]
    constructor
    · intro h
      by_contra hlt
      have ha : (a.val : ℤ) < q := by exact_mod_cast ZMod.val_lt a
      have hb' : (b.val : ℤ) < q := by exact_mod_cast ZMod.val_lt b
      have hab : (a.val : ℤ) * b.val < (q : ℤ) ^ 2 := by
        have h0 : (0 : ℤ) ≤ b.val := Int.natCast_nonneg _
        have h1 : (0 : ℤ) < q := by exact_mod_cast q_pos
        nlinarith
      have hmod : ((a.val : ℤ) * b.val + beta_tag) % dk.n = a.val * b.val + beta_tag - dk.n := by
        rw [← Int.sub_emod_right]
        exact Int.emod_eq_of_lt (by omega) (by omega)
      rw [hmod] at h
      have h2 : ((dk.n : ℤ) : Sc) = 0 := by
        push_cast at h ⊢
        linear_combination -h
      have h3 : (q : ℤ) ∣ (dk.n : ℤ) := (ZMod.intCast_zmod_eq_zero_iff_dvd _ _).1 h2
      exact hqn (by exact_mod_cast h3)
    · intro h
      rw [Int.emod_eq_of_lt (by positivity) h]
  rw [hver, ← hiff]
  constructor
  · rintro ⟨alpha, share, h⟩
    split at h
    · assumption
    · cases h
  · intro h
    exact ⟨_, _, if_pos h⟩

/-- **C26 fails**: for all non-zero secrets and every key of the required size, the sample
`beta_tag = N - 1`, which is in the range Bob samples from, makes honest Alice reject honest Bob. -/
theorem C26_honest_rejected {dk : DecKey} (hv : dk.Valid) {a b : Sc} (ha : a ≠ 0) (hb0 : b ≠ 0)
    {ra r : ℤ} {t_b t_beta : Sc} (hra : Int.gcd ra dk.n = 1) (hr : Int.gcd r dk.n = 1)
    (hq : (q : ℤ) ^ 2 ≤ dk.n) (hqn : ¬ q ∣ dk.n) :
    ∃ m_a m_b beta, MessageA.a a dk.n ra [] (fun _ => ⟨0, 0, 0, 0⟩) = some m_a ∧
      MessageB.b b dk.n m_a r (dk.n - 1) [] t_b t_beta = .ok (m_b, beta) ∧
      m_b.verify_proofs_get_alpha dk a = .err .InvalidKey := by
  have hn : 0 < dk.n := Nat.mul_pos hv.p_prime.pos hv.q_prime.pos
  have hb : MessageB.b b dk.n ⟨Paillier.encrypt dk.n a.val ra, []⟩ r (dk.n - 1) [] t_b t_beta = .ok _ :=
    MessageB.b_ok_iff.2 ⟨rfl, by simp, rfl⟩
  refine ⟨_, _, _, rfl, hb, ?_⟩
  have hno := (C26_accepts_iff hv hra hr hq hqn (by omega) (by omega) rfl hb).not.2 (by
    have h1 : 1 ≤ a.val := Nat.one_le_iff_ne_zero.2 (by rwa [ne_eq, ZMod.val_eq_zero])
    have h2 : 1 ≤ b.val := Nat.one_le_iff_ne_zero.2 (by rwa [ne_eq, ZMod.val_eq_zero])
    have h3 : (1 : ℤ) ≤ a.val * b.val := by exact_mod_cast Nat.mul_pos h1 h2
    omega)
  have hver := mta_verify_honest hv hra hr hb (Paillier.isEnc_encrypt dk.n a.val ra)
  rw [hver] at hno ⊢
  split
  · rename_i h
    simp only [if_pos h] at hno
    exact absurd ⟨_, _, rfl⟩ hno
  · rfl

/-! ### Bob's range proof -/

/-- **C31** (completeness): Bob's proof for an honest response is made, and verifies exactly when its
response `e b + alpha` stays within `q^3`. -/
theorem C31_bob_accepts_iff {st : DLogStatement} {N : ℕ} {b : Sc} {c_a beta_prim r : ℤ} {rnd : BobRand}
    (hst : 0 < st.N ∧ Int.gcd st.g st.N = 1 ∧ Int.gcd st.ni st.N = 1) (hN : 0 < N)
    (hca : Int.gcd c_a N = 1) (hbeta : 0 ≤ beta_prim) (hga : 0 ≤ rnd.gamma) (hr : Int.gcd r N = 1) :
    let c_b := Paillier.add N (Paillier.mul N c_a b.val) (Paillier.encrypt N beta_prim r)
    ∃ pf, BobProof.generate c_a c_b b beta_prim N st r false rnd = some (pf, none) ∧
      pf.verify c_a c_b N st none =
        some (decide (pf.e * b.val + rnd.alpha ≤ (q : ℤ) ^ 3)) := by
  intro c_b
  have hc : c_b ≡ c_a ^ b.val * (1 + beta_prim * N) * r ^ N [ZMOD (N * N : ℤ)] := by
    refine (rem_modEq _ _).trans ?_
    rw [mul_assoc]
    exact (Int.mod_modEq _ _).mul (Paillier.isEnc_encrypt N beta_prim r)
  obtain ⟨pf, h1, h2, h3⟩ := bob_complete (b := b) (rnd := rnd) false
    ⟨hst.1, hst.2.1, hst.2.2⟩ hN hca hbeta hga hr hc (by simp)
  refine ⟨pf, h1, ?_⟩
  rw [h2] at h3
  exact h3

/-- **C31** (completeness with check): for a non-zero `b` and a sample `alpha` that is not a multiple
of `q`, the extended proof is made, and verifies against `X = b G` exactly when its response is within
`q^3`. -/
theorem C31_bob_ext_accepts_iff {st : DLogStatement} {N : ℕ} {b : Sc} {c_a beta_prim r : ℤ}
    {rnd : BobRand} (hst : 0 < st.N ∧ Int.gcd st.g st.N = 1 ∧ Int.gcd st.ni st.N = 1) (hN : 0 < N)
    (hca : Int.gcd c_a N = 1) (hbeta : 0 ≤ beta_prim) (hga : 0 ≤ rnd.gamma) (hr : Int.gcd r N = 1)
    (hb : b ≠ 0) (hal : (rnd.alpha : Sc) ≠ 0) :
    let c_b := Paillier.add N (Paillier.mul N c_a b.val) (Paillier.encrypt N beta_prim r)
    ∃ pf u, BobProof.generate c_a c_b b beta_prim N st r true rnd = some (pf, some u) ∧
      (BobProofExt.mk pf u).verify c_a c_b N st (b • G) =
        some (decide (pf.e * b.val + rnd.alpha ≤ (q : ℤ) ^ 3)) := by
  intro c_b
  have hc : c_b ≡ c_a ^ b.val * (1 + beta_prim * N) * r ^ N [ZMOD (N * N : ℤ)] := by
    refine (rem_modEq _ _).trans ?_
    rw [mul_assoc]
    exact (Int.mod_modEq _ _).mul (Paillier.isEnc_encrypt N beta_prim r)
  obtain ⟨pf, h1, h2, h3⟩ := bob_complete (b := b) (rnd := rnd) true
    ⟨hst.1, hst.2.1, hst.2.2⟩ hN hca hbeta hga hr hc (fun _ => ⟨hb, hal⟩)
  refine ⟨pf, _, h1, ?_⟩
  unfold BobProofExt.verify
  simp only [if_true] at h3
  simp only [h3, Option.bind_eq_bind, Option.bind_some]
  have hpt : (pf.s1 : Sc) • (G : Pt) = (pf.e : Sc) • b • (G : Pt) + (rnd.alpha : Sc) • (G : Pt) := by
    rw [h2, ← mul_smul, ← add_smul]; push_cast; simp
  rw [h2] at hpt ⊢
  by_cases hle : pf.e * b.val + rnd.alpha ≤ (q : ℤ) ^ 3
  · rw [decide_eq_true hle, decide_eq_true (show _ ≤ q3 from hle), if_pos rfl, decide_eq_true hpt]
  · rw [decide_eq_false hle, decide_eq_false (show ¬ _ ≤ q3 from hle), if_neg (by simp)]

/-- **C31** (binding): an accepted extended proof is an accepted proof whose responses satisfy the
point equation, so the exponent `s1` answers for the point `X`. -/
theorem C31_ext_binds {pf : BobProofExt} {c_a c_b : ℤ} {N : ℕ} {st : DLogStatement} {X : Pt} :
    pf.verify c_a c_b N st X = some true ↔
      pf.proof.verify c_a c_b N st (some ⟨pf.u, X⟩) = some true ∧
      (pf.proof.s1 : Sc) • (G : Pt) = (pf.proof.e : Sc) • X + pf.u := by
  unfold BobProofExt.verify
  rcases pf.proof.verify c_a c_b N st (some ⟨pf.u, X⟩) with _ | _ | _ <;> simp

/-- **C31** (extraction): two accepted extended proofs with the same first point and challenges that
differ modulo `q` determine the discrete log of `X`. -/
theorem C31_ext_extracts {pf pf' : BobProofExt} {c_a c_b c_a' c_b' : ℤ} {N N' : ℕ}
    {st st' : DLogStatement} {X : Pt}
    (h : pf.verify c_a c_b N st X = some true) (h' : pf'.verify c_a' c_b' N' st' X = some true)
    (hu : pf.u = pf'.u) (he : (pf.proof.e : Sc) ≠ (pf'.proof.e : Sc)) :
    X = ((pf.proof.s1 - pf'.proof.s1 : Sc) / (pf.proof.e - pf'.proof.e : Sc)) • (G : Pt) := by
  have e1 := (C31_ext_binds.1 h).2
  have e2 := (C31_ext_binds.1 h').2
  have hne : ((pf.proof.e : Sc) - (pf'.proof.e : Sc)) ≠ 0 := sub_ne_zero.2 he
  rw [← smul_pt_inj hne, ← mul_smul, mul_div_cancel₀ _ hne, sub_smul, sub_smul, e1, e2, hu]
  abel

/-- **C31** (acceptance): an accepted proof is an accepting transcript of the sigma protocol, whose
challenge is the hash of the statement and the first message, for the extended proof including the
points `X` and `u`. -/
theorem C31_accepted_transcript {st : DLogStatement} {N M : ℕ} (hM : 0 < M) (hst : st.N = M)
    (hN : 0 < N) {h1 h2 : (ZMod M)ˣ} (hh1 : (st.g : ZMod M) = h1) (hh2 : (st.ni : ZMod M) = h2)
    {c_a c_b : ℤ} {ca : (ZMod (N * N))ˣ} (hca : (c_a : ZMod (N * N)) = ca)
    {pf : BobProof} {check : Option BobCheck} (h : pf.verify c_a c_b N st check = some true) :
    ∃ (e : ℕ) (z' v w : ℤ), pf.e = e ∧
      (check = none → e = hashInts [(N : ℤ), (N : ℤ) + 1, c_a, c_b, pf.z, z', pf.t, v, w]) ∧
      (∀ u X, check = some ⟨u, X⟩ → ∃ xx xy ux uy : ℕ, coords X = some (xx, xy) ∧
        coords u = some (ux, uy) ∧
        e = hashInts [(N : ℤ), (N : ℤ) + 1, c_a, c_b, pf.z, z', pf.t, v, w, xx, xy, ux, uy]) ∧
      BobTranscript M N h1 h2 ca (c_b : ZMod (N * N)) (pf.z : ZMod M) (z' : ZMod M)
        (pf.t : ZMod M) (w : ZMod M) (v : ZMod (N * N)) e pf.s pf.s1 pf.s2 pf.t1 pf.t2 := by
  obtain ⟨e, z', v, w, h1, h2, h3⟩ := bob_accepted hM hst hN hh1 hh2 hca h
  refine ⟨e, z', v, w, h1, ?_, ?_, h3⟩
  · rintro rfl
    simp only [bobChallenge, Option.some.injEq] at h2
    exact_mod_cast h2.symm
  · rintro u X rfl
    simp only [bobChallenge, BobCheck.coords, Option.bind_eq_bind, Option.bind_eq_some_iff,
      Option.some.injEq] at h2
    obtain ⟨cs, ⟨xx, hxx, xy, hxy, ux, hux, uy, huy, rfl⟩, h2⟩ := h2
    obtain ⟨⟨x1, y1⟩, hX, rfl⟩ := Option.map_eq_some_iff.1 hxx
    obtain ⟨⟨x2, y2⟩, hX2, rfl⟩ := Option.map_eq_some_iff.1 hxy
    obtain ⟨⟨x3, y3⟩, hu, rfl⟩ := Option.map_eq_some_iff.1 hux
    obtain ⟨⟨x4, y4⟩, hu2, rfl⟩ := Option.map_eq_some_iff.1 huy
    rw [hX, Option.some.injEq, Prod.mk.injEq] at hX2
    rw [hu, Option.some.injEq, Prod.mk.injEq] at hu2
    obtain ⟨rfl, rfl⟩ := hX2
    obtain ⟨rfl, rfl⟩ := hu2
    refine ⟨x1, y1, x3, y3, hX, hu, ?_⟩
    exact_mod_cast h2.symm

end

/-! ### Concrete cases

The 31-point curve, the Paillier key `43 * 47` and the auxiliary statement `(35, 2, 3)`. -/

section
attribute [local instance] Toy.crypto

def toySt : DLogStatement := ⟨35, 2, 3⟩

theorem toySt_usable : 0 < toySt.N ∧ Int.gcd toySt.g toySt.N = 1 ∧ Int.gcd toySt.ni toySt.N = 1 := by
  decide

theorem toy_hash_le (l : List ℤ) : hashInts l ≤ 30 := by
  have h : ∀ (l : List ℤ) (x : ℤ), 0 ≤ x ∧ x < 31 →
      0 ≤ l.foldl (fun acc x => (5 * acc + x + 1) % 31) x ∧
        l.foldl (fun acc x => (5 * acc + x + 1) % 31) x < 31 := by
    intro l
    induction l with
    | nil => intro x hx; exact hx
    | cons y l ih =>
      intro x _
      exact ih _ ⟨Int.emod_nonneg _ (by norm_num), Int.emod_lt_of_pos _ (by norm_num)⟩
  have := h l 0 (by norm_num)
  show (l.foldl (fun acc x => (5 * acc + x + 1) % 31) (0 : ℤ)).natAbs ≤ 30
  omega

example := C29_honest_partial (N := toyKey.n) (a := (9 : ZMod 31)) (r := 5)
  (rnd := ⟨100, 7, 11, 13⟩) (B := 30) toySt_usable (by decide) toy_hash_le (by decide) (by decide)
  (by decide)

/-- **C29 fails**: an honest proof, with a sample `alpha` below `q^3`, is rejected. -/
theorem C29_honest_rejected :
    ((AliceProof.generate (9 : ZMod 31).val (Paillier.encrypt toyKey.n (9 : ZMod 31).val 5)
        toyKey.n toySt 5 ⟨29790, 7, 11, 13⟩).bind fun pf =>
      pf.verify (Paillier.encrypt toyKey.n (9 : ZMod 31).val 5) toyKey.n toySt) = some false := by
  decide +kernel

/-- The forged proof of `C30_any_ciphertext_accepted`, for a ciphertext of `2000`, while the bound on
the plaintext is meant to be a few multiples of `31`. -/
example : ∃ pf : AliceProof, pf.verify (Paillier.encrypt toyKey.n 2000 5) toyKey.n toySt = some true :=
  let ⟨pf, h⟩ := C30_any_ciphertext_accepted (st := toySt) (N := toyKey.n)
    (c := Paillier.encrypt toyKey.n 2000 5) (by decide) (by decide) (by decide +kernel)
  ⟨pf, h.2.2.2.2⟩

/-- Two accepting transcripts with the same first message (`a = 9`, `alpha = 100`) and challenges
`3` and `5`. -/
example : ∃ (h1 h2 : (ZMod 35)ˣ) (z w : ZMod 35) (u : ZMod (toyKey.n * toyKey.n)) (s s' : ℤ),
    AliceTranscript 35 toyKey.n h1 h2
      (Paillier.encrypt toyKey.n 9 5 : ZMod (toyKey.n * toyKey.n)) z w u 3 s 127 50 ∧
    AliceTranscript 35 toyKey.n h1 h2
      (Paillier.encrypt toyKey.n 9 5 : ZMod (toyKey.n * toyKey.n)) z w u 5 s' 145 76 ∧
    Int.gcd s toyKey.n = 1 ∧ Int.gcd s' toyKey.n = 1 := by
  refine ⟨⟨2, 18, by decide, by decide⟩, ⟨3, 12, by decide, by decide⟩, 2 ^ 9 * 3 ^ 13,
    2 ^ 100 * 3 ^ 11, (1 + 100 * (toyKey.n : ZMod (toyKey.n * toyKey.n))) * 7 ^ toyKey.n,
    5 ^ 3 * 7, 5 ^ 5 * 7, ?_, ?_, by decide, by decide⟩
  · constructor
    · decide
    · decide +kernel
    · decide +kernel
  · constructor
    · decide
    · decide +kernel
    · decide +kernel

example := C26_honest_mta_partial toyKey_valid (a := (9 : ZMod 31)) (b := (20 : ZMod 31)) (ra := 5)
  (r := 8) (beta_tag := 1234) (sts := [toySt, toySt]) (rs := fun _ => ⟨100, 7, 11, 13⟩)
  (t_b := (3 : ZMod 31)) (t_beta := (4 : ZMod 31)) (by decide) (by decide)
  (by intro st h; simp at h; subst h; exact toySt_usable) (by intro i; decide)
  (by
    intro m_a h
    have : ∀ m ∈ MessageA.a (9 : ZMod 31) toyKey.n 5 [toySt, toySt] (fun _ => ⟨100, 7, 11, 13⟩),
      ∀ pf ∈ m.range_proofs, pf.s1 ≤ 31 ^ 3 := by decide +kernel
    exact this m_a h)
  (by decide) (by decide)

example := C26_honest_rejected toyKey_valid (a := (9 : ZMod 31)) (b := (20 : ZMod 31)) (ra := 5)
  (r := 8) (t_b := (3 : ZMod 31)) (t_beta := (4 : ZMod 31)) (by decide) (by decide) (by decide)
  (by decide) (by decide) (by decide)

example := C31_bob_ext_accepts_iff (N := toyKey.n) (b := (20 : ZMod 31)) (c_a := 17)
  (beta_prim := 1234) (r := 8) (rnd := ⟨100, 7, 200, 11, 13, 17, 19⟩) toySt_usable (by decide)
  (by decide) (by decide) (by decide) (by decide) (by decide) (by decide)

/-- An extended proof that is accepted. -/
example : ((BobProof.generate 17 (Paillier.add toyKey.n (Paillier.mul toyKey.n 17 20)
      (Paillier.encrypt toyKey.n 1234 8)) (20 : ZMod 31) 1234 toyKey.n toySt 8 true
      ⟨100, 7, 200, 11, 13, 17, 19⟩).bind fun r => r.2.bind fun u =>
    (BobProofExt.mk r.1 u).verify 17 (Paillier.add toyKey.n (Paillier.mul toyKey.n 17 20)
      (Paillier.encrypt toyKey.n 1234 8)) toyKey.n toySt ((20 : ZMod 31) • (1 : ZMod 31))) =
    some true := by
  decide +kernel

/-- Bob refuses a wrong number of proofs. -/
example : MessageB.b (20 : ZMod 31) toyKey.n ⟨17, []⟩ 8 1234 [toySt] (3 : ZMod 31) (4 : ZMod 31) =
    .err .InvalidKey := C28_refuses.1 (by decide)

/-- A response that Alice accepts. -/
example : ∃ m : MessageB, ∃ alpha share,
    m.verify_proofs_get_alpha toyKey (9 : ZMod 31) = .ok (alpha, share) := by
  obtain ⟨m_a, m_b, beta, alpha, share, -, -, h, -⟩ :=
    C26_honest_mta_partial toyKey_valid (a := (9 : ZMod 31)) (b := (20 : ZMod 31)) (ra := 5)
      (r := 8) (beta_tag := 1234) (sts := []) (rs := fun _ => ⟨100, 7, 11, 13⟩)
      (t_b := (3 : ZMod 31)) (t_beta := (4 : ZMod 31)) (by decide) (by decide)
      (by simp) (by intro i; decide)
      (by intro m h; cases h; simp) (by decide) (by decide)
  exact ⟨m_b, alpha, share, h⟩

end

end Verif.Props
