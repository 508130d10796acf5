import Verif.Lemmas.PdlSlack
import Verif.Lemmas.Mta
import Verif.Lemmas.AuxModulus
import Verif.Model.Pdl
import Verif.Model.Lindell17.AuxParams
import Verif.Props.Mta

/-!
# Properties C32-C35: the PDL proofs and the auxiliary parameters
-/

namespace Verif.Props

open EC Crypto RangeNi Spec

section
variable [Crypto]

/-! ### PDL with slack -/

/-- **C32.** Every proof made from a matching witness verifies. -/
theorem C32_honest {w : PDLwSlackWitness} {st : PDLwSlackStatement} {rnd : PdlRand}
    (haux : 0 < st.N_tilde ∧ Int.gcd st.h1 st.N_tilde = 1 ∧ Int.gcd st.h2 st.N_tilde = 1)
    (hN : 0 < st.ek) (hQ : st.Q = w.x • st.G) (hr : Int.gcd w.r st.ek = 1)
    (hc : st.ciphertext = Paillier.encrypt st.ek w.x.val w.r) :
    ∃ pf, PDLwSlackProof.prove w st rnd = some pf ∧ pf.verify st = some true :=
  pdl_complete haux.1 haux.2.1 haux.2.2 hN hQ hr (hc ▸ Paillier.isEnc_encrypt _ _ _)

/-- **C33** (acceptance): an accepted proof is an accepting transcript for the Fiat-Shamir challenge
of its first message. -/
theorem C33_accepted_transcript {pf : PDLwSlackProof} {st : PDLwSlackStatement} {M : ℕ} (hM : 0 < M)
    (hst : st.N_tilde = M) (hN : 0 < st.ek) {h1 h2 : (ZMod M)ˣ} (hh1 : (st.h1 : ZMod M) = h1)
    (hh2 : (st.h2 : ZMod M) = h2) (h : pf.verify st = some true) :
    PdlTranscript M st.ek h1 h2 st.G st.Q (st.ciphertext : ZMod (st.ek * st.ek))
      (pf.z : ZMod M) pf.u1 (pf.u2 : ZMod (st.ek * st.ek)) (pf.u3 : ZMod M)
      (hashInts [ser st.G, ser st.Q, st.ciphertext, pf.z, ser pf.u1, pf.u2, pf.u3])
      pf.s1 pf.s2 pf.s3 :=
  pdl_accepted hM hst hN hh1 hh2 h

/-- **C33** (discrete log and commitment): two accepting transcripts with equal first messages and
challenges that differ mod `q` determine the discrete log of `Q`, and the same difference of responses
opens the commitment. -/
theorem C33_dlog {M N : ℕ} {h1 h2 : (ZMod M)ˣ} {G' Q : Pt} {c : ZMod (N * N)} {z : ZMod M} {u1 : Pt}
    {u2 : ZMod (N * N)} {u3 : ZMod M} {e e' : ℕ} {s1 s2 s3 s1' s2' s3' : ℤ}
    (ht : PdlTranscript M N h1 h2 G' Q c z u1 u2 u3 e s1 s2 s3)
    (ht' : PdlTranscript M N h1 h2 G' Q c z u1 u2 u3 e' s1' s2' s3') (hne : (e : Sc) ≠ e') :
    Q = (((s1 - s1' : ℤ) : Sc) / ((e : Sc) - e')) • G' ∧
    ((h1 ^ (s1 - s1') * h2 ^ (s3 - s3') : (ZMod M)ˣ) : ZMod M) * z ^ e' = z ^ e := by
  refine ⟨?_, commitment_of_two ht.commitment ht'.commitment⟩
  have hd : ((e : Sc) - e') ≠ 0 := sub_ne_zero.2 hne
  have a1 := ht.point
  have a2 := ht'.point
  rw [← smul_pt_inj hd, ← mul_smul, mul_div_cancel₀ _ hd, sub_smul]
  push_cast
  rw [sub_smul, a1, a2]
  abel

/-- **C33** (partial): ... and, when both responses `s2` are units modulo `N`, the same difference is
the difference of the challenges times the plaintext, modulo `N`.  Missing: responses that are not
units, which `verify` accepts too. -/
theorem C33_plaintext_partial {dk : DecKey} (hv : dk.Valid) {M : ℕ} {h1 h2 : (ZMod M)ˣ} {G' Q : Pt}
    {m r : ℤ} (hr : Int.gcd r dk.n = 1) {z : ZMod M} {u1 : Pt} {u2 : ZMod (dk.n * dk.n)} {u3 : ZMod M}
    {e e' : ℕ} {s1 s2 s3 s1' s2' s3' : ℤ}
    (ht : PdlTranscript M dk.n h1 h2 G' Q (Paillier.encrypt dk.n m r : ZMod (dk.n * dk.n)) z u1 u2 u3
      e s1 s2 s3)
    (ht' : PdlTranscript M dk.n h1 h2 G' Q (Paillier.encrypt dk.n m r : ZMod (dk.n * dk.n)) z u1 u2 u3
      e' s1' s2' s3')
    (hs : Int.gcd s2 dk.n = 1) (hs' : Int.gcd s2' dk.n = 1) :
    ((e : ℤ) - e') * m ≡ s1 - s1' [ZMOD dk.n] :=
  plaintext_of_two hv hr ht.ciphertext ht'.ciphertext hs hs'

/-- **C33 fails** for the ciphertext: `verify` does not check that `s2` is invertible.  Whoever knows
the discrete log of `Q` has an accepted proof (with `s2 = 0`, `u2 = 0`) for every invertible
ciphertext, whatever its plaintext. -/
theorem C33_any_ciphertext_accepted {x : Sc} {st : PDLwSlackStatement}
    (haux : 0 < st.N_tilde ∧ Int.gcd st.h1 st.N_tilde = 1 ∧ Int.gcd st.h2 st.N_tilde = 1)
    (hN : 0 < st.ek) (hQ : st.Q = x • st.G) (hc : Int.gcd st.ciphertext st.ek = 1) :
    ∃ pf : PDLwSlackProof, pf.s2 = 0 ∧ pf.u2 = 0 ∧ pf.verify st = some true := by
  obtain ⟨pf, -, h⟩ := pdl_forge (alpha := 0) (gamma := 0) (rho := 0) haux.1 haux.2.1 haux.2.2 hN hQ hc
  exact ⟨pf, h⟩

/-- A proof whose `z` is not invertible makes `verify` panic (unless the challenge is zero). -/
theorem C33_verify_panics {pf : PDLwSlackProof} {st : PDLwSlackStatement} (hpos : 0 < st.N_tilde)
    (hz : Int.gcd pf.z st.N_tilde ≠ 1)
    (he : hashInts [ser st.G, ser st.Q, st.ciphertext, pf.z, ser pf.u1, pf.u2, pf.u3] ≠ 0) :
    pf.verify st = none :=
  pdl_panics hpos hz he

/-! ### The interactive PDL proof -/

variable [RangeNi]

/-- **C34** (honest run): for a key of at least `2 q^2`, a matching witness and every choice of
samples, the prover's check and the verifier's final check succeed.  The range proof is assumed to
verify: it is a dependency and complete only for a third of the range. -/
theorem C34_honest {w : Pdl.Witness} {st : Pdl.Statement} (hv : w.dk.Valid) (hek : st.ek = w.dk.n)
    (hn : 2 * (q : ℤ) ^ 2 ≤ w.dk.n) (hQ : st.Q = w.x • st.G)
    (hr : Int.gcd w.r w.dk.n = 1) (hc : st.ciphertext = Paillier.encrypt st.ek w.x.val w.r)
    {a : Sc} {b bl r bl' : ℤ} {coins : RPCoins} (hb0 : 0 ≤ b) (hb1 : b < (q : ℤ) ^ 2)
    (hr' : Int.gcd r w.dk.n = 1)
    (hrp : rpVerify (rpProve st.ek q st.ciphertext w.x.val w.r coins) st.ek st.ciphertext = some true) :
    let v1 := Pdl.verifierMessage1 st a b bl r
    ∃ p1 m2 p2, Pdl.proverMessage1 w st v1.1 bl' coins = .ok p1 ∧
      (Pdl.verifierMessage2 p1.1 st v1.2).1 = .ok m2 ∧
      Pdl.proverMessage2 v1.1 m2 w p1.2 = .ok p2 ∧
      Pdl.verifierFinalize p1.1 p2 (Pdl.verifierMessage2 p1.1 st v1.2).2 = .ok () := by
  intro v1
  have henc : Paillier.IsEnc w.dk.n v1.1.c_tag (a.val * w.x.val + b) (w.r ^ a.val * r) := by
    rw [← hek]
    have h1 : Paillier.IsEnc st.ek st.ciphertext w.x.val w.r := hc ▸ Paillier.isEnc_encrypt _ _ _
    exact (h1.mul a.val).add (Paillier.isEnc_encrypt st.ek b r)
  have hlt : (a.val : ℤ) * w.x.val + b < w.dk.n := by
    have ha : (a.val : ℤ) < q := by exact_mod_cast ZMod.val_lt a
    have hx : (w.x.val : ℤ) < q := by exact_mod_cast ZMod.val_lt w.x
    have h0 : (0 : ℤ) ≤ w.x.val := Int.natCast_nonneg _
    have h1 : (0 : ℤ) < q := by exact_mod_cast q_pos
    nlinarith
  have hdec : Paillier.decrypt w.dk v1.1.c_tag = some (a.val * w.x.val + b) := by
    rw [Paillier.decrypt_spec hv henc (gcd_pow_mul _ hr hr'), Int.emod_eq_of_lt (by positivity) hlt]
  have hp1 : Pdl.proverMessage1 w st v1.1 bl' coins = .ok
      (⟨hashCom (ser ((((a.val : ℤ) * w.x.val + b : ℤ) : Sc) • st.G)) bl',
        rpProve st.ek q st.ciphertext w.x.val w.r coins⟩,
       ⟨⟨(((a.val : ℤ) * w.x.val + b : ℤ) : Sc) • st.G, bl'⟩, (a.val : ℤ) * w.x.val + b⟩) := by
    unfold Pdl.proverMessage1; rw [hdec]
  refine ⟨_, ⟨a.val, b, bl⟩, ⟨(((a.val : ℤ) * w.x.val + b : ℤ) : Sc) • st.G, bl'⟩, hp1, ?_, ?_, ?_⟩
  · simp only [Pdl.verifierMessage2, hrp]
    rfl
  · simp only [Pdl.proverMessage2, v1, Pdl.verifierMessage1]
    rw [if_pos ⟨trivial, trivial⟩]
  · simp only [Pdl.verifierFinalize, Pdl.verifierMessage2, v1, Pdl.verifierMessage1]
    rw [if_pos]
    refine ⟨trivial, ?_⟩
    split <;>
    · simp only [hQ, ← mul_smul, ← add_smul]
      congr 1
      push_cast
      simp

/-- **C34** (verifier): whatever the messages, `finalize` accepts exactly when the prover's commitment
opens to the point `a Q + b G`. -/
theorem C34_finalize_iff {st : Pdl.Statement} {a : Sc} {b bl r : ℤ} {m1 m1' : Pdl.ProverFirstMessage}
    {m2 : Pdl.ProverDecommit} :
    Pdl.verifierFinalize m1 m2
        (Pdl.verifierMessage2 m1' st (Pdl.verifierMessage1 st a b bl r).2).2 = .ok () ↔
      m1.c_hat = hashCom (ser m2.q_hat) m2.blindness ∧ m2.q_hat = a • st.Q + (b : Sc) • st.G := by
  unfold Pdl.verifierFinalize
  have : (Pdl.verifierMessage2 m1' st (Pdl.verifierMessage1 st a b bl r).2).2.q_tag =
      a • st.Q + (b : Sc) • st.G := by
    unfold Pdl.verifierMessage2; dsimp only; split <;> rfl
  rw [this]
  dsimp only
  split
  · rename_i h; exact ⟨fun _ => h, fun _ => rfl⟩
  · rename_i h; exact ⟨fun h' => (by cases h'), fun h' => absurd h' h⟩

/-- **C34** (verifier): the challenge is opened exactly when the range proof verifies. -/
theorem C34_challenge_opened_iff {st : Pdl.Statement} {s : Pdl.VerifierState}
    {m : Pdl.ProverFirstMessage} {m2 : Pdl.VerifierSecondMessage} :
    (Pdl.verifierMessage2 m st s).1 = .ok m2 ↔
      rpVerify m.range_proof st.ek st.ciphertext = some true ∧ m2 = ⟨s.a, s.b, s.blindness⟩ := by
  unfold Pdl.verifierMessage2
  dsimp only
  cases h : rpVerify m.range_proof st.ek st.ciphertext with
  | none => simp
  | some b =>
    cases b
    · simp
    · simp [eq_comm]

omit [RangeNi] in
/-- **C34** (prover): the prover reveals its opening exactly when the challenge opens the verifier's
commitment and `a x + b`, over the integers, is the plaintext it decrypted. -/
theorem C34_prover_answers_iff {m1 : Pdl.VerifierFirstMessage} {m2 : Pdl.VerifierSecondMessage}
    {w : Pdl.Witness} {s : Pdl.ProverState} {d : Pdl.ProverDecommit} :
    Pdl.proverMessage2 m1 m2 w s = .ok d ↔
      d = s.decommit ∧ m2.a * w.x.val + m2.b = s.alpha ∧
        m1.c_tag_tag = hashCom (Pdl.abConcat m2.a m2.b) m2.blindness := by
  unfold Pdl.proverMessage2
  dsimp only
  split
  · rename_i h; exact ⟨fun h' => ⟨(Res.ok.inj h').symm, h⟩, fun h' => by rw [h'.1]⟩
  · rename_i h; exact ⟨fun h' => (by cases h'), fun h' => absurd h'.2 h⟩

/-- **C34** (wrong ciphertext): a prover that follows the protocol with a ciphertext of a value other
than the discrete log of `Q` is rejected for every non-zero `a` (as long as the plaintext does not wrap
around). -/
theorem C34_wrong_ciphertext_rejected {w : Pdl.Witness} {st : Pdl.Statement} (hv : w.dk.Valid)
    (hek : st.ek = w.dk.n) (hG : st.G ≠ 0) {x : Sc} (hQ : st.Q = x • st.G) {x' rx : ℤ} (hx0 : 0 ≤ x')
    (hx : (x' : Sc) ≠ x) (hrx : Int.gcd rx w.dk.n = 1) (hc : st.ciphertext = Paillier.encrypt st.ek x' rx)
    {a : Sc} (ha : a ≠ 0) {b bl r bl' : ℤ} {coins : RPCoins} (hb0 : 0 ≤ b) (hr' : Int.gcd r w.dk.n = 1)
    (hlt : a.val * x' + b < w.dk.n) :
    let v1 := Pdl.verifierMessage1 st a b bl r
    ∃ p1, Pdl.proverMessage1 w st v1.1 bl' coins = .ok p1 ∧
      Pdl.verifierFinalize p1.1 p1.2.decommit (Pdl.verifierMessage2 p1.1 st v1.2).2 =
        .err .Finalize := by
  intro v1
  have henc : Paillier.IsEnc w.dk.n v1.1.c_tag (a.val * x' + b) (rx ^ a.val * r) := by
    rw [← hek]
    have h1 : Paillier.IsEnc st.ek st.ciphertext x' rx := hc ▸ Paillier.isEnc_encrypt _ _ _
    exact (h1.mul a.val).add (Paillier.isEnc_encrypt st.ek b r)
  have hdec : Paillier.decrypt w.dk v1.1.c_tag = some (a.val * x' + b) := by
    rw [Paillier.decrypt_spec hv henc (gcd_pow_mul _ hrx hr'), Int.emod_eq_of_lt (by positivity) hlt]
  refine ⟨_, by unfold Pdl.proverMessage1; rw [hdec], ?_⟩
  have hno := (C34_finalize_iff (st := st) (a := a) (b := b) (bl := bl) (r := r)
    (m1 := ⟨hashCom (ser ((((a.val : ℤ) * x' + b : ℤ) : Sc) • st.G)) bl',
      rpProve st.ek q st.ciphertext w.x.val w.r coins⟩)
    (m1' := ⟨hashCom (ser ((((a.val : ℤ) * x' + b : ℤ) : Sc) • st.G)) bl',
      rpProve st.ek q st.ciphertext w.x.val w.r coins⟩)
    (m2 := ⟨(((a.val : ℤ) * x' + b : ℤ) : Sc) • st.G, bl'⟩)).not.2 (by
      rintro ⟨-, h⟩
      simp only [hQ, ← mul_smul, ← add_smul] at h
      rw [← sub_eq_zero, ← sub_smul, smul_eq_zero_iff] at h
      rcases h with h | h
      · push_cast at h
        have : a * ((x' : Sc) - x) = 0 := by
          have ha' : ((a.val : ℕ) : Sc) = a := by simp
          rw [ha'] at h
          linear_combination h
        rcases mul_eq_zero.1 this with h | h
        · exact ha h
        · exact hx (sub_eq_zero.1 h)
      · exact hG h)
  unfold Pdl.verifierFinalize at hno ⊢
  dsimp only at hno ⊢
  split
  · rename_i h; rw [if_pos h] at hno; exact absurd rfl hno
  · rfl

/-- **C86 (partial)**: the verifier opens its challenge and accepts only if the range proof verifies for its key
and ciphertext and the prover opened the point `a Q + b G`.  Missing: the range, see `C86_range_unchecked`. -/
theorem C86_accepted_partial {st : Pdl.Statement} {a : Sc} {b bl r : ℤ} {m1 : Pdl.ProverFirstMessage}
    {m2 : Pdl.ProverDecommit} {o : Pdl.VerifierSecondMessage}
    (h1 : (Pdl.verifierMessage2 m1 st (Pdl.verifierMessage1 st a b bl r).2).1 = .ok o)
    (h2 : Pdl.verifierFinalize m1 m2
      (Pdl.verifierMessage2 m1 st (Pdl.verifierMessage1 st a b bl r).2).2 = .ok ()) :
    rpVerify m1.range_proof st.ek st.ciphertext = some true ∧
      m1.c_hat = hashCom (ser m2.q_hat) m2.blindness ∧ m2.q_hat = a • st.Q + (b : Sc) • st.G :=
  ⟨(C34_challenge_opened_iff.1 h1).1, C34_finalize_iff.1 h2⟩

/-- **C86 is violated**: the verifier does not look at the range of the range proof.  A prover that encrypted
any positive number `x` congruent to the discrete logarithm (not only the one below `q`) makes a proof for the
range `3 x`, decrypts the challenge and passes both checks, for every challenge, as long as `a x + b` does not
wrap around. -/
theorem C86_range_unchecked {dk : DecKey} (hv : dk.Valid) {st : Pdl.Statement} (hek : st.ek = dk.n) {x rx : ℤ}
    (hx : 0 < x) (hQ : st.Q = (x : Sc) • st.G) (hrx : Int.gcd rx dk.n = 1)
    (hc : st.ciphertext = Paillier.encrypt st.ek x rx) :
    ∃ coins, ∀ (a : Sc) (b bl r bl' : ℤ), 0 ≤ b → Int.gcd r dk.n = 1 → a.val * x + b < dk.n →
      let v1 := Pdl.verifierMessage1 st a b bl r
      ∃ alpha, Paillier.decrypt dk v1.1.c_tag = some alpha ∧
        let q_hat := (alpha : Sc) • st.G
        let m1 : Pdl.ProverFirstMessage :=
          ⟨hashCom (ser q_hat) bl', rpProve st.ek (3 * x) st.ciphertext x rx coins⟩
        (Pdl.verifierMessage2 m1 st v1.2).1 = .ok ⟨a.val, b, bl⟩ ∧
        Pdl.verifierFinalize m1 ⟨q_hat, bl'⟩ (Pdl.verifierMessage2 m1 st v1.2).2 = .ok () := by
  have hn : 0 < dk.n := Nat.mul_pos hv.p_prime.pos hv.q_prime.pos
  obtain ⟨coins, hcoins⟩ := rp_complete st.ek (3 * x) x rx (by omega) (by rw [hek]; exact hrx) hx le_rfl
  refine ⟨coins, fun a b bl r bl' hb hr hlt => ?_⟩
  intro v1
  have henc : Paillier.IsEnc dk.n v1.1.c_tag (a.val * x + b) (rx ^ a.val * r) := by
    rw [← hek]
    have h1 : Paillier.IsEnc st.ek st.ciphertext x rx := hc ▸ Paillier.isEnc_encrypt _ _ _
    exact (h1.mul a.val).add (Paillier.isEnc_encrypt st.ek b r)
  have hdec : Paillier.decrypt dk v1.1.c_tag = some (a.val * x + b) := by
    rw [Paillier.decrypt_spec hv henc (gcd_pow_mul _ hrx hr), Int.emod_eq_of_lt (by positivity) hlt]
  refine ⟨_, hdec, ?_⟩
  intro q_hat m1
  rw [← hc] at hcoins
  refine ⟨C34_challenge_opened_iff.2 ⟨hcoins, rfl⟩, C34_finalize_iff.2 ⟨rfl, ?_⟩⟩
  show q_hat = _
  simp only [q_hat, hQ, ← mul_smul, ← add_smul]
  congr 1
  push_cast
  simp

omit [Crypto] [RangeNi] in
/-- The value committed to is not a faithful encoding of the challenge: two challenges share it, so the
verifier can open its commitment in two ways. -/
theorem C34_challenge_encoding_ambiguous :
    Pdl.abConcat 1 1 = Pdl.abConcat 3 0 ∧ ((1 : ℤ), (1 : ℤ)) ≠ (3, 0) := by decide

end

/-! ### Auxiliary parameters -/

/-- **C35** (GG20): the generated `(N~, h1, h2)` satisfy both statements: `h1^xhi' h2 = 1` and
`h2^xhi_inv' h1 = 1` modulo `N~` for the two secrets returned with them. -/
theorem C35_gg20 {p q : ℕ} (hp : p.Prime) (hq : q.Prime) (hne : p ≠ q) {h1 xhi : ℤ}
    (hg : Int.gcd h1 (p * q) = 1) (hx0 : 0 ≤ xhi) (hx1 : xhi < ((p : ℤ) - 1) * ((q : ℤ) - 1))
    {N g1 g2 x xinv : ℤ} (h : GG20.generate_h1_h2_N_tilde p q h1 xhi = some (N, g1, g2, x, xinv)) :
    N = p * q ∧ Int.gcd g1 N = 1 ∧ Int.gcd g2 N = 1 ∧ 0 ≤ x ∧ 0 ≤ xinv ∧
      g1 ^ x.toNat * g2 ≡ 1 [ZMOD N] ∧ g2 ^ xinv.toNat * g1 ≡ 1 [ZMOD N] := by
  obtain ⟨e1, e2, e3, a, b, e4, e5, -, e6, e7⟩ := GG20.generate_spec hp hq hne hg hx0 hx1 h
  simp only at e1 e2 e3 e4 e5 e6 e7
  subst e1 e2 e4 e5
  exact ⟨rfl, hg, e3, Int.natCast_nonneg _, Int.natCast_nonneg _, by simpa using e6, by simpa using e7⟩

/-- **C35** (the generator always succeeds for an invertible exponent) -/
theorem C35_gg20_total {p q : ℕ} (hp : p.Prime) (hq : q.Prime) {h1 xhi : ℤ} (hx0 : 0 ≤ xhi)
    (hinv : Int.gcd xhi (((p : ℤ) - 1) * ((q : ℤ) - 1)) = 1) :
    (GG20.generate_h1_h2_N_tilde p q h1 xhi).isSome := by
  have hN : ((p : ℤ) * q) ≠ 0 := by
    have := hp.pos; have := hq.pos; positivity
  unfold GG20.generate_h1_h2_N_tilde
  obtain ⟨i, hi⟩ := Option.isSome_iff_exists.1 (modInv_isSome.2 hinv)
  simp only [hi, modPow_nonneg hN hx0, Option.bind_eq_bind, Option.bind_some, Option.isSome_some]

/-- **C35** (Lindell17): `h1^xhi h2 = 1` modulo `N~` for the returned secret. -/
theorem C35_lindell {p q : ℕ} (hp : 0 < p) (hq : 0 < q) {h1 xhi : ℤ} (hg : Int.gcd h1 (p * q) = 1)
    (hx0 : 0 ≤ xhi) :
    ∃ h2, Lindell17.generate_h1_h2_n_tilde p q h1 xhi = some ((p : ℤ) * q, h1, h2, xhi) ∧
      h1 ^ xhi.toNat * h2 ≡ 1 [ZMOD (p : ℤ) * q] := by
  have hN : ((p : ℤ) * q) ≠ 0 := by positivity
  obtain ⟨i, hi⟩ := Option.isSome_iff_exists.1 (modInv_isSome.2 hg)
  refine ⟨i ^ xhi.toNat % ((p : ℤ) * q), ?_, ?_⟩
  · unfold Lindell17.generate_h1_h2_n_tilde
    simp only [hi, modPow_nonneg hN hx0, Option.bind_eq_bind, Option.bind_some]
  · refine ((Int.mod_modEq _ _).mul_left _).trans ?_
    rw [← mul_pow]
    simpa using (modInv_eq_some hi).pow xhi.toNat

/-! ### Concrete cases -/

section
attribute [local instance] Toy.crypto RangeNi.trivial

/-- A statement about the ciphertext of `9`, and its witness. -/
def toyPdl : PDLwSlackStatement where
  ciphertext := Paillier.encrypt toyKey.n 9 5
  ek := toyKey.n
  Q := (9 : ZMod 31)
  G := (1 : ZMod 31)
  h1 := 2
  h2 := 3
  N_tilde := 35

def toyPdlWitness : PDLwSlackWitness := ⟨(9 : ZMod 31), 5⟩

example := C32_honest (w := toyPdlWitness) (st := toyPdl) (rnd := ⟨100, 7, 11, 13⟩) (by decide)
  (by decide) (by decide) (by decide) (by decide +kernel)

/-- A forged proof for a ciphertext of `2000`, for which the discrete log is `9`. -/
example := C33_any_ciphertext_accepted (x := (9 : ZMod 31))
  (st := { toyPdl with ciphertext := Paillier.encrypt toyKey.n 2000 5 })
  (by decide) (by decide) (by decide) (by decide +kernel)

/-- Two accepting transcripts with the same first message and challenges `3` and `5`. -/
example : ∃ (h1 h2 : (ZMod 35)ˣ) (z : ZMod 35) (u1 : ZMod 31) (u2 : ZMod (toyKey.n * toyKey.n))
    (u3 : ZMod 35) (s2 s2' : ℤ),
    PdlTranscript 35 toyKey.n h1 h2 (1 : ZMod 31) (9 : ZMod 31)
      (Paillier.encrypt toyKey.n 9 5 : ZMod (toyKey.n * toyKey.n)) z u1 u2 u3 3 127 s2 50 ∧
    PdlTranscript 35 toyKey.n h1 h2 (1 : ZMod 31) (9 : ZMod 31)
      (Paillier.encrypt toyKey.n 9 5 : ZMod (toyKey.n * toyKey.n)) z u1 u2 u3 5 145 s2' 76 ∧
    Int.gcd s2 toyKey.n = 1 ∧ Int.gcd s2' toyKey.n = 1 ∧ ((3 : ℕ) : ZMod 31) ≠ (5 : ℕ) := by
  refine ⟨⟨2, 18, by decide, by decide⟩, ⟨3, 12, by decide, by decide⟩, 2 ^ 9 * 3 ^ 13, 100,
    (1 + 100 * (toyKey.n : ZMod (toyKey.n * toyKey.n))) * 7 ^ toyKey.n, 2 ^ 100 * 3 ^ 11,
    5 ^ 3 * 7, 5 ^ 5 * 7, ?_, ?_, by decide, by decide, by decide⟩
  · constructor
    · decide +kernel
    · decide +kernel
    · decide +kernel
  · constructor
    · decide +kernel
    · decide +kernel
    · decide +kernel

/-- `z = 5` is not invertible modulo `35`. -/
example := C33_verify_panics (pf := ⟨5, (1 : ZMod 31), 1, 1, 1, 1, 1⟩) (st := toyPdl) (by decide)
  (by decide) (by decide +kernel)

def toyPdlI : Pdl.Statement := ⟨Paillier.encrypt toyKey.n 9 5, toyKey.n, (9 : ZMod 31), (1 : ZMod 31)⟩

example := C34_honest (w := ⟨(9 : ZMod 31), 5, toyKey⟩) (st := toyPdlI) (a := (20 : ZMod 31)) (b := 777)
  (bl := 3) (r := 8) (bl' := 4) (coins := ()) toyKey_valid rfl (by decide) (by decide) (by decide) (by decide +kernel)
  (by decide) (by decide) (by decide) (by decide +kernel)

attribute [local irreducible] Paillier.encrypt in
/-- The ciphertext of `40`, which is `9` modulo `31`, passes: with `a = 20` and `b = 777` it does not wrap. -/
example : 20 * (40 : ℤ) + 777 < toyKey.n ∧
    ∃ coins, ∀ (a : ZMod 31) (b bl r bl' : ℤ), 0 ≤ b → Int.gcd r toyKey.n = 1 → a.val * (40 : ℤ) + b < toyKey.n →
      let st := { toyPdlI with ciphertext := Paillier.encrypt toyKey.n 40 5 }
      let v1 := Pdl.verifierMessage1 st a b bl r
      ∃ alpha, Paillier.decrypt toyKey v1.1.c_tag = some alpha ∧
        let q_hat := (alpha : ZMod 31) • st.G
        let m1 : Pdl.ProverFirstMessage :=
          ⟨hashCom (ser q_hat) bl', rpProve st.ek (3 * 40) st.ciphertext 40 5 coins⟩
        (Pdl.verifierMessage2 m1 st v1.2).1 = .ok ⟨a.val, b, bl⟩ ∧
        Pdl.verifierFinalize m1 ⟨q_hat, bl'⟩ (Pdl.verifierMessage2 m1 st v1.2).2 = .ok () :=
  ⟨by decide, C86_range_unchecked toyKey_valid (st := { toyPdlI with ciphertext := Paillier.encrypt toyKey.n 40 5 })
    rfl (by decide) (by decide) (by decide) rfl⟩

example := C34_wrong_ciphertext_rejected (w := ⟨(10 : ZMod 31), 5, toyKey⟩)
  (st := { toyPdlI with ciphertext := Paillier.encrypt toyKey.n 10 5 }) (x := (9 : ZMod 31)) (x' := 10)
  (rx := 5) (a := (20 : ZMod 31)) (b := 777) (bl := 3) (r := 8) (bl' := 4) (coins := ()) toyKey_valid rfl
  (by decide) (by decide) (by decide) (by decide) (by decide) (by decide +kernel) (by decide) (by decide) (by decide)
  (by decide)

end

example : ∃ aux, GG20.generate_h1_h2_N_tilde 43 47 2 5 = some aux :=
  Option.isSome_iff_exists.1 (C35_gg20_total (by norm_num) (by norm_num) (by decide) (by decide))

example := C35_lindell (p := 43) (q := 47) (h1 := 2) (xhi := 5) (by decide) (by decide) (by decide)
  (by decide)

end Verif.Props
