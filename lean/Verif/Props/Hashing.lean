import Verif.Lemmas.SigmaHash
import Verif.Secp256k1.Crypto
import Verif.Lemmas.Digest
import Verif.Props.GG18
import Verif.Props.TwoParty
import Verif.Props.KeygenMalicious

/-!
# C87, C88: commitments and challenges down to the bytes that are hashed

On secp256k1, with SHA-256 and the proofs of `zk-paillier` as they are (`Secp256k1.crypto`).  Also the inputs on
which those proofs panic (C15, C56, C79).
-/

namespace Verif.Props

open EC Crypto Spec

section
attribute [local instance] Secp256k1.crypto

theorem samePoint {P Q : Pt} {b b' c : ℤ} (h : hashCom (ser P) b = c) (h' : hashCom (ser Q) b' = c) :
    SamePoint Sha256.hash P b Q b' :=
  (Digest.com_ser_inj Sha256.hash_length (P := P) (Q := Q) (h.trans h'.symm)).imp And.left id

theorem samePoints {l l' : List Pt} {b b' c : ℤ}
    (h : hashCom (hashPtsInt l) b = c) (h' : hashCom (hashPtsInt l') b' = c) :
    SamePoints Sha256.hash l b l' b' :=
  (Digest.com_ptsInt_inj Sha256.hash_length (h.trans h'.symm)).imp And.left id

/-! ### C87: a commitment can be opened in one way only -/

/-- **C87** (GG20 key generation).  Two parties that accept openings of the same broadcast commitment have the
same public share of its sender. -/
theorem C87_gg20_keygen {k k' : GG20.Keys} {t n t' n' : ℕ} (ht : t < n) (ht' : t' < n')
    {decoms decoms' : List GG20.KeyGenDecommitMessage1} {bcs bcs' : List GG20.KeyGenBroadcastMessage1}
    {coefs coefs' : List Sc} (h1 : decoms.length = n) (h2 : bcs.length = n) (h1' : decoms'.length = n')
    (h2' : bcs'.length = n') {out out'} (h : k.phase1_verify_distribute ⟨t, n⟩ decoms bcs coefs = .ok out)
    (h' : k'.phase1_verify_distribute ⟨t', n'⟩ decoms' bcs' coefs' = .ok out') {i j : ℕ}
    {d d' : GG20.KeyGenDecommitMessage1} (hd : decoms[i]? = some d) (hd' : decoms'[j]? = some d')
    (hc : bcs[i]?.map (·.com) = bcs'[j]?.map (·.com)) :
    SamePoint Sha256.hash d.y_i d.blind_factor d'.y_i d'.blind_factor := by
  have hi : i < n := by rw [← h1]; exact (List.getElem?_eq_some_iff.1 hd).1
  have hj : j < n' := by rw [← h1']; exact (List.getElem?_eq_some_iff.1 hd').1
  obtain ⟨bc, d1, e1, e2, v⟩ := (C11_accepts_iff k ht decoms bcs coefs h1 h2).1.1 ⟨_, h⟩ i hi
  obtain ⟨bc', d1', e1', e2', v'⟩ := (C11_accepts_iff k' ht' decoms' bcs' coefs' h1' h2').1.1 ⟨_, h'⟩ j hj
  obtain rfl := Option.some.inj (hd.symm.trans e2)
  obtain rfl := Option.some.inj (hd'.symm.trans e2')
  rw [e1, e1', Option.map_some, Option.map_some, Option.some.injEq] at hc
  exact samePoint v.opens (v'.opens.trans hc.symm)

/-- **C87** (GG18 key generation). -/
theorem C87_gg18_keygen {k k' : GG18.Keys} {t n t' n' : ℕ} (ht : t < n) (ht' : t' < n')
    {decoms decoms' : List GG18.KeyGenDecommitMessage1} {bcs bcs' : List GG18.KeyGenBroadcastMessage1}
    {coefs coefs' : List Sc} (h1 : decoms.length = n) (h2 : bcs.length = n) (h1' : decoms'.length = n')
    (h2' : bcs'.length = n') {out out'} (h : k.phase1_verify_distribute ⟨t, n⟩ decoms bcs coefs = .ok out)
    (h' : k'.phase1_verify_distribute ⟨t', n'⟩ decoms' bcs' coefs' = .ok out') {i j : ℕ}
    {d d' : GG18.KeyGenDecommitMessage1} (hd : decoms[i]? = some d) (hd' : decoms'[j]? = some d')
    (hc : bcs[i]?.map (·.com) = bcs'[j]?.map (·.com)) :
    SamePoint Sha256.hash d.y_i d.blind_factor d'.y_i d'.blind_factor := by
  have hi : i < n := by rw [← h1]; exact (List.getElem?_eq_some_iff.1 hd).1
  have hj : j < n' := by rw [← h1']; exact (List.getElem?_eq_some_iff.1 hd').1
  obtain ⟨bc, d1, e1, e2, v, -⟩ := (C69_openings_iff k ht coefs h1 h2).1.1 ⟨_, h⟩ i hi
  obtain ⟨bc', d1', e1', e2', v', -⟩ := (C69_openings_iff k' ht' coefs' h1' h2').1.1 ⟨_, h'⟩ j hj
  obtain rfl := Option.some.inj (hd.symm.trans e2)
  obtain rfl := Option.some.inj (hd'.symm.trans e2')
  rw [e1, e1', Option.map_some, Option.map_some, Option.some.injEq] at hc
  exact samePoint v (v'.trans hc.symm)

/-- **C87** (GG20 signing).  Two signers at positions `x` and `y` that accept openings of the same commitment of
signer `j` have the same Gamma of that signer. -/
theorem C87_gg20_sign {m x y : ℕ} {di di' : Sc} {pfs pfs' : List DLogProof}
    {decoms decoms' : List GG20.SignDecommitPhase1} {bcs bcs' : List GG20.SignBroadcastPhase1} {R R' : Pt}
    (hx : x < m) (hy : y < m) (hb : pfs.length = m - 1) (hb' : pfs'.length = m - 1) (hl : decoms.length = m)
    (hl' : decoms'.length = m) (hc : bcs.length = m) (hc' : bcs'.length = m)
    (h : GG20.phase4 di pfs decoms bcs x = .ok R) (h' : GG20.phase4 di' pfs' decoms' bcs' y = .ok R')
    {j : ℕ} (hjx : j ≠ x) (hjy : j ≠ y) {d d' : GG20.SignDecommitPhase1} (hd : decoms[j]? = some d)
    (hd' : decoms'[j]? = some d') (hcom : bcs[j]?.map (·.com) = bcs'[j]?.map (·.com)) :
    SamePoint Sha256.hash d.g_gamma_i d.blind_factor d'.g_gamma_i d'.blind_factor := by
  have hj : j < m := by rw [← hl]; exact (List.getElem?_eq_some_iff.1 hd).1
  obtain ⟨-, d1, bc, -, e1, e2, -, v⟩ :=
    ((C40_nonce_point_iff di (by omega) hx hb hl hc R).1 h).1 j hj hjx
  obtain ⟨-, d1', bc', -, e1', e2', -, v'⟩ :=
    ((C40_nonce_point_iff di' (by omega) hy hb' hl' hc' R').1 h').1 j hj hjy
  obtain rfl := Option.some.inj (hd.symm.trans e1)
  obtain rfl := Option.some.inj (hd'.symm.trans e1')
  rw [e2, e2', Option.map_some, Option.map_some, Option.some.injEq] at hcom
  exact samePoint v (v'.trans hcom.symm)

/-- **C87** (GG18 signing, phase 4). -/
theorem C87_gg18_sign {di di' : Sc} {pfs pfs' : List DLogProof}
    {decoms decoms' : List GG18.SignDecommitPhase1} {bcs bcs' : List GG18.SignBroadcastPhase1} {R R' : Pt}
    (hl : decoms.length = pfs.length) (hl' : decoms'.length = pfs'.length) (hc : bcs.length = pfs.length)
    (hc' : bcs'.length = pfs'.length) (h : GG18.phase4 di pfs decoms bcs = .ok R)
    (h' : GG18.phase4 di' pfs' decoms' bcs' = .ok R') {i j : ℕ} {d d' : GG18.SignDecommitPhase1}
    (hd : decoms[i]? = some d) (hd' : decoms'[j]? = some d')
    (hcom : bcs[i]?.map (·.com) = bcs'[j]?.map (·.com)) :
    SamePoint Sha256.hash d.g_gamma_i d.blind_factor d'.g_gamma_i d'.blind_factor := by
  have hi : i < decoms.length := (List.getElem?_eq_some_iff.1 hd).1
  have hj : j < decoms'.length := (List.getElem?_eq_some_iff.1 hd').1
  obtain ⟨-, d1, bc, -, e1, e2, -, v⟩ := (C70_phase4_iff_partial di hl hc).1.1 ⟨_, h⟩ i hi
  obtain ⟨-, d1', bc', -, e1', e2', -, v'⟩ := (C70_phase4_iff_partial di' hl' hc').1.1 ⟨_, h'⟩ j hj
  obtain rfl := Option.some.inj (hd.symm.trans e1)
  obtain rfl := Option.some.inj (hd'.symm.trans e1')
  rw [e2, e2', Option.map_some, Option.map_some, Option.some.injEq] at hcom
  exact samePoint v (v'.trans hcom.symm)

/-- **C87** (GG18 signing, phase 5a). -/
theorem C87_gg18_phase5a {self self' : GG18.LocalSignature} {xr y xr' y' : ℕ} (hR : coords self.R = some (xr, y))
    (hR' : coords self'.R = some (xr', y')) {decoms decoms' : List GG18.Phase5ADecom1}
    {coms coms' : List GG18.Phase5Com1} {hegs hegs' : List HomoElGamalProof} {dlogs dlogs' : List DLogProof}
    {v_i v_i' R R' : Pt} {bl bl' : ℤ} (h1 : decoms.length = coms.length) (h2 : hegs.length = coms.length)
    (h3 : dlogs.length = coms.length) (h1' : decoms'.length = coms'.length) (h2' : hegs'.length = coms'.length)
    (h3' : dlogs'.length = coms'.length) {out out'}
    (h : self.phase5c decoms coms hegs dlogs v_i R bl = .ok out)
    (h' : self'.phase5c decoms' coms' hegs' dlogs' v_i' R' bl' = .ok out') {i j : ℕ} {d d' : GG18.Phase5ADecom1}
    (hd : decoms[i]? = some d) (hd' : decoms'[j]? = some d')
    (hcom : coms[i]?.map (·.com) = coms'[j]?.map (·.com)) :
    SamePoints Sha256.hash [d.V_i, d.A_i, d.B_i] d.blind_factor [d'.V_i, d'.A_i, d'.B_i] d'.blind_factor := by
  have hi : i < coms.length := by rw [← h1]; exact (List.getElem?_eq_some_iff.1 hd).1
  have hj : j < coms'.length := by rw [← h1']; exact (List.getElem?_eq_some_iff.1 hd').1
  obtain ⟨d1, c, -, -, e1, e2, -, -, v, -⟩ := (C71_phase5c_iff self hR v_i R bl h1 h2 h3).1.1 ⟨_, h⟩ i hi
  obtain ⟨d1', c', -, -, e1', e2', -, -, v', -⟩ :=
    (C71_phase5c_iff self' hR' v_i' R' bl' h1' h2' h3').1.1 ⟨_, h'⟩ j hj
  obtain rfl := Option.some.inj (hd.symm.trans e1)
  obtain rfl := Option.some.inj (hd'.symm.trans e1')
  rw [e2, e2', Option.map_some, Option.map_some, Option.some.injEq] at hcom
  exact samePoints v (v'.trans hcom.symm)

/-- **C87** (GG18 signing, phase 5c). -/
theorem C87_gg18_phase5c {self self' : GG18.LocalSignature} {d2 d2' : List GG18.Phase5DDecom2}
    {c2 c2' : List GG18.Phase5Com2} {d1 d1' : List GG18.Phase5ADecom1} (h1 : d2.length = d1.length)
    (h2 : d2.length = c2.length) (h1' : d2'.length = d1'.length) (h2' : d2'.length = c2'.length) {s s' : Sc}
    (h : self.phase5d d2 c2 d1 = .ok s) (h' : self'.phase5d d2' c2' d1' = .ok s') {i j : ℕ}
    {d d' : GG18.Phase5DDecom2} (hd : d2[i]? = some d) (hd' : d2'[j]? = some d')
    (hcom : c2[i]?.map (·.com) = c2'[j]?.map (·.com)) :
    SamePoints Sha256.hash [d.u_i, d.t_i] d.blind_factor [d'.u_i, d'.t_i] d'.blind_factor := by
  have hi : i < c2.length := by rw [← h2]; exact (List.getElem?_eq_some_iff.1 hd).1
  have hj : j < c2'.length := by rw [← h2']; exact (List.getElem?_eq_some_iff.1 hd').1
  rcases GG18.phase5d_cases self h1 h2 with ⟨ha, -⟩ | ⟨-, e⟩
  swap
  · rw [e] at h; cases h
  rcases GG18.phase5d_cases self' h1' h2' with ⟨ha', -⟩ | ⟨-, e⟩
  swap
  · rw [e] at h'; cases h'
  obtain ⟨x1, c, e1, e2, v⟩ := ha i hi
  obtain ⟨x1', c', e1', e2', v'⟩ := ha' j hj
  obtain rfl := Option.some.inj (hd.symm.trans e1)
  obtain rfl := Option.some.inj (hd'.symm.trans e1')
  rw [e2, e2', Option.map_some, Option.map_some, Option.some.injEq] at hcom
  exact samePoints v (v'.trans hcom.symm)

/-- **C87** (two-party key generation).  Two accepted openings of party one's first message show the same share
and the same first move of its proof. -/
theorem C87_two_party_keygen {m1 : Lindell17.KeyGenFirstMsg} {w w' : Lindell17.CommWitness}
    (h : Lindell17.verify_commitments_and_dlog_proof m1 ⟨w⟩ = .ok ())
    (h' : Lindell17.verify_commitments_and_dlog_proof m1 ⟨w'⟩ = .ok ()) :
    SamePoint Sha256.hash w.public_share w.pk_commitment_blind_factor
      w'.public_share w'.pk_commitment_blind_factor ∧
    SamePoint Sha256.hash w.d_log_proof.pk_t_rand_commitment w.zk_pok_blind_factor
      w'.d_log_proof.pk_t_rand_commitment w'.zk_pok_blind_factor := by
  obtain ⟨a1, a2, -⟩ := (C54_keygen_accepts_iff m1 w).1 h
  obtain ⟨b1, b2, -⟩ := (C54_keygen_accepts_iff m1 w').1 h'
  exact ⟨samePoint a1.symm b1.symm, samePoint a2.symm b2.symm⟩

/-- **C87** (two-party nonces).  Two accepted openings of party two's nonce commitment show the same share and the
same first moves of its proof. -/
theorem C87_two_party_nonce {m1 : Lindell17.KeyGenFirstMsg} {w w' : Lindell17.EphCommWitness}
    (h : Lindell17.eph_verify_commitments_and_dlog_proof m1 ⟨w⟩ = .ok ())
    (h' : Lindell17.eph_verify_commitments_and_dlog_proof m1 ⟨w'⟩ = .ok ()) :
    SamePoint Sha256.hash w.public_share w.pk_commitment_blind_factor
      w'.public_share w'.pk_commitment_blind_factor ∧
    SamePoints Sha256.hash [w.d_log_proof.a1, w.d_log_proof.a2] w.zk_pok_blind_factor
      [w'.d_log_proof.a1, w'.d_log_proof.a2] w'.zk_pok_blind_factor := by
  obtain ⟨a1, a2, -⟩ := (C54_nonce_accepts_iff m1 w).1 h
  obtain ⟨b1, b2, -⟩ := (C54_nonce_accepts_iff m1 w').1 h'
  exact ⟨samePoint a1.symm b1.symm, samePoints a2.symm b2.symm⟩

/-- **C87** (PDL proof).  Two accepted openings of the prover's commitment, even by verifiers with different
challenges, show the same point. -/
theorem C87_pdl [RangeNi] {m1 : Pdl.ProverFirstMessage} {m2 m2' : Pdl.ProverDecommit} {s s' : Pdl.VerifierState}
    (h : Pdl.verifierFinalize m1 m2 s = .ok ()) (h' : Pdl.verifierFinalize m1 m2' s' = .ok ()) :
    SamePoint Sha256.hash m2.q_hat m2.blindness m2'.q_hat m2'.blindness := by
  unfold Pdl.verifierFinalize at h h'
  dsimp only at h h'
  split at h
  · split at h'
    · rename_i a b
      exact samePoint a.1.symm b.1.symm
    · cases h'
  · cases h

/-- The commitment function itself binds nothing: every commitment to a number of two bytes or more is at the same
time a commitment to its first byte. -/
theorem C87_number_not_bound (c b z : ℕ) (hc : 0 < c) (hb : 0 < b) :
    hashCom ((c * 256 ^ (toBytes b).length + b : ℕ) : ℤ) (z : ℤ) =
      hashCom (c : ℤ) ((b * 256 ^ (toBytes z).length + z : ℕ) : ℤ) := by
  show Digest.com _ _ _ = Digest.com _ _ _
  unfold Digest.com Digest.ints
  simp only [List.flatMap_cons, List.flatMap_nil, List.append_nil]
  rw [Digest.toBytes_shift b hc, Digest.toBytes_shift z hb, List.append_assoc]

/-! ### C88: challenges determine what they were made from -/

/-- **C88** (proofs about points: discrete logarithm, Pedersen commitment, ElGamal, Diffie-Hellman tuples).  The
challenge determines the statement and the first message, also between proofs of different kinds. -/
theorem C88_points {l l' : List Pt} (h : hashPts l = hashPts l') : SameChallenge Sha256.hash l l' :=
  Digest.pts_inj Sha256.hash_length h

/-- **C88** (proof of knowledge of a discrete logarithm): acceptance is the sigma protocol's equation, for a
challenge that determines the first message and the public key. -/
theorem C88_dlog : ∃ challenge : Pt → Pt → Sc,
    (∀ pf : DLogProof, pf.verify = true ↔
      pf.challenge_response • G + challenge pf.pk_t_rand_commitment pf.pk • pf.pk =
        pf.pk_t_rand_commitment) ∧
    ∀ T pk T' pk', challenge T pk = challenge T' pk' →
      SameChallenge Sha256.hash [T, G, pk] [T', G, pk'] :=
  dlog_challenge (fun _ _ h => C88_points h)

/-- **C88** (opening of a Pedersen commitment): the same; the challenge stored in the proof is not used. -/
theorem C88_pedersen : ∃ challenge : Pt → Pt → Pt → Sc,
    (∀ pf : PedersenProof, pf.verify = true ↔
      pf.z1 • G + pf.z2 • H = pf.a1 + pf.a2 + challenge pf.com pf.a1 pf.a2 • pf.com) ∧
    ∀ com a1 a2 com' a1' a2', challenge com a1 a2 = challenge com' a1' a2' →
      SameChallenge Sha256.hash [G, H, com, a1, a2] [G, H, com', a1', a2'] :=
  pedersen_challenge (fun _ _ h => C88_points h)

/-- **C88** (ElGamal encryption): the same, with all points of the statement. -/
theorem C88_elgamal : ∃ challenge : HomoElGamalStatement → Pt → Pt → Sc,
    (∀ (pf : HomoElGamalProof) (st : HomoElGamalStatement), pf.verify st = true ↔
      pf.z1 • st.H + pf.z2 • st.Y = pf.T + challenge st pf.T pf.A3 • st.D ∧
      pf.z2 • st.G = pf.A3 + challenge st pf.T pf.A3 • st.E) ∧
    ∀ st T A st' T' A', challenge st T A = challenge st' T' A' →
      SameChallenge Sha256.hash [T, A, st.G, st.H, st.Y, st.D, st.E]
        [T', A', st'.G, st'.H, st'.Y, st'.D, st'.E] :=
  elgamal_challenge (fun _ _ h => C88_points h)

/-- **C88** (equality of discrete logarithms): the same. -/
theorem C88_ecddh : ∃ challenge : ECDDHStatement → Pt → Pt → Sc,
    (∀ (pf : ECDDHProof) (st : ECDDHStatement), pf.verify st = true ↔
      pf.z • st.g1 = pf.a1 + challenge st pf.a1 pf.a2 • st.h1 ∧
      pf.z • st.g2 = pf.a2 + challenge st pf.a1 pf.a2 • st.h2) ∧
    ∀ st a1 a2 st' a1' a2', challenge st a1 a2 = challenge st' a1' a2' →
      SameChallenge Sha256.hash [st.g1, st.h1, st.g2, st.h2, a1, a2]
        [st'.g1, st'.h1, st'.g2, st'.h2, a1', a2'] :=
  ecddh_challenge (fun _ _ h => C88_points h)

/-- **C88 (partial)** for proofs about integers: two challenges are made from the same numbers up to signs, *if the
numbers have encodings of the same lengths*, or the strings hashed for them collide.  Missing: numbers of other
lengths, see `C88_bob_ambiguous`. -/
theorem C88_ints_partial {l l' : List ℤ} (h : hashInts l = hashInts l')
    (hl : l.map (fun n => (toBytes n).length) = l'.map (fun n => (toBytes n).length)) :
    l.map Int.natAbs = l'.map Int.natAbs ∨ Collide Sha256.hash (intBytes l) (intBytes l') :=
  (Digest.ints_inj Sha256.hash_length h).imp (Digest.intBytes_inj hl) id

theorem hashInts_shift (l l' : List ℤ) {c b : ℕ} (z : ℕ) (hc : 0 < c) (hb : 0 < b) :
    hashInts (l ++ ((c * 256 ^ (toBytes b).length + b : ℕ) : ℤ) :: (z : ℤ) :: l') =
      hashInts (l ++ (c : ℤ) :: ((b * 256 ^ (toBytes z).length + z : ℕ) : ℤ) :: l') := by
  show Digest.ints _ _ = Digest.ints _ _
  unfold Digest.ints
  simp only [List.flatMap_append, List.flatMap_cons]
  rw [Digest.toBytes_shift b hc, Digest.toBytes_shift z hb, List.append_assoc, List.append_assoc]

/-- **C88 fails** for Bob's proof: the last bytes of Alice's ciphertext can be moved to the front of Bob's
ciphertext, the challenge stays. -/
theorem C88_bob_ambiguous (N : ℕ) {c b : ℕ} (z : ℕ) (hc : 0 < c) (hb : 0 < b) (r1 : BobZkpRound1)
    (check : Option BobCheck) :
    bobChallenge N ((c * 256 ^ (toBytes b).length + b : ℕ) : ℤ) (z : ℤ) r1 check =
      bobChallenge N (c : ℤ) ((b * 256 ^ (toBytes z).length + z : ℕ) : ℤ) r1 check := by
  unfold bobChallenge
  cases check with
  | none => exact congrArg (fun n : ℕ => some (n : ℤ)) (hashInts_shift [(N : ℤ), (N : ℤ) + 1] _ z hc hb)
  | some ch =>
    refine congrArg (Option.bind ch.coords) (funext fun cs => ?_)
    exact congrArg (fun n : ℕ => some (n : ℤ)) (hashInts_shift [(N : ℤ), (N : ℤ) + 1] _ z hc hb)

/-- **C88 fails** for Alice's proof: bytes can be moved between the ciphertext and the first message. -/
theorem C88_alice_ambiguous (N : ℕ) {c b : ℕ} (z : ℕ) (hc : 0 < c) (hb : 0 < b) (u w : ℤ) :
    aliceChallenge N ((c * 256 ^ (toBytes b).length + b : ℕ) : ℤ) (z : ℤ) u w =
      aliceChallenge N (c : ℤ) ((b * 256 ^ (toBytes z).length + z : ℕ) : ℤ) u w :=
  congrArg (fun n : ℕ => (n : ℤ)) (hashInts_shift [(N : ℤ), (N : ℤ) + 1] _ z hc hb)

/-- **C88 fails** for the PDL proof with slack: bytes can be moved between the ciphertext and the first message. -/
theorem C88_pdl_ambiguous (st : PDLwSlackStatement) {c b : ℕ} (z : ℕ) (hc : 0 < c) (hb : 0 < b) (u1 : Pt)
    (u2 u3 : ℤ) :
    pdlChallenge { st with ciphertext := ((c * 256 ^ (toBytes b).length + b : ℕ) : ℤ) } (z : ℤ) u1 u2 u3 =
      pdlChallenge { st with ciphertext := (c : ℤ) } ((b * 256 ^ (toBytes z).length + z : ℕ) : ℤ) u1 u2 u3 :=
  congrArg (fun n : ℕ => (n : ℤ)) (hashInts_shift [ser st.G, ser st.Q] _ z hc hb)

end

section
variable [Crypto]

/-- **C88 fails**: Alice's challenge does not depend on the auxiliary parameters.  For every invertible ciphertext
there is one proof that is accepted with all of them. -/
theorem C88_alice_parameters {N : ℕ} (hN : 0 < N) {c : ℤ} (hc : Int.gcd c N = 1) :
    ∃ pf : AliceProof, ∀ st : DLogStatement, 1 < st.N → pf.verify c N st = some true :=
  ⟨_, fun _ hst => alice_constant_proof hst hN hc⟩

/-- **C88 fails**: the challenge of the PDL proof with slack does not depend on the Paillier key.  For every point
with a known discrete logarithm there is one proof that is accepted with all keys with respect to which the
ciphertext is invertible, although its plaintext depends on the key. -/
theorem C88_pdl_key {x : Sc} {st : PDLwSlackStatement}
    (haux : 0 < st.N_tilde ∧ Int.gcd st.h1 st.N_tilde = 1 ∧ Int.gcd st.h2 st.N_tilde = 1)
    (hQ : st.Q = x • st.G) :
    ∃ pf : PDLwSlackProof, ∀ ek : ℕ, 0 < ek → Int.gcd st.ciphertext ek = 1 →
      pf.verify { st with ek := ek } = some true :=
  let ⟨pf, _, _, _, h⟩ := pdl_forge_all (alpha := 0) (gamma := 0) (rho := 0) haux.1 haux.2.1 haux.2.2 hQ
  ⟨pf, h⟩

end

/-! ### Panics of the proofs of `zk-paillier` (C15, C56, C79) -/

section
attribute [local instance] Secp256k1.crypto

/-- **C15 is violated**: a first message whose key correctness proof has fewer than eleven roots makes GG20 key
generation panic, if all messages before it are valid. -/
theorem C15_short_proof_panics (k : GG20.Keys) {t n : ℕ} (ht : t < n)
    {decoms : List GG20.KeyGenDecommitMessage1} {bcs : List GG20.KeyGenBroadcastMessage1} (coefs : List Sc)
    (h1 : decoms.length = n) (h2 : bcs.length = n) {i : ℕ} {bc : GG20.KeyGenBroadcastMessage1}
    {d : GG20.KeyGenDecommitMessage1} (hb : bcs[i]? = some bc) (hd : decoms[i]? = some d)
    (hopen : hashCom (ser d.y_i) d.blind_factor = bc.com)
    (hshort : (bc.correct_key_proof : ZkPaillier.NiCorrectKeyProof).sigma_vec.length < 11)
    (hv : ∀ j < i, ValidBroadcastAt bcs decoms j) :
    k.phase1_verify_distribute ⟨t, n⟩ decoms bcs coefs = .panic := by
  have hi : i < n := by rw [← h2]; exact (List.getElem?_eq_some_iff.1 hb).1
  refine (C15_round1_panics_iff k ht decoms bcs coefs h1 h2).2 ⟨i, hi, ⟨bc, d, hb, hd, hopen, .inl ?_⟩, hv⟩
  exact (ZkPaillier.NiCorrectKeyProof.verify_eq_none _ _ _).2 (.inr hshort)

/-- **C15 is violated**: auxiliary parameters that are not invertible make GG20 key generation panic. -/
theorem C15_bad_parameters_panic (k : GG20.Keys) {t n : ℕ} (ht : t < n)
    {decoms : List GG20.KeyGenDecommitMessage1} {bcs : List GG20.KeyGenBroadcastMessage1} (coefs : List Sc)
    (h1 : decoms.length = n) (h2 : bcs.length = n) {i : ℕ} {bc : GG20.KeyGenBroadcastMessage1}
    {d : GG20.KeyGenDecommitMessage1} (hb : bcs[i]? = some bc) (hd : decoms[i]? = some d)
    (hopen : hashCom (ser d.y_i) d.blind_factor = bc.com)
    (hck : ckVerify bc.correct_key_proof bc.e = some true) (he : bitLength bc.e = 2048)
    (hN : bitLength bc.dlog_statement.N = 2048)
    (hg : Int.gcd bc.dlog_statement.g bc.dlog_statement.N ≠ 1 ∨
      Int.gcd bc.dlog_statement.ni bc.dlog_statement.N ≠ 1)
    (hv : ∀ j < i, ValidBroadcastAt bcs decoms j) :
    k.phase1_verify_distribute ⟨t, n⟩ decoms bcs coefs = .panic := by
  have hi : i < n := by rw [← h2]; exact (List.getElem?_eq_some_iff.1 hb).1
  refine (C15_round1_panics_iff k ht decoms bcs coefs h1 h2).2 ⟨i, hi, ⟨bc, d, hb, hd, hopen,
    .inr ⟨hck, .inr he, .inr hN, .inl ?_⟩⟩, hv⟩
  refine (ZkPaillier.CompositeDLogProof.verify_eq_none _ _ _).2 ?_
  tauto

/-- **C79 is violated**: a proof of fewer than eleven roots makes party two panic, whatever the key. -/
theorem C79_short_proof_panics (proof : ZkPaillier.NiCorrectKeyProof) {ek : ℕ} (he : 2 ^ 2046 ≤ ek)
    (hshort : proof.sigma_vec.length < 11) :
    Lindell17.PaillierPublic.verify_ni_proof_correct_key proof ek = .panic :=
  (C79_key_check _ _).2.2.2 ⟨he, (ZkPaillier.NiCorrectKeyProof.verify_eq_none _ _ _).2 (.inr hshort)⟩

/-- **C79** (what acceptance means): no prime up to 6370 divides an accepted modulus, and eleven numbers fixed by
the modulus have roots of that order. -/
theorem C79_accepted {proof : ZkPaillier.NiCorrectKeyProof} {ek : ℕ}
    (h : Lindell17.PaillierPublic.verify_ni_proof_correct_key proof ek = .ok ()) :
    2 ^ 2046 ≤ ek ∧ (∀ p, p.Prime → p ≤ 6370 → ¬ p ∣ ek) ∧
      ∀ i < 11, ∃ s : ℤ, s ^ ek ≡ ZkPaillier.rho (Digest.ints Sha256.hash) ek i [ZMOD ek] := by
  obtain ⟨h1, h2⟩ := (C79_key_check _ _).1.1 h
  obtain ⟨h3, h4⟩ := ZkPaillier.NiCorrectKeyProof.accepted h2
  exact ⟨h1, h3, fun i hi => ⟨_, h4 i hi⟩⟩

/-- **C56 is violated**: party two panics if the auxiliary modulus has at most 128 bits or a base is not
invertible. -/
theorem C56_bad_parameters_panic {cd : ZkPaillier.CompositeDLogProof} {st : PDLwSlackStatement} {pf : PDLwSlackProof}
    {pub : Lindell17.PaillierPublic} {q1 : Pt} (h1 : st.ek = pub.ek)
    (h2 : st.ciphertext = pub.encrypted_secret_share) (h3 : st.Q = q1)
    (hbad : st.N_tilde ≤ 2 ^ 128 ∨ Int.gcd st.h1 st.N_tilde ≠ 1 ∨ Int.gcd st.h2 st.N_tilde ≠ 1) :
    Lindell17.PaillierPublic.pdl_verify cd st pf pub q1 = .panic := by
  have hn : cdVerify cd ⟨st.N_tilde, st.h1, st.h2⟩ = none := by
    refine (ZkPaillier.CompositeDLogProof.verify_eq_none _ _ _).2 fun ⟨a, b, c⟩ => ?_
    rcases hbad with h | h | h
    · exact absurd a (not_lt.2 h)
    · exact h b
    · exact h c
  unfold Lindell17.PaillierPublic.pdl_verify
  rw [if_neg (by simp [h1, h2, h3])]
  dsimp only
  rw [hn]
  rfl

end

section Examples
attribute [local instance] Secp256k1.crypto

/-- With real parameters the honest first messages are accepted, so that the hypotheses of `C87_gg20_keygen` are
met: two parties accept the openings of party 0. -/
example (u u' : Sc) (c c' : Sc) : ∃ (bcs : List GG20.KeyGenBroadcastMessage1)
    (decoms : List GG20.KeyGenDecommitMessage1) (k k' : GG20.Keys) (out out' : Vss × List Sc × ℕ),
    k.phase1_verify_distribute ⟨1, 2⟩ decoms bcs [c] = .ok out ∧
    k'.phase1_verify_distribute ⟨1, 2⟩ decoms bcs [c'] = .ok out' ∧
    decoms.length = 2 ∧ bcs.length = 2 ∧ decoms[0]?.map (·.y_i) = some (u • (G : Pt)) ∧
    decoms[1]?.map (·.y_i) = some (u' • (G : Pt)) := by
  obtain ⟨r, h1, h2, h3⟩ := honestRandomness_exists 1 u [c] rfl
  obtain ⟨r', h1', h2', h3'⟩ := honestRandomness_exists 1 u' [c'] rfl
  let rnd : ℕ → GG20.KeygenRandomness := fun k => if k = 0 then r else r'
  have hv : ∀ i < 2, ValidBroadcastAt ((List.range 2).map (GG20.Keygen.rBc rnd))
      ((List.range 2).map (GG20.Keygen.rDec rnd)) i := by
    intro i hi
    refine ⟨GG20.Keygen.rBc rnd i, GG20.Keygen.rDec rnd i, by simp [hi], by simp [hi], ?_⟩
    refine GG20.Keygen.honest_validBroadcast (t := 1) ?_
    show GG20.Keygen.HonestRandomness 1 (if i = 0 then r else r')
    split
    · exact h1
    · exact h1'
  obtain ⟨out, ho⟩ := (C11_accepts_iff (GG20.Keygen.rKeys rnd 0) (by decide : 1 < 2) _ _ [c] (by simp)
    (by simp)).1.2 hv
  obtain ⟨out', ho'⟩ := (C11_accepts_iff (GG20.Keygen.rKeys rnd 1) (by decide : 1 < 2) _ _ [c'] (by simp)
    (by simp)).1.2 hv
  refine ⟨_, _, _, _, _, _, ho, ho', by simp, by simp, ?_, ?_⟩
  · show some (r.u • G) = _
    rw [h2]
  · show some (r'.u • G) = _
    rw [h2']

/-- Two different accepted openings of one first message (`C87_two_party_keygen`). -/
example : ∃ (m1 : Lindell17.KeyGenFirstMsg) (w w' : Lindell17.CommWitness), w ≠ w' ∧
    Lindell17.verify_commitments_and_dlog_proof m1 ⟨w⟩ = .ok () ∧
    Lindell17.verify_commitments_and_dlog_proof m1 ⟨w'⟩ = .ok () := by
  obtain ⟨h1, h2, h3⟩ := C54_proof_not_committed (G : Pt) (2 : Sc) 3 5 7 11
  refine ⟨_, _, _, fun h => ?_, h1, h2⟩
  refine h3 (fun h => ?_) (congrArg Lindell17.CommWitness.d_log_proof h)
  exact one_ne_zero (show (1 : Sc) = 0 by linear_combination (-1 : Sc) * h)

/-- The message `0x0102` with blinding `0x03` has the same commitment as the message `0x01` with blinding
`0x0203`. -/
example : hashCom 0x0102 0x03 = hashCom 0x01 0x0203 := by
  have := C87_number_not_bound 1 2 3 (by decide) (by decide)
  rwa [show (toBytes ((2 : ℕ) : ℤ)).length = 1 by decide +kernel, show (toBytes ((3 : ℕ) : ℤ)).length = 1 by decide +kernel] at this

/-- The ciphertexts `0x0102, 0x03` and `0x01, 0x0203` have the same challenge. -/
example (N : ℕ) (r1 : BobZkpRound1) : bobChallenge N 0x0102 0x03 r1 none = bobChallenge N 0x01 0x0203 r1 none := by
  have := C88_bob_ambiguous N (c := 1) (b := 2) 3 (by decide) (by decide) r1 none
  rwa [show (toBytes ((2 : ℕ) : ℤ)).length = 1 by decide +kernel, show (toBytes ((3 : ℕ) : ℤ)).length = 1 by decide +kernel] at this

/-- Signs are not hashed. -/
example : [(-5 : ℤ), 7].map Int.natAbs = [5, -7].map Int.natAbs ∨
    Collide Sha256.hash (intBytes [-5, 7]) (intBytes [5, -7]) := C88_ints_partial rfl (by decide +kernel)

example (T pk : Pt) : SameChallenge Sha256.hash [T, G, pk] [T, G, pk] := C88_points rfl

/-- A first message with an empty key correctness proof -/
example (k : GG20.Keys) (cd : ZkPaillier.CompositeDLogProof) (st : DLogStatement) (N : ℕ) :
    k.phase1_verify_distribute ⟨0, 1⟩ [⟨5, G⟩] [⟨N, st, hashCom (ser (G : Pt)) 5, ⟨[]⟩, cd, cd⟩] [] = .panic :=
  C15_short_proof_panics k (by decide) [] rfl rfl (i := 0) rfl rfl rfl
    (show 0 < 11 by decide) (fun j hj => absurd hj (by omega))

attribute [local irreducible] bigP bigQ in
/-- A first message with a correct key and the base `0` -/
example (k : GG20.Keys) (cd : ZkPaillier.CompositeDLogProof) :
    k.phase1_verify_distribute ⟨0, 1⟩ [⟨5, G⟩] [⟨bigP * bigQ, ⟨(bigP * bigQ : ℕ), 0, 1⟩, hashCom (ser (G : Pt)) 5,
      ckProve ⟨bigP, bigQ⟩, cd, cd⟩] [] = .panic := by
  have hsz : bitLength ((bigP * bigQ : ℕ) : ℤ) = 2048 := by rw [bitLength, Int.natAbs_natCast]; exact big_size
  refine C15_bad_parameters_panic k (by decide) [] rfl rfl (i := 0) rfl rfl rfl
    (ck_complete ⟨bigP, bigQ⟩ ⟨bigP_prime, bigQ_prime, bigP_ne_bigQ, big_coprime⟩ big_large) hsz hsz (.inl ?_)
    (fun j hj => absurd hj (by omega))
  show Int.gcd 0 ((bigP * bigQ : ℕ) : ℤ) ≠ 1
  rw [Int.zero_gcd, Int.natAbs_natCast]
  intro h
  have := big_size
  rw [h] at this
  exact absurd this (by decide)

example : Lindell17.PaillierPublic.verify_ni_proof_correct_key
    (⟨[1, 2, 3]⟩ : ZkPaillier.NiCorrectKeyProof) (2 ^ 2046) = .panic :=
  C79_short_proof_panics _ le_rfl (by decide)

attribute [local irreducible] bigP bigQ in
example : ∃ proof : ZkPaillier.NiCorrectKeyProof,
    Lindell17.PaillierPublic.verify_ni_proof_correct_key proof (bigP * bigQ) = .ok () := by
  refine ⟨ckProve ⟨bigP, bigQ⟩, (C79_key_check _ _).1.2 ⟨?_, ?_⟩⟩
  · rw [← Nat.lt_size, big_size]; norm_num
  · exact ck_complete _ ⟨bigP_prime, bigQ_prime, bigP_ne_bigQ, big_coprime⟩ big_large

example (cd : ZkPaillier.CompositeDLogProof) (pf : PDLwSlackProof) (P : Pt) :
    Lindell17.PaillierPublic.pdl_verify cd ⟨7, 15, P, G, 2, 3, 35⟩ pf ⟨15, 7⟩ P = .panic :=
  C56_bad_parameters_panic rfl rfl rfl (.inl (by norm_num))

end Examples

end Verif.Props
