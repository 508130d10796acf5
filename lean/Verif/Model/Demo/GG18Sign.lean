import Verif.Model.Demo.GG18Keygen
import Verif.Model.GG18.Sign
import Verif.Model.Mta

/-!
# The GG18 signing client

Models `main` of `examples/gg18_sign_client.rs`, lines 66-488, cut at the points where the client waits for
messages.  A failed `expect`, `unwrap` or `assert!` is a panic, so the error type is empty.  Not
modelled here: command line, files, HTTP, JSON; the last comparison with another library
(`check_sig`, line 503) is in `Verif.Model.Demo.GG18Message`.
-/

namespace Verif.Demo.Sign

open EC Crypto GG18 Demo.Keygen

variable [Crypto]

/-- Everything the client samples; the maps are indexed by the receiver's number in the signing room.
(lines 101-106, 110-111, 158-171, 316-317, 392: calls of library functions that sample) -/
structure Rand where
  k : Sc
  gamma : Sc
  blind : ℤ
  /-- Paillier randomness of `MessageA` -/
  ra : ℤ
  gammaR : ℕ → ℤ
  gammaBeta : ℕ → ℤ
  gammaT1 : ℕ → Sc
  gammaT2 : ℕ → Sc
  wR : ℕ → ℤ
  wBeta : ℕ → ℤ
  wT1 : ℕ → Sc
  wT2 : ℕ → Sc
  l : Sc
  rho : Sc
  blind5a : ℤ
  dlogNonce : Sc
  heg1 : Sc
  heg2 : Sc
  blind5c : ℤ

/-- What stays fixed after round 1 (lines 48-118: the variables in use later) -/
structure Ctx where
  key : KeyFile
  signers_vec : List ℕ
  sign_keys : SignKeys
  xi_com_vec : List Pt
  com : SignBroadcastPhase1
  decommit : SignDecommitPhase1

/-- Lines 69-77: announce the own party id of key generation. -/
def start (party_num : ℕ) (key : KeyFile) : KeyFile × List (Msg ℕ) :=
  (key, [⟨party_num, none, key.party_id⟩])

/-- `x - 1` on `u16` (lines 91 and 94) -/
def pred16 (x : ℕ) : Res Empty ℕ := if x = 0 then .panic else .ok (x - 1)

/-- Lines 78-119: collect the party ids, derive the signing share, commit to `gamma` and encrypt `k`. -/
def round1 (t : ℕ) (rnd : ℕ → Rand) (party_num : ℕ) (key : KeyFile) (ans : List ℕ) :
    Res Empty (Ctx × List (Msg (SignBroadcastPhase1 × MessageA))) := do
  let ids ← reassemble (t + 1) party_num key.party_id ans
  let signers_vec ← Res.mapM pred16 ids
  let pp := PartyPrivate.set_private key.party_keys key.shared_keys
  let me ← Res.get signers_vec (party_num - 1)
  let _ ← Res.get key.vss_scheme_vec me
  let sign_keys ← SignKeys.create pp me signers_vec (rnd party_num).gamma (rnd party_num).k
  let xi_com_vec ← get_commitments_to_xi key.vss_scheme_vec
  let (com, decommit) := sign_keys.phase1_broadcast (rnd party_num).blind
  let m_a_k ← Res.ofOption (MessageA.a sign_keys.k_i key.party_keys.ek (rnd party_num).ra []
    (fun _ => ⟨0, 0, 0, 0⟩))
  .ok (⟨key, signers_vec, sign_keys, xi_com_vec, com, decommit⟩, [⟨party_num, none, (com, m_a_k)⟩])

/-- State after sending round 2 (lines 120-195: the variables in use later) -/
structure St2 where
  ctx : Ctx
  bc1_vec : List SignBroadcastPhase1
  beta_vec : List Sc
  ni_vec : List Sc

/-- Lines 157-175: the answers to the `j`-th of the other signers. -/
def answer (ctx : Ctx) (rnd : Rand) (party_num : ℕ) (m_a_vec : List MessageA) (j : ℕ) :
    Res Empty (ℕ × (MessageB × Sc) × (MessageB × Sc)) := do
  let ind := otherInd (party_num - 1) j
  let si ← Res.get ctx.signers_vec ind
  let ek ← Res.get ctx.key.paillier_key_vector si
  let m_a ← Res.get m_a_vec j
  let i := ind + 1
  let g ← (MessageB.b ctx.sign_keys.gamma_i ek m_a (rnd.gammaR i) (rnd.gammaBeta i) []
    (rnd.gammaT1 i) (rnd.gammaT2 i)).unwrap
  let w ← (MessageB.b ctx.sign_keys.w_i ek m_a (rnd.wR i) (rnd.wBeta i) []
    (rnd.wT1 i) (rnd.wT2 i)).unwrap
  .ok (i, g, w)

/-- Lines 120-196: collect commitments and ciphertexts, answer everybody.  (The `j`-th pass through the
loop over `i ≠ party_num` has `i = otherInd (party_num - 1) j + 1`.) -/
def round2 (t : ℕ) (rnd : ℕ → Rand) (party_num : ℕ) (ctx : Ctx)
    (ans : List (SignBroadcastPhase1 × MessageA)) :
    Res Empty (St2 × List (Msg (MessageB × MessageB))) := do
  let bc1_vec ← reassemble (t + 1) party_num ctx.com (ans.map Prod.fst)
  let m_a_vec := ans.map Prod.snd
  Res.assert (ctx.signers_vec.length = bc1_vec.length)
  let out ← Res.mapM (answer ctx (rnd party_num) party_num m_a_vec) (List.range t)
  .ok (⟨ctx, bc1_vec, out.map (fun o => o.2.1.2), out.map (fun o => o.2.2.2)⟩,
    out.map (fun o => ⟨party_num, some o.1, (o.2.1.1, o.2.2.1)⟩))

/-- State after sending round 3 (lines 197-256: the variables in use later) -/
structure St3 where
  ctx : Ctx
  bc1_vec : List SignBroadcastPhase1
  m_b_gamma_rec_vec : List MessageB
  delta_i : Sc
  sigma : Sc

/-- Lines 223-241: check the `j`-th pair of answers. -/
def checkAnswer (ctx : Ctx) (party_num : ℕ) (m_b_gamma_rec_vec m_b_w_rec_vec : List MessageB) (j : ℕ) :
    Res Empty (Sc × Sc) := do
  let ind := otherInd (party_num - 1) j
  let m_b ← Res.get m_b_gamma_rec_vec j
  let (alpha_gamma, _) ← (m_b.verify_proofs_get_alpha ctx.key.party_keys.dk ctx.sign_keys.k_i).unwrap
  let m_b ← Res.get m_b_w_rec_vec j
  let (alpha_w, _) ← (m_b.verify_proofs_get_alpha ctx.key.party_keys.dk ctx.sign_keys.k_i).unwrap
  let si ← Res.get ctx.signers_vec ind
  let com ← Res.get ctx.xi_com_vec si
  let _ ← Res.get ctx.key.vss_scheme_vec si
  let g_w_i ← update_commitments_to_xi com si ctx.signers_vec
  Res.assert (m_b.b_proof.pk = g_w_i)
  .ok (alpha_gamma, alpha_w)

/-- Lines 197-256 -/
def round3 (t : ℕ) (party_num : ℕ) (st : St2) (ans : List (MessageB × MessageB)) :
    Res Empty (St3 × List (Msg Sc)) := do
  let rec_vec ← Res.mapM (fun i => Res.get ans i) (List.range t)
  let m_b_gamma_rec_vec := rec_vec.map Prod.fst
  let m_b_w_rec_vec := rec_vec.map Prod.snd
  let ab ← Res.mapM (checkAnswer st.ctx party_num m_b_gamma_rec_vec m_b_w_rec_vec) (List.range t)
  let delta_i ← st.ctx.sign_keys.phase2_delta_i (ab.map Prod.fst) st.beta_vec
  let sigma ← st.ctx.sign_keys.phase2_sigma_i (ab.map Prod.snd) st.ni_vec
  .ok (⟨st.ctx, st.bc1_vec, m_b_gamma_rec_vec, delta_i, sigma⟩, [⟨party_num, none, delta_i⟩])

/-- State after sending round 4 (lines 257-283: the variables in use later) -/
structure St4 where
  ctx : Ctx
  bc1_vec : List SignBroadcastPhase1
  m_b_gamma_rec_vec : List MessageB
  sigma : Sc
  delta_inv : Sc

/-- Lines 257-283 -/
def round4 (party_num : ℕ) (st : St3) (ans : List Sc) :
    Res Empty (St4 × List (Msg SignDecommitPhase1)) := do
  let delta_vec ← format_vec_from_reads ans party_num st.delta_i
  let delta_inv ← phase3_reconstruct_delta delta_vec
  .ok (⟨st.ctx, st.bc1_vec, st.m_b_gamma_rec_vec, st.sigma, delta_inv⟩,
    [⟨party_num, none, st.ctx.decommit⟩])

/-- What the client broadcasts in round 6 (lines 350-354) -/
abbrev Open5a := Phase5ADecom1 × HomoElGamalProof × DLogProof

/-- State after sending round 5 (lines 284-327: the variables in use later) -/
structure St5 where
  R : Pt
  local_sig : LocalSignature
  phase5_com : Phase5Com1
  opening : Open5a

/-- Lines 284-327: check the openings of the Gammas, compute R and the partial signature, commit.
`message` is the number the message bytes stand for. -/
def round5 (message : ℤ) (rnd : ℕ → Rand) (party_num : ℕ) (st : St4) (ans : List SignDecommitPhase1) :
    Res Empty (St5 × List (Msg Phase5Com1)) := do
  let decommit_vec ← format_vec_from_reads ans party_num st.ctx.decommit
  let (decomm_i, decommit_vec) ← vecRemove decommit_vec (party_num - 1)
  let (_, bc1_vec) ← vecRemove st.bc1_vec (party_num - 1)
  let R ← (phase4 st.delta_inv (st.m_b_gamma_rec_vec.map (·.b_proof)) decommit_vec bc1_vec).unwrap
  let R := R + st.delta_inv • decomm_i.g_gamma_i
  let local_sig ← LocalSignature.phase5_local_sig st.ctx.sign_keys.k_i message R st.sigma
    st.ctx.key.y_sum (rnd party_num).l (rnd party_num).rho
  let (com, decom, heg, dlog) := local_sig.phase5a (rnd party_num).blind5a (rnd party_num).dlogNonce
    (rnd party_num).heg1 (rnd party_num).heg2
  .ok (⟨R, local_sig, com, (decom, heg, dlog)⟩, [⟨party_num, none, com⟩])

/-- State after sending round 6 (lines 328-358: the variables in use later) -/
structure St6 where
  R : Pt
  local_sig : LocalSignature
  commit5a_vec : List Phase5Com1
  opening : Open5a

/-- Lines 328-358 -/
def round6 (party_num : ℕ) (st : St5) (ans : List Phase5Com1) :
    Res Empty (St6 × List (Msg Open5a)) := do
  let commit5a_vec ← format_vec_from_reads ans party_num st.phase5_com
  .ok (⟨st.R, st.local_sig, commit5a_vec, st.opening⟩, [⟨party_num, none, st.opening⟩])

/-- State after sending round 7 (lines 359-411: the variables in use later) -/
structure St7 where
  local_sig : LocalSignature
  opened_vec : List Open5a
  com2 : Phase5Com2
  decom2 : Phase5DDecom2

/-- Lines 359-411: phase 5c on the others' openings -/
def round7 (t : ℕ) (rnd : ℕ → Rand) (party_num : ℕ) (st : St6) (ans : List Open5a) :
    Res Empty (St7 × List (Msg Phase5Com2)) := do
  let includes_i ← format_vec_from_reads ans party_num st.opening
  let (_, others) ← vecRemove includes_i (party_num - 1)
  let (_, commit5a_vec) ← vecRemove st.commit5a_vec (party_num - 1)
  let others ← Res.mapM (fun i => Res.get others i) (List.range t)
  let (com2, decom2) ← (st.local_sig.phase5c (others.map (·.1)) commit5a_vec (others.map (·.2.1))
    (others.map (·.2.2)) st.opening.1.V_i st.R (rnd party_num).blind5c).unwrap
  .ok (⟨st.local_sig, includes_i, com2, decom2⟩, [⟨party_num, none, com2⟩])

/-- State after sending round 8 (lines 412-437: the variables in use later) -/
structure St8 where
  local_sig : LocalSignature
  opened_vec : List Open5a
  commit5c_vec : List Phase5Com2
  decom2 : Phase5DDecom2

/-- Lines 412-437 -/
def round8 (party_num : ℕ) (st : St7) (ans : List Phase5Com2) :
    Res Empty (St8 × List (Msg Phase5DDecom2)) := do
  let commit5c_vec ← format_vec_from_reads ans party_num st.com2
  .ok (⟨st.local_sig, st.opened_vec, commit5c_vec, st.decom2⟩, [⟨party_num, none, st.decom2⟩])

/-- State after sending round 9 (lines 438-478: the variables in use later) -/
structure St9 where
  local_sig : LocalSignature
  s_i : Sc

/-- Lines 438-478: phase 5d, then the partial signature is released. -/
def round9 (t : ℕ) (party_num : ℕ) (st : St8) (ans : List Phase5DDecom2) :
    Res Empty (St9 × List (Msg Sc)) := do
  let decommit5d_vec ← format_vec_from_reads ans party_num st.decom2
  let opened ← Res.mapM (fun i => Res.get st.opened_vec i) (List.range (t + 1))
  let s_i ← (st.local_sig.phase5d decommit5d_vec st.commit5c_vec (opened.map (·.1))).unwrap
  .ok (⟨st.local_sig, s_i⟩, [⟨party_num, none, s_i⟩])

/-- Lines 479-488 -/
def finish (party_num : ℕ) (st : St9) (ans : List Sc) : Res Empty GG18.SignatureRecid := do
  let s_i_vec ← format_vec_from_reads ans party_num st.s_i
  let (_, s_i_vec) ← vecRemove s_i_vec (party_num - 1)
  (st.local_sig.output_signature s_i_vec).unwrap

/-- All clients of a signing room with `THRESHOLD = t` together: the client with number `i` uses the key file
`key i` and the random values `rnd i`. (lines 36-488, once per client) -/
def run (t : ℕ) (key : ℕ → KeyFile) (message : ℤ) (rnd : ℕ → Rand) :
    Res Empty (List GG18.SignatureRecid) := do
  let m := t + 1
  let r0 := (List.range m).map (fun k => start (k + 1) (key (k + 1)))
  let r1 ← runRound m (round1 t rnd) r0
  let r2 ← runRound m (round2 t rnd) r1
  let r3 ← runRound m (round3 t) r2
  let r4 ← runRound m round4 r3
  let r5 ← runRound m (round5 message rnd) r4
  let r6 ← runRound m round6 r5
  let r7 ← runRound m (round7 t rnd) r6
  let r8 ← runRound m round8 r7
  let r9 ← runRound m (round9 t) r8
  runRound m finish r9

end Verif.Demo.Sign
