import Verif.Model.GG20.Sign
import Verif.Model.GG20.KeygenRounds

/-!
# GG20 offline signing: round functions

Models `src/protocols/multi_party_ecdsa/gg_2020/state_machine/sign/rounds.rs`.  A round function takes the
other signers' messages ordered by sender, and returns the next round together with the messages it
pushes.  Random values are explicit arguments.
-/

namespace Verif.GG20

open EC Crypto

variable [Crypto]

/-- Everything a signer samples during the offline stage.  Functions of a position: the value used
towards the signer at that position.
(gg_2020/party_i.rs, lines 546-589, 620-633, 691-717, 778-799; mta/mod.rs and range_proofs.rs where they sample) -/
structure SignRandomness where
  k : Sc
  gamma : Sc
  blind : ℤ
  /-- Paillier randomness of `k` -/
  ra : ℤ
  alice : ℕ → AliceRand
  gammaR : ℕ → ℤ
  gammaBeta : ℕ → ℤ
  gammaT1 : ℕ → Sc
  gammaT2 : ℕ → Sc
  wR : ℕ → ℤ
  wBeta : ℕ → ℤ
  wT1 : ℕ → Sc
  wT2 : ℕ → Sc
  l : Sc
  ped1 : Sc
  ped2 : Sc
  pdl : ℕ → PdlRand
  heg1 : Sc
  heg2 : Sc

/-- `Error::to_string` (lib.rs, lines 35-47) -/
def errorString : Error → String
  | .InvalidKey => "InvalidKey"
  | .InvalidSS => "InvalidSS"
  | .InvalidCom => "InvalidCom"
  | .InvalidSig => "InvalidSig"
  | .Phase5BadSum => "Phase5BadSum"
  | .Phase6Error => "Phase6Error"

namespace Sign

/-- sign/rounds.rs, lines 695-713, `Error` (only the variants that are constructed) -/
inductive SignError where
  | Round1 (e : ErrorType)
  | Round3 (e : ErrorType)
  | Round5 (e : ErrorType)
  | Round6VerifyProof (e : ErrorType)
  | Round6CheckSig (e : Error)
  deriving DecidableEq

/-- `map_err(|e| Error::RoundX(ErrorType { error_type: e.to_string(), bad_actors: vec![] }))`
(sign/rounds.rs, lines 157-162, 170-175, 266-271, 275-280, 372-377, 559-564) -/
def anon (c : ErrorType → SignError) (e : Error) : SignError := c ⟨errorString e, []⟩

/-- sign/rounds.rs, lines 51-65, `Round0` -/
structure Round0 where
  i : ℕ
  s_l : List ℕ
  local_key : LocalKey

/-- sign/rounds.rs, lines 111-119, `Round1`; `m_a` is the message and its encryption randomness. -/
structure Round1 where
  i : ℕ
  s_l : List ℕ
  local_key : LocalKey
  m_a : MessageA × ℤ
  sign_keys : SignKeys
  phase1_com : SignBroadcastPhase1
  phase1_decom : SignDecommitPhase1

/-- sign/rounds.rs, lines 220-231, `Round2` -/
structure Round2 where
  i : ℕ
  s_l : List ℕ
  local_key : LocalKey
  sign_keys : SignKeys
  m_a : MessageA × ℤ
  beta_vec : List Sc
  ni_vec : List Sc
  bc_vec : List SignBroadcastPhase1
  m_a_vec : List MessageA
  phase1_decom : SignDecommitPhase1

/-- sign/rounds.rs, lines 328-344, `Round3` -/
structure Round3 where
  i : ℕ
  s_l : List ℕ
  local_key : LocalKey
  sign_keys : SignKeys
  m_a : MessageA × ℤ
  mb_gamma_s : List MessageB
  bc_vec : List SignBroadcastPhase1
  m_a_vec : List MessageA
  delta_i : Sc
  t_i : Pt
  l_i : Sc
  sigma_i : Sc
  t_i_proof : PedersenProof
  phase1_decom : SignDecommitPhase1

/-- sign/rounds.rs, lines 413-428, `Round4` -/
structure Round4 where
  i : ℕ
  s_l : List ℕ
  local_key : LocalKey
  sign_keys : SignKeys
  m_a : MessageA × ℤ
  mb_gamma_s : List MessageB
  bc_vec : List SignBroadcastPhase1
  m_a_vec : List MessageA
  t_i : Pt
  l_i : Sc
  sigma_i : Sc
  delta_inv : Sc
  t_vec : List Pt
  phase1_decom : SignDecommitPhase1

/-- sign/rounds.rs, lines 509-522, `Round5` -/
structure Round5 where
  i : ℕ
  s_l : List ℕ
  local_key : LocalKey
  sign_keys : SignKeys
  t_vec : List Pt
  m_a_vec : List MessageA
  t_i : Pt
  l_i : Sc
  sigma_i : Sc
  R : Pt
  R_dash : Pt
  phase5_proofs_vec : List PDLwSlackProof

/-- sign/rounds.rs, lines 603-609, `Round6`; the field `t_vec` of the guarded output is kept next to
it. -/
structure Round6 where
  S_i : Pt
  homo_elgamal_proof : HomoElGamalProof
  s_l : List ℕ
  i : ℕ
  t_vec : List Pt
  protocol_output : CompletedOfflineStage

/-- Messages of round 3 (sign/rounds.rs, lines 38-43) -/
structure TMsg where
  delta_i : Sc
  t_i : Pt
  t_i_proof : PedersenProof
  deriving DecidableEq

/-- `s_l.iter().map(|i| usize::from(i) - 1)`; `new` guarantees positive entries.
(sign/rounds.rs, lines 249-254, and the same in the other rounds) -/
def zeroBased (s_l : List ℕ) : List ℕ := s_l.map (· - 1)

/-- sign/rounds.rs, lines 68-104, `Round0::proceed` -/
def Round0.proceed (r : Round0) (rnd : SignRandomness) :
    Res SignError (Round1 × List (Msg (MessageA × SignBroadcastPhase1))) := do
  let own ← Res.get r.s_l (r.i - 1)
  let sign_keys ← SignKeys.create r.local_key.keys_linear.x_i (own - 1) (zeroBased r.s_l) rnd.gamma rnd.k
  let bd := sign_keys.phase1_broadcast rnd.blind
  let party_ek ← Res.get r.local_key.paillier_key_vec (r.local_key.i - 1)
  let m_a ← Res.ofOption (MessageA.a sign_keys.k_i party_ek rnd.ra r.local_key.h1_h2_n_tilde_vec rnd.alice)
  .ok ({ i := r.i, s_l := r.s_l, local_key := r.local_key, m_a := (m_a, rnd.ra), sign_keys := sign_keys,
         phase1_com := bd.1, phase1_decom := bd.2 },
    [⟨r.i, none, (m_a, bd.1)⟩])

/-- sign/rounds.rs, lines 152-180: the answers to the `j`-th of the other signers, with the own
additive shares -/
def Round1.answer (r : Round1) (m_a_vec : List MessageA) (rnd : SignRandomness) (j : ℕ) :
    Res SignError ((MessageB × Sc) × (MessageB × Sc)) := do
  let ind := otherInd (r.i - 1) j
  let si ← Res.get (zeroBased r.s_l) ind
  let ek ← Res.get r.local_key.paillier_key_vec si
  let m_a ← Res.get m_a_vec ind
  let g ← (MessageB.b r.sign_keys.gamma_i ek m_a (rnd.gammaR ind) (rnd.gammaBeta ind)
    r.local_key.h1_h2_n_tilde_vec (rnd.gammaT1 ind) (rnd.gammaT2 ind)).mapErr (anon .Round1)
  let w ← (MessageB.b r.sign_keys.w_i ek m_a (rnd.wR ind) (rnd.wBeta ind)
    r.local_key.h1_h2_n_tilde_vec (rnd.wT1 ind) (rnd.wT2 ind)).mapErr (anon .Round1)
  .ok (g, w)

/-- sign/rounds.rs, lines 122-206, `Round1::proceed` -/
def Round1.proceed (r : Round1) (input : List (MessageA × SignBroadcastPhase1)) (rnd : SignRandomness) :
    Res SignError (Round2 × List (Msg (MessageB × MessageB))) := do
  let all := intoVecIncludingMe input r.i (r.m_a.1, r.phase1_com)
  let m_a_vec := all.map Prod.fst
  let bc_vec := all.map Prod.snd
  let answers ← Res.mapM (r.answer m_a_vec rnd) (List.range (r.s_l.length - 1))
  let receivers := (List.range r.s_l.length).map (· + 1) |>.filter (fun j => j ≠ r.i)
  let out := (receivers.zip answers).map
    (fun ja => (⟨r.i, some ja.1, (ja.2.1.1, ja.2.2.1)⟩ : Msg (MessageB × MessageB)))
  .ok ({ i := r.i, s_l := r.s_l, local_key := r.local_key, sign_keys := r.sign_keys, m_a := r.m_a,
         beta_vec := answers.map (·.1.2), ni_vec := answers.map (·.2.2), bc_vec := bc_vec,
         m_a_vec := m_a_vec, phase1_decom := r.phase1_decom },
    out)

/-- sign/rounds.rs, lines 259-284: the shares obtained from the `j`-th of the other signers; the
`assert_eq!` of line 280 panics. -/
def Round2.shares (r : Round2) (g_w_vec : List Pt) (input : List (MessageB × MessageB)) (j : ℕ) :
    Res SignError (Sc × Sc) := do
  let ind := otherInd (r.i - 1) j
  let m ← Res.get input j
  let alpha ← (m.1.verify_proofs_get_alpha r.local_key.paillier_dk r.sign_keys.k_i).mapErr (anon .Round3)
  let miu ← (m.2.verify_proofs_get_alpha r.local_key.paillier_dk r.sign_keys.k_i).mapErr (anon .Round3)
  let g_w ← Res.get g_w_vec ind
  Res.assert (m.2.b_proof.pk = g_w)
  .ok (alpha.1, miu.1)

/-- sign/rounds.rs, lines 234-317, `Round2::proceed` -/
def Round2.proceed (r : Round2) (input : List (MessageB × MessageB)) (rnd : SignRandomness) :
    Res SignError (Round3 × List (Msg TMsg)) := do
  let g_w_vec ← SignKeys.g_w_vec r.local_key.pk_vec (zeroBased r.s_l)
  let shares ← Res.mapM (r.shares g_w_vec input) (List.range (r.s_l.length - 1))
  let delta_i ← r.sign_keys.phase2_delta_i (shares.map Prod.fst) r.beta_vec
  let sigma_i ← r.sign_keys.phase2_sigma_i (shares.map Prod.snd) r.ni_vec
  let t := phase3_compute_t_i sigma_i rnd.l rnd.ped1 rnd.ped2
  .ok ({ i := r.i, s_l := r.s_l, local_key := r.local_key, sign_keys := r.sign_keys, m_a := r.m_a,
         mb_gamma_s := input.map Prod.fst, bc_vec := r.bc_vec, m_a_vec := r.m_a_vec, delta_i := delta_i,
         t_i := t.1, l_i := t.2.1, sigma_i := sigma_i, t_i_proof := t.2.2,
         phase1_decom := r.phase1_decom },
    [⟨r.i, none, ⟨delta_i, t.1, t.2.2⟩⟩])

/-- sign/rounds.rs, lines 347-402, `Round3::proceed`; the `assert_eq!` of line 366 panics. -/
def Round3.proceed (r : Round3) (input : List TMsg) :
    Res SignError (Round4 × List (Msg SignDecommitPhase1)) := do
  let all := intoVecIncludingMe input r.i ⟨r.delta_i, r.t_i, r.t_i_proof⟩
  Res.assert (all.all (fun m => m.t_i = m.t_i_proof.com))
  let delta_inv ← phase3_reconstruct_delta (all.map (·.delta_i))
  if ((all.take r.s_l.length).all (fun m => m.t_i_proof.verify)) then
    .ok ({ i := r.i, s_l := r.s_l, local_key := r.local_key, sign_keys := r.sign_keys, m_a := r.m_a,
           mb_gamma_s := r.mb_gamma_s, bc_vec := r.bc_vec, m_a_vec := r.m_a_vec, t_i := r.t_i,
           l_i := r.l_i, sigma_i := r.sigma_i, delta_inv := delta_inv, t_vec := all.map (·.t_i),
           phase1_decom := r.phase1_decom },
      [⟨r.i, none, r.phase1_decom⟩])
  else .err (.Round3 ⟨"proof error", []⟩)

/-- sign/rounds.rs, lines 431-498, `Round4::proceed` -/
def Round4.proceed (r : Round4) (input : List SignDecommitPhase1) (rnd : SignRandomness) :
    Res SignError (Round5 × List (Msg (Pt × List PDLwSlackProof))) := do
  let decom_vec := intoVecIncludingMe input r.i r.phase1_decom
  let b_proof_vec ← Res.mapM (fun i => do let m ← Res.get r.mb_gamma_s i; .ok m.b_proof)
    (List.range (r.s_l.length - 1))
  let R ← (phase4 r.delta_inv b_proof_vec decom_vec r.bc_vec (r.i - 1)).mapErr .Round5
  let R_dash := r.sign_keys.k_i • R
  let l_s := zeroBased r.s_l
  let index := r.i - 1
  let proofs ← Res.mapM (fun j => do
    let ind := otherInd index j
    let me ← Res.get l_s index
    let ek ← Res.get r.local_key.paillier_key_vec me
    let si ← Res.get l_s ind
    let st ← Res.get r.local_key.h1_h2_n_tilde_vec si
    phase5_proof_pdl R_dash R r.m_a.1.c ek r.sign_keys.k_i r.m_a.2 st (rnd.pdl ind))
    (List.range (r.s_l.length - 1))
  .ok ({ i := r.i, s_l := r.s_l, local_key := r.local_key, sign_keys := r.sign_keys, t_vec := r.t_vec,
         m_a_vec := r.m_a_vec, t_i := r.t_i, l_i := r.l_i, sigma_i := r.sigma_i, R := R,
         R_dash := R_dash, phase5_proofs_vec := proofs },
    [⟨r.i, none, (R_dash, proofs)⟩])

/-- sign/rounds.rs, lines 546-558: the check of signer `i`'s proofs -/
def Round5.checkPdl (r : Round5) (all : List (Pt × List PDLwSlackProof)) (i : ℕ) : Res SignError Unit := do
  let l_s := zeroBased r.s_l
  let x ← Res.get all i
  let m_a ← Res.get r.m_a_vec i
  let si ← Res.get l_s i
  let ek ← Res.get r.local_key.paillier_key_vec si
  (phase5_verify_pdl x.2 x.1 r.R m_a.c ek r.local_key.h1_h2_n_tilde_vec l_s i).mapErr .Round5

/-- sign/rounds.rs, lines 525-592, `Round5::proceed` -/
def Round5.proceed (r : Round5) (input : List (Pt × List PDLwSlackProof)) (rnd : SignRandomness) :
    Res SignError (Round6 × List (Msg (Pt × HomoElGamalProof))) := do
  let all := intoVecIncludingMe input r.i (r.R_dash, r.phase5_proofs_vec)
  let _ ← Res.mapM (r.checkPdl all) (List.range r.s_l.length)
  (phase5_check_R_dash_sum (all.map Prod.fst)).mapErr (anon .Round5)
  let S := phase6_compute_S_i r.R r.t_i r.sigma_i r.l_i rnd.heg1 rnd.heg2
  .ok ({ S_i := S.1, homo_elgamal_proof := S.2, s_l := r.s_l, i := r.i, t_vec := r.t_vec,
         protocol_output := ⟨r.sign_keys.k_i, r.R, r.sigma_i, r.local_key.y_sum_s⟩ },
    [⟨r.i, none, S⟩])

/-- sign/rounds.rs, lines 612-636, `Round6::proceed` -/
def Round6.proceed (r : Round6) (input : List (Pt × HomoElGamalProof)) :
    Res SignError CompletedOfflineStage := do
  let all := intoVecIncludingMe input r.i (r.S_i, r.homo_elgamal_proof)
  let R_vec := List.replicate r.s_l.length r.protocol_output.R
  (phase6_verify_proof (all.map Prod.fst) (all.map Prod.snd) R_vec r.t_vec).mapErr .Round6VerifyProof
  (phase6_check_S_i_sum r.protocol_output.y_sum_s (all.map Prod.fst)).mapErr .Round6CheckSig
  .ok r.protocol_output

end Sign
end Verif.GG20
