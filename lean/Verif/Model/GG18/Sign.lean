import Verif.Model.GG18.Keygen
import Verif.Model.GG18.Signature

/-!
# GG18 signing: party-local functions

Models `src/protocols/multi_party_ecdsa/gg_2018/party_i.rs`, lines 85-138 and 384-673.  Random samples are
arguments.
-/

namespace Verif.GG18

open EC Crypto

variable [Crypto]

/-- party_i.rs, lines 85-92, `SignKeys` -/
structure SignKeys where
  w_i : Sc
  g_w_i : Pt
  k_i : Sc
  gamma_i : Sc
  g_gamma_i : Pt

/-- party_i.rs, lines 94-97, `SignBroadcastPhase1` -/
structure SignBroadcastPhase1 where
  com : ℤ
  deriving DecidableEq

/-- party_i.rs, lines 99-103, `SignDecommitPhase1` -/
structure SignDecommitPhase1 where
  blind_factor : ℤ
  g_gamma_i : Pt
  deriving DecidableEq

/-- party_i.rs, lines 385-406, `SignKeys::create`; `gamma_i`, `k_i` are sampled.  The parameter
`vss_scheme` is passed on to `map_share_to_new_params`, which does not use it. -/
def SignKeys.create {ε : Type} (pp : PartyPrivate) (index : ℕ) (s : List ℕ) (gamma_i k_i : Sc) :
    Res ε SignKeys := do
  let li ← Res.ofOption (mapShareToNewParams index s)
  let w_i := li * pp.x_i
  .ok { w_i := w_i, g_w_i := w_i • G, k_i := k_i, gamma_i := gamma_i, g_gamma_i := gamma_i • G }

/-- party_i.rs, lines 408-424, `SignKeys::phase1_broadcast`; `blind_factor` is sampled. -/
def SignKeys.phase1_broadcast (k : SignKeys) (blind_factor : ℤ) :
    SignBroadcastPhase1 × SignDecommitPhase1 :=
  let g_gamma_i : Pt := k.gamma_i • G
  (⟨hashCom (ser g_gamma_i) blind_factor⟩, ⟨blind_factor, k.g_gamma_i⟩)

/-- party_i.rs, lines 426-434, `SignKeys::phase2_delta_i` -/
def SignKeys.phase2_delta_i {ε : Type} (k : SignKeys) (alpha_vec beta_vec : List Sc) : Res ε Sc := do
  Res.assert (alpha_vec.length = beta_vec.length)
  .ok (k.k_i * k.gamma_i + (alpha_vec ++ beta_vec).sum)

/-- party_i.rs, lines 436-444, `SignKeys::phase2_sigma_i` -/
def SignKeys.phase2_sigma_i {ε : Type} (k : SignKeys) (miu_vec ni_vec : List Sc) : Res ε Sc := do
  Res.assert (miu_vec.length = ni_vec.length)
  .ok (k.k_i * k.w_i + (miu_vec ++ ni_vec).sum)

/-- party_i.rs, lines 446-452, `SignKeys::phase3_reconstruct_delta` -/
def phase3_reconstruct_delta {ε : Type} (delta_vec : List Sc) : Res ε Sc :=
  Res.ofOption (scInvert delta_vec.sum)

/-- party_i.rs, lines 463-469: the test of `phase4` at position `i` -/
def phase4_test (b_proof_vec : List DLogProof) (decoms : List SignDecommitPhase1)
    (bc1_vec : List SignBroadcastPhase1) (i : ℕ) : Res Error Bool := do
  let b_proof ← Res.get b_proof_vec i
  let d ← Res.get decoms i
  if b_proof.pk = d.g_gamma_i then do
    let bc ← Res.get bc1_vec i
    .ok (decide (hashCom (ser d.g_gamma_i) d.blind_factor = bc.com))
  else .ok false

/-- party_i.rs, lines 454-483, `SignKeys::phase4` -/
def phase4 (delta_inv : Sc) (b_proof_vec : List DLogProof) (decoms : List SignDecommitPhase1)
    (bc1_vec : List SignBroadcastPhase1) : Res Error Pt := do
  let ok ← allRes (phase4_test b_proof_vec decoms bc1_vec) (List.range b_proof_vec.length)
  if ok then .ok (delta_inv • (decoms.map (·.g_gamma_i)).sum) else .err .InvalidKey

/-- party_i.rs, lines 115-118, `Phase5Com1` -/
structure Phase5Com1 where
  com : ℤ
  deriving DecidableEq

/-- party_i.rs, lines 120-123, `Phase5Com2` -/
structure Phase5Com2 where
  com : ℤ
  deriving DecidableEq

/-- party_i.rs, lines 125-131, `Phase5ADecom1` -/
structure Phase5ADecom1 where
  V_i : Pt
  A_i : Pt
  B_i : Pt
  blind_factor : ℤ
  deriving DecidableEq

/-- party_i.rs, lines 133-138, `Phase5DDecom2` -/
structure Phase5DDecom2 where
  u_i : Pt
  t_i : Pt
  blind_factor : ℤ
  deriving DecidableEq

/-- party_i.rs, lines 487-511, `LocalSignature::phase5_local_sig`; `l_i`, `rho_i` are sampled. -/
def LocalSignature.phase5_local_sig {ε : Type} (k_i : Sc) (message : ℤ) (R : Pt) (sigma_i : Sc)
    (pubkey : Pt) (l_i rho_i : Sc) : Res ε LocalSignature := do
  let m_fe : Sc := (message : Sc)
  let x ← Res.ofOption (xc R)
  let r := scOfCoord x
  .ok { l_i := l_i, rho_i := rho_i, R := R, s_i := m_fe * k_i + r * sigma_i, m := message, y := pubkey }

/-- The statement of lines 538-544 and 574-580 -/
def phase5Statement (R : Pt) (d : Phase5ADecom1) : HomoElGamalStatement :=
  { G := d.A_i, H := R, Y := G, D := d.V_i, E := d.B_i }

/-- The commitment of lines 527-533 and 582-589 -/
def phase5Com1 (d : Phase5ADecom1) : ℤ := hashCom (hashPtsInt [d.V_i, d.A_i, d.B_i]) d.blind_factor

/-- The commitment of lines 615-620 and 648-654 -/
def phase5Com2 (d : Phase5DDecom2) : ℤ := hashCom (hashPtsInt [d.u_i, d.t_i]) d.blind_factor

/-- party_i.rs, lines 513-559, `LocalSignature::phase5a_broadcast_5b_zkproof`; `blind_factor` and the
nonces of the two proofs are sampled. -/
def LocalSignature.phase5a (self : LocalSignature) (blind_factor : ℤ) (dlogNonce s1 s2 : Sc) :
    Phase5Com1 × Phase5ADecom1 × HomoElGamalProof × DLogProof :=
  let d : Phase5ADecom1 :=
    { V_i := self.s_i • self.R + self.l_i • G
      A_i := self.rho_i • G
      B_i := (self.l_i * self.rho_i) • G
      blind_factor := blind_factor }
  (⟨phase5Com1 d⟩, d, HomoElGamalProof.prove self.l_i self.s_i (phase5Statement self.R d) s1 s2,
    DLogProof.prove self.rho_i dlogNonce)

/-- party_i.rs, lines 573-592: the test of `phase5c` at position `i` -/
def phase5c_test (R : Pt) (decom_vec : List Phase5ADecom1) (com_vec : List Phase5Com1)
    (elgamal_proofs : List HomoElGamalProof) (dlog_proofs_rho : List DLogProof) (i : ℕ) :
    Res Error Bool := do
  let d ← Res.get decom_vec i
  let c ← Res.get com_vec i
  if phase5Com1 d = c.com then do
    let pf ← Res.get elgamal_proofs i
    if pf.verify (phase5Statement R d) then do
      let dl ← Res.get dlog_proofs_rho i
      .ok dl.verify
    else .ok false
  else .ok false

/-- party_i.rs, lines 561-636, `LocalSignature::phase5c`; `blind_factor` is sampled. -/
def LocalSignature.phase5c (self : LocalSignature) (decom_vec : List Phase5ADecom1)
    (com_vec : List Phase5Com1) (elgamal_proofs : List HomoElGamalProof)
    (dlog_proofs_rho : List DLogProof) (v_i R : Pt) (blind_factor : ℤ) :
    Res Error (Phase5Com2 × Phase5DDecom2) := do
  Res.assert (decom_vec.length = com_vec.length)
  let test_com_elgamal ← allRes (phase5c_test R decom_vec com_vec elgamal_proofs dlog_proofs_rho)
    (List.range com_vec.length)
  let v := v_i + (decom_vec.map (·.V_i)).sum
  let a := (decom_vec.map (·.A_i)).sum
  let x ← okOrInvalidSig (xc self.R)
  let r := scOfCoord x
  let yr := r • self.y
  let m_fe : Sc := (self.m : Sc)
  let gm : Pt := m_fe • G
  let v := v - gm - yr
  let d : Phase5DDecom2 := { u_i := self.rho_i • v, t_i := self.l_i • a, blind_factor := blind_factor }
  if test_com_elgamal then .ok (⟨phase5Com2 d⟩, d) else .err .InvalidCom

/-- party_i.rs, lines 638-673, `LocalSignature::phase5d` -/
def LocalSignature.phase5d (self : LocalSignature) (decom_vec2 : List Phase5DDecom2)
    (com_vec2 : List Phase5Com2) (decom_vec1 : List Phase5ADecom1) : Res Error Sc := do
  Res.assert (decom_vec2.length = decom_vec1.length)
  Res.assert (decom_vec2.length = com_vec2.length)
  let test_com ← allRes (fun i => do
    let d ← Res.get decom_vec2 i
    let c ← Res.get com_vec2 i
    .ok (decide (phase5Com2 d = c.com))) (List.range com_vec2.length)
  let biased_sum_tb : Pt :=
    G + ((decom_vec2.map (·.t_i)) ++ (decom_vec1.map (·.B_i))).sum
  let biased_sum_tb_minus_u := biased_sum_tb - (decom_vec2.map (·.u_i)).sum
  if test_com then
    if G = biased_sum_tb_minus_u then .ok self.s_i else .err .InvalidKey
  else .err .InvalidCom

end Verif.GG18
