import Verif.Ext.Vss
import Verif.Ext.Sigma
import Verif.Base.Check
import Verif.Model.Error
import Verif.Model.GG20.Sign

/-!
# GG18 key generation: party-local functions

Models `src/protocols/multi_party_ecdsa/gg_2018/party_i.rs`, lines 44-382 (key generation part).
Random values are explicit arguments.
-/

namespace Verif.GG18

open EC Crypto

section
variable [EC]

/-- party_i.rs, lines 271-282, `Keys::get_commitments_to_xi` -/
def get_commitments_to_xi {ε : Type} (vss_scheme_vec : List Vss) : Res ε (List Pt) := do
  let len ← toU16 vss_scheme_vec.length
  Res.mapM (fun i => do
    let cs ← Res.mapM (fun j => do
      let v ← Res.get vss_scheme_vec j
      Res.ofOption (pointCommitment v.commitments (i + 1))) (List.range vss_scheme_vec.length)
    .ok cs.sum) (List.range len)

/-- party_i.rs, lines 284-293, `Keys::update_commitments_to_xi`; the parameter `vss_scheme` is passed on
to `map_share_to_new_params`, which does not use it. -/
def update_commitments_to_xi {ε : Type} (comm : Pt) (index : ℕ) (s : List ℕ) : Res ε Pt := do
  let li ← Res.ofOption (mapShareToNewParams index s)
  .ok (li • comm)

end

variable [Crypto]

/-- party_i.rs, lines 44-48, `Parameters` (`u16` fields as naturals) -/
structure Parameters where
  threshold : ℕ
  share_count : ℕ

/-- party_i.rs, lines 50-57, `Keys`; `ek` is the Paillier modulus -/
structure Keys where
  u_i : Sc
  y_i : Pt
  dk : DecKey
  ek : ℕ
  party_index : ℕ

/-- party_i.rs, lines 66-71, `KeyGenBroadcastMessage1` -/
structure KeyGenBroadcastMessage1 where
  e : ℕ
  com : ℤ
  correct_key_proof : CKProof

/-- party_i.rs, lines 73-77, `KeyGenDecommitMessage1` -/
structure KeyGenDecommitMessage1 where
  blind_factor : ℤ
  y_i : Pt

/-- party_i.rs, lines 79-83, `SharedKeys` -/
structure SharedKeys where
  y : Pt
  x_i : Sc

/-- party_i.rs, lines 147-188, `Keys::create`, `create_safe_prime`, `create_from`: the three differ only
in how `u` and the Paillier primes are sampled. -/
def Keys.create (index : ℕ) (u : Sc) (dk : DecKey) : Keys :=
  { u_i := u, y_i := u • G, dk := dk, ek := dk.n, party_index := index }

/-- party_i.rs, lines 190-209, `Keys::phase1_broadcast_phase3_proof_of_correct_key` -/
def Keys.phase1_broadcast (k : Keys) (blind_factor : ℤ) :
    KeyGenBroadcastMessage1 × KeyGenDecommitMessage1 :=
  ({ e := k.ek, com := hashCom (ser k.y_i) blind_factor, correct_key_proof := ckProve k.dk },
   { blind_factor := blind_factor, y_i := k.y_i })

/-- party_i.rs, lines 222-231: the test applied to one party's broadcast and decommitment -/
def phase1_test (bc : KeyGenBroadcastMessage1) (decom : KeyGenDecommitMessage1) :
    Option Bool :=
  andOpt (some (decide (hashCom (ser decom.y_i) decom.blind_factor = bc.com)))
    (ckVerify bc.correct_key_proof bc.e)

/-- party_i.rs, lines 211-240, `Keys::phase1_verify_com_phase3_verify_correct_key_phase2_distribute`;
`coefs` are the random coefficients drawn by `VerifiableSS::share`, which runs before the result of the
check is looked at. -/
def Keys.phase1_verify_distribute (k : Keys) (params : Parameters)
    (decom_vec : List KeyGenDecommitMessage1) (bc1_vec : List KeyGenBroadcastMessage1)
    (coefs : List Sc) : Res Error (Vss × List Sc × ℕ) := do
  Res.assert (decom_vec.length = params.share_count)
  Res.assert (bc1_vec.length = params.share_count)
  let correct ← allRes (fun i => do
    let bc ← Res.get bc1_vec i
    let decom ← Res.get decom_vec i
    Res.ofOption (phase1_test bc decom)) (List.range bc1_vec.length)
  let (vss_scheme, secret_shares) ← Vss.share params.threshold params.share_count k.u_i coefs
  if correct then .ok (vss_scheme, secret_shares, k.party_index) else .err .InvalidKey

/-- party_i.rs, lines 254-259: the test applied to one dealer -/
def phase2_test (y_vec : List Pt) (secret_shares_vec : List Sc) (vss_scheme_vec : List Vss)
    (index i : ℕ) : Res Error Bool := do
  let v ← Res.get vss_scheme_vec i
  let sh ← Res.get secret_shares_vec i
  if (← v.validateShare sh index) then
    let c0 ← Res.get v.commitments 0
    let yi ← Res.get y_vec i
    .ok (decide (c0 = yi))
  else .ok false

/-- party_i.rs, lines 242-269, `Keys::phase2_verify_vss_construct_keypair_phase3_pok_dlog`; `nonce` is the
coin of the proof. -/
def Keys.phase2_verify_vss (params : Parameters) (y_vec : List Pt) (secret_shares_vec : List Sc)
    (vss_scheme_vec : List Vss) (index : ℕ) (nonce : Sc) : Res Error (SharedKeys × DLogProof) := do
  Res.assert (y_vec.length = params.share_count)
  Res.assert (secret_shares_vec.length = params.share_count)
  Res.assert (vss_scheme_vec.length = params.share_count)
  let correct ← allRes (phase2_test y_vec secret_shares_vec vss_scheme_vec index)
    (List.range y_vec.length)
  if correct then
    let x_i := secret_shares_vec.sum
    .ok (⟨y_vec.sum, x_i⟩, DLogProof.prove x_i nonce)
  else .err .InvalidSS

/-- party_i.rs, lines 295-311, `Keys::verify_dlog_proofs` -/
def verify_dlog_proofs (params : Parameters) (dlog_proofs_vec : List DLogProof) (y_vec : List Pt) :
    Res Error Unit := do
  Res.assert (y_vec.length = params.share_count)
  Res.assert (dlog_proofs_vec.length = params.share_count)
  let ok ← allRes (fun i => do
    let pf ← Res.get dlog_proofs_vec i
    .ok pf.verify) (List.range y_vec.length)
  if ok then .ok () else .err .InvalidKey

/-- party_i.rs, lines 59-64, `PartyPrivate` -/
structure PartyPrivate where
  u_i : Sc
  x_i : Sc
  dk : DecKey

/-- party_i.rs, lines 315-321, `PartyPrivate::set_private` -/
def PartyPrivate.set_private (k : Keys) (sk : SharedKeys) : PartyPrivate :=
  { u_i := k.u_i, x_i := sk.x_i, dk := k.dk }

/-- party_i.rs, lines 323-325, `PartyPrivate::y_i` -/
def PartyPrivate.public_y_i (pp : PartyPrivate) : Pt := pp.u_i • G

/-- party_i.rs, lines 331-358, `PartyPrivate::refresh_private_key` and `refresh_private_key_safe_prime`:
a new `Keys` whose secret is `u_i + factor` (fresh Paillier key). -/
def PartyPrivate.refresh_private_key (pp : PartyPrivate) (factor : Sc) (index : ℕ) (dk : DecKey) : Keys :=
  Keys.create index (pp.u_i + factor) dk

/-- party_i.rs, lines 371-381, `PartyPrivate::update_private_key` -/
def PartyPrivate.update_private_key (pp : PartyPrivate) (factor_u_i factor_x_i : Sc) : PartyPrivate :=
  { u_i := pp.u_i + factor_u_i, x_i := pp.x_i + factor_x_i, dk := pp.dk }

end Verif.GG18
