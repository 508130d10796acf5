import Verif.Ext.Vss
import Verif.Ext.Sigma
import Verif.Ext.Num
import Verif.Base.Check
import Verif.Model.Error

/-!
# GG20 key generation: party-local functions

Models `src/protocols/multi_party_ecdsa/gg_2020/party_i.rs`, lines 37-524 (key generation part).
Random values are explicit arguments.
-/

namespace Verif.GG20

open EC Crypto

/-- party_i.rs, lines 137-156, `generate_h1_h2_N_tilde`.  The primes of the auxiliary modulus, the
sample `h1` and the candidate `xhi` are arguments; `none` is a candidate rejected by the sampling
loop.  Returns `(N_tilde, h1, h2, phi - xhi, phi - xhi_inv)`. -/
def generate_h1_h2_N_tilde (p q : ℕ) (h1 xhi : ℤ) : Option (ℤ × ℤ × ℤ × ℤ × ℤ) := do
  let n : ℤ := p * q
  let phi : ℤ := ((p : ℤ) - 1) * ((q : ℤ) - 1)
  let xhi_inv ← modInv xhi phi
  let h2 ← modPow h1 xhi n
  some (n, h1, h2, phi - xhi, phi - xhi_inv)

section
variable [EC]

/-- party_i.rs, lines 375-379: `global_coefficients[i] += c` for every `(i, c)`; panics when the
right-hand vector is longer. -/
def addCommitments : List Pt → List Pt → Option (List Pt)
  | g, [] => some g
  | [], _ :: _ => none
  | a :: g, c :: cs => (addCommitments g cs).map (fun r => (a + c) :: r)

/-- party_i.rs, lines 369-388, `Keys::get_commitments_to_xi`. -/
def get_commitments_to_xi (vss_scheme_vec : List Vss) : Option (List Pt) :=
  match vss_scheme_vec with
  | [] => none
  | head :: tail => do
    let global ← tail.foldlM (fun g v => addCommitments g v.commitments) head.commitments
    (List.range vss_scheme_vec.length).mapM (fun i => pointCommitment global (i + 1))

end

variable [Crypto]

/-- party_i.rs, line 49, `PAILLIER_MIN_BIT_LENGTH` -/
def PAILLIER_MIN_BIT_LENGTH : ℕ := 2047
/-- party_i.rs, line 50, `PAILLIER_MAX_BIT_LENGTH` -/
def PAILLIER_MAX_BIT_LENGTH : ℕ := 2048

/-- party_i.rs, lines 52-56, `Parameters` (`u16` fields as naturals) -/
structure Parameters where
  threshold : ℕ
  share_count : ℕ

/-- party_i.rs, lines 58-70, `Keys`; `ek` is the Paillier modulus -/
structure Keys where
  u_i : Sc
  y_i : Pt
  dk : DecKey
  ek : ℕ
  party_index : ℕ
  N_tilde : ℤ
  h1 : ℤ
  h2 : ℤ
  xhi : ℤ
  xhi_inv : ℤ

/-- party_i.rs, lines 79-87, `KeyGenBroadcastMessage1` -/
structure KeyGenBroadcastMessage1 where
  e : ℕ
  dlog_statement : DLogStatement
  com : ℤ
  correct_key_proof : CKProof
  composite_dlog_proof_base_h1 : CDProof
  composite_dlog_proof_base_h2 : CDProof

/-- party_i.rs, lines 89-93, `KeyGenDecommitMessage1` -/
structure KeyGenDecommitMessage1 where
  blind_factor : ℤ
  y_i : Pt

/-- party_i.rs, lines 95-99, `SharedKeys` -/
structure SharedKeys where
  y : Pt
  x_i : Sc

/-- party_i.rs, lines 158-217, `Keys::create`, `create_safe_prime`, `create_from`: the three differ
only in how `u` and the Paillier primes are sampled. -/
def Keys.create (index : ℕ) (u : Sc) (dk : DecKey) (aux : ℤ × ℤ × ℤ × ℤ × ℤ) : Keys :=
  { u_i := u, y_i := u • G, dk := dk, ek := dk.n, party_index := index,
    N_tilde := aux.1, h1 := aux.2.1, h2 := aux.2.2.1, xhi := aux.2.2.2.1, xhi_inv := aux.2.2.2.2 }

/-- party_i.rs, lines 219-258,
`Keys::phase1_broadcast_phase3_proof_of_correct_key_proof_of_correct_h1h2`; `r1`, `r2` are the coins
of the two composite-dlog proofs. -/
def Keys.phase1_broadcast (k : Keys) (blind_factor : ℤ) (r1 r2 : ℕ) :
    KeyGenBroadcastMessage1 × KeyGenDecommitMessage1 :=
  let st1 : DLogStatement := ⟨k.N_tilde, k.h1, k.h2⟩
  let st2 : DLogStatement := ⟨k.N_tilde, k.h2, k.h1⟩
  ({ e := k.ek, dlog_statement := st1, com := hashCom (ser k.y_i) blind_factor,
     correct_key_proof := ckProve k.dk,
     composite_dlog_proof_base_h1 := cdProve st1 k.xhi r1,
     composite_dlog_proof_base_h2 := cdProve st2 k.xhi_inv r2 },
   { blind_factor := blind_factor, y_i := k.y_i })

/-- party_i.rs, lines 274-301: the test applied to one party's broadcast and decommitment. -/
def phase1_test (bc : KeyGenBroadcastMessage1) (decom : KeyGenDecommitMessage1) : Option Bool :=
  let st2 : DLogStatement := ⟨bc.dlog_statement.N, bc.dlog_statement.ni, bc.dlog_statement.g⟩
  andOpt (some (decide (hashCom (ser decom.y_i) decom.blind_factor = bc.com))) <|
  andOpt (ckVerify bc.correct_key_proof bc.e) <|
  andOpt (some (decide (PAILLIER_MIN_BIT_LENGTH ≤ bitLength bc.e) &&
    decide (bitLength bc.e ≤ PAILLIER_MAX_BIT_LENGTH) &&
    decide (PAILLIER_MIN_BIT_LENGTH ≤ bitLength bc.dlog_statement.N) &&
    decide (bitLength bc.dlog_statement.N ≤ PAILLIER_MAX_BIT_LENGTH))) <|
  andOpt (cdVerify bc.composite_dlog_proof_base_h1 bc.dlog_statement)
    (cdVerify bc.composite_dlog_proof_base_h2 st2)

/-- party_i.rs, lines 260-320,
`Keys::phase1_verify_com_phase3_verify_correct_key_verify_dlog_phase2_distribute`; `coefs` are the
random coefficients drawn by `VerifiableSS::share`, which runs before the result of the check is
looked at. -/
def Keys.phase1_verify_distribute (k : Keys) (params : Parameters)
    (decom_vec : List KeyGenDecommitMessage1) (bc1_vec : List KeyGenBroadcastMessage1)
    (coefs : List Sc) : Res ErrorType (Vss × List Sc × ℕ) := do
  Res.assert (decom_vec.length = params.share_count)
  Res.assert (bc1_vec.length = params.share_count)
  let (correct, bad) ← allPush (fun i => do
    let bc ← Res.get bc1_vec i
    let decom ← Res.get decom_vec i
    Res.ofOption (phase1_test bc decom)) (List.range bc1_vec.length)
  let (vss_scheme, secret_shares) ← Vss.share params.threshold params.share_count k.u_i coefs
  if correct then .ok (vss_scheme, secret_shares, k.party_index)
  else .err ⟨"invalid key", bad⟩

/-- party_i.rs, lines 322-367, `Keys::phase2_verify_vss_construct_keypair_phase3_pok_dlog`; `nonce` is
the coin of the proof. `head[0]` panics on an empty vector. -/
def Keys.phase2_verify_vss (params : Parameters) (y_vec : List Pt) (secret_shares_vec : List Sc)
    (vss_scheme_vec : List Vss) (index : ℕ) (nonce : Sc) :
    Res ErrorType (SharedKeys × DLogProof) := do
  Res.assert (y_vec.length = params.share_count)
  Res.assert (secret_shares_vec.length = params.share_count)
  Res.assert (vss_scheme_vec.length = params.share_count)
  let (correct, bad) ← allPush (fun i => do
    let v ← Res.get vss_scheme_vec i
    let sh ← Res.get secret_shares_vec i
    if (← v.validateShare sh index) then
      let c0 ← Res.get v.commitments 0
      let yi ← Res.get y_vec i
      .ok (decide (c0 = yi))
    else .ok false) (List.range y_vec.length)
  if correct then
    match y_vec with
    | [] => .panic
    | head :: tail =>
      let y := tail.foldl (· + ·) head
      let x_i := secret_shares_vec.foldl (· + ·) 0
      .ok (⟨y, x_i⟩, DLogProof.prove x_i nonce)
  else .err ⟨"invalid vss", bad⟩

/-- party_i.rs, lines 405-438, `Keys::verify_dlog_proofs_check_against_vss`. -/
def verify_dlog_proofs_check_against_vss (params : Parameters) (dlog_proofs_vec : List DLogProof)
    (y_vec : List Pt) (vss_vec : List Vss) : Res ErrorType Unit := do
  Res.assert (y_vec.length = params.share_count)
  Res.assert (dlog_proofs_vec.length = params.share_count)
  let xi_commitments ← Res.ofOption (get_commitments_to_xi vss_vec)
  let (ok, bad) ← allPush (fun i => do
    let pf ← Res.get dlog_proofs_vec i
    let c ← Res.get xi_commitments i
    .ok (pf.verify && decide (c = pf.pk))) (List.range y_vec.length)
  if ok then .ok () else .err ⟨"bad dlog proof", bad⟩

/-- party_i.rs, lines 72-77, `PartyPrivate` -/
structure PartyPrivate where
  u_i : Sc
  x_i : Sc
  dk : DecKey

/-- party_i.rs, lines 442-448, `PartyPrivate::set_private` -/
def PartyPrivate.set_private (k : Keys) (sk : SharedKeys) : PartyPrivate :=
  { u_i := k.u_i, x_i := sk.x_i, dk := k.dk }

/-- party_i.rs, lines 450-453, `PartyPrivate::y_i` -/
def PartyPrivate.public_y_i (pp : PartyPrivate) : Pt := pp.u_i • G

/-- party_i.rs, lines 459-501, `PartyPrivate::refresh_private_key` and `refresh_private_key_safe_prime`: a new `Keys` whose secret is
`u_i + factor` (fresh Paillier and auxiliary moduli). -/
def PartyPrivate.refresh_private_key (pp : PartyPrivate) (factor : Sc) (index : ℕ) (dk : DecKey)
    (aux : ℤ × ℤ × ℤ × ℤ × ℤ) : Keys := Keys.create index (pp.u_i + factor) dk aux

/-- party_i.rs, lines 513-523, `PartyPrivate::update_private_key`: adds to both secrets. -/
def PartyPrivate.update_private_key (pp : PartyPrivate) (factor_u_i factor_x_i : Sc) :
    PartyPrivate :=
  { u_i := pp.u_i + factor_u_i, x_i := pp.x_i + factor_x_i, dk := pp.dk }

end Verif.GG20
