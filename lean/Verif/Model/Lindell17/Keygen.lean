import Verif.Base.Check
import Verif.Model.Mta
import Verif.Model.PdlSlack
import Verif.Model.Lindell17.AuxParams
import Verif.Model.Lindell17.Verify

/-!
# Lindell17: key generation, refresh, proofs about the encrypted share

Models `two_party_ecdsa/lindell_2017/party_one.rs` 49-400 and `party_two.rs` 52-312.  Random samples
are arguments.  `to_encrypted_segment` (crate `centipede`) is not modelled.
-/

namespace Verif.Lindell17

open EC Crypto

variable [Crypto]

/-- `curv::cryptographic_primitives::proofs::ProofError`
(dependency; used in party_one.rs, lines 225, 440, 471; party_two.rs, lines 183, 218, 378) -/
inductive ProofError where
  | proofError
  deriving DecidableEq, Repr

/-- party_two.rs 46-50, `PartyTwoError` -/
inductive PartyTwoError where
  | PdlVerify
  deriving DecidableEq, Repr

/-- `zk_paillier::zkproofs::IncorrectProof` (dependency; used in party_two.rs, lines 305-308) -/
inductive IncorrectProof where
  | incorrectProof
  deriving DecidableEq, Repr

/-- party_one.rs 50-54, party_two.rs 55-59, `EcKeyPair`; `EphEcKeyPair` (party_one.rs 119-123,
party_two.rs 112-116) has the same fields. -/
structure EcKeyPair where
  public_share : Pt
  secret_share : Sc

/-- party_one.rs 56-62, `CommWitness` -/
structure CommWitness where
  pk_commitment_blind_factor : ℤ
  zk_pok_blind_factor : ℤ
  public_share : Pt
  d_log_proof : DLogProof
  deriving DecidableEq

omit [Crypto] in
/-- party_one.rs 64-68, `KeyGenFirstMsg`; party two's `EphKeyGenFirstMsg` (party_two.rs 127-131) has
the same fields. -/
structure KeyGenFirstMsg where
  pk_commitment : ℤ
  zk_pok_commitment : ℤ
  deriving DecidableEq

/-- party_one.rs 70-73, `KeyGenSecondMsg` -/
structure KeyGenSecondMsg where
  comm_witness : CommWitness

/-- party_two.rs 61-65, `KeyGenFirstMsg` -/
structure Party2KeyGenFirstMsg where
  d_log_proof : DLogProof
  public_share : Pt

omit [Crypto] in
/-- party_one.rs 75-81, `PaillierKeyPair` -/
structure PaillierKeyPair where
  ek : ℕ
  dk : DecKey
  encrypted_share : ℤ
  randomness : ℤ

/-- party_one.rs 96-101, `Party1Private` -/
structure Party1Private where
  x1 : Sc
  paillier_priv : DecKey
  c_key_randomness : ℤ

/-- party_two.rs 81-84, `Party2Private` -/
structure Party2Private where
  x2 : Sc

omit [Crypto] in
/-- party_two.rs 70-74, `PaillierPublic` -/
structure PaillierPublic where
  ek : ℕ
  encrypted_secret_share : ℤ

/-! ### Messages -/

/-- party_one.rs 179-218, `KeyGenFirstMsg::create_commitments_with_fixed_secret_share`;
`create_commitments` (lines 138-177) is the same with a sampled share.  `t` is the nonce of the
discrete-log proof, `b1`, `b2` the blinding factors. -/
def create_commitments (secret_share t : Sc) (b1 b2 : ℤ) :
    KeyGenFirstMsg × CommWitness × EcKeyPair :=
  let public_share := secret_share • G
  let d_log_proof := DLogProof.prove secret_share t
  let pk_commitment := hashCom (ser public_share) b1
  let zk_pok_commitment := hashCom (ser d_log_proof.pk_t_rand_commitment) b2
  (⟨pk_commitment, zk_pok_commitment⟩, ⟨b1, b2, public_share, d_log_proof⟩,
    ⟨public_share, secret_share⟩)

/-- party_two.rs 159-176, `KeyGenFirstMsg::create_with_fixed_secret_share`; `create` (lines 141-157)
is the same with a sampled share. -/
def party2_create (secret_share t : Sc) : Party2KeyGenFirstMsg × EcKeyPair :=
  let public_share := secret_share • G
  (⟨DLogProof.prove secret_share t, public_share⟩, ⟨public_share, secret_share⟩)

/-- party_one.rs 222-228, `KeyGenSecondMsg::verify_and_decommit` -/
def verify_and_decommit (comm_witness : CommWitness) (proof : DLogProof) :
    Res ProofError KeyGenSecondMsg :=
  if proof.verify then .ok ⟨comm_witness⟩ else .err .proofError

/-- party_two.rs 180-223, `KeyGenSecondMsg::verify_commitments_and_dlog_proof` -/
def verify_commitments_and_dlog_proof (m1 : KeyGenFirstMsg) (m2 : KeyGenSecondMsg) :
    Res ProofError Unit :=
  let w := m2.comm_witness
  let flag := true
  let flag := if m1.pk_commitment ≠ hashCom (ser w.public_share) w.pk_commitment_blind_factor
    then false else flag
  let flag := if m1.zk_pok_commitment ≠
      hashCom (ser w.d_log_proof.pk_t_rand_commitment) w.zk_pok_blind_factor then false else flag
  if !flag then .err .proofError
  else if w.d_log_proof.verify then .ok () else .err .proofError

/-! ### Keys -/

/-- party_one.rs 231-236, `compute_pubkey` -/
def compute_pubkey (party_one_private : Party1Private) (other_share_public_share : Pt) : Pt :=
  party_one_private.x1 • other_share_public_share

/-- party_two.rs 226-232, `compute_pubkey` -/
def party2_compute_pubkey (local_share : EcKeyPair) (other_share_public_share : Pt) : Pt :=
  local_share.secret_share • other_share_public_share

/-- party_one.rs 239-245, `Party1Private::set_private_key` -/
def Party1Private.set_private_key (ec_key : EcKeyPair) (paillier_key : PaillierKeyPair) :
    Party1Private :=
  ⟨ec_key.secret_share, paillier_key.dk, paillier_key.randomness⟩

/-- party_two.rs 235-239, `Party2Private::set_private_key` -/
def Party2Private.set_private_key (ec_key : EcKeyPair) : Party2Private := ⟨ec_key.secret_share⟩

/-- party_two.rs 241-246, `Party2Private::update_private_key` -/
def Party2Private.update_private_key (s : Party2Private) (factor : ℤ) : Party2Private :=
  ⟨s.x2 * (factor : Sc)⟩

/-- party_one.rs 339-360, `PaillierKeyPair::generate_encrypted_share_from_fixed_paillier_keypair`, for
the encryption key that belongs to `dk`; `generate_keypair_and_encrypted_share` (lines 319-337) is the
same with a sampled key.  `r` is the sampled randomness. -/
def PaillierKeyPair.generate (dk : DecKey) (keygen : EcKeyPair) (r : ℤ) : PaillierKeyPair :=
  ⟨dk.n, dk, Paillier.encrypt dk.n keygen.secret_share.val r, r⟩

/-- party_one.rs 362-364, `PaillierKeyPair::generate_ni_proof_correct_key` -/
def PaillierKeyPair.generate_ni_proof_correct_key (k : PaillierKeyPair) : CKProof := ckProve k.dk

/-- The samples of `pdl_proof`: primes of the auxiliary modulus, `h1`, `xhi`, the coins of the
composite discrete-log proof and those of the PDL proof. (party_one.rs, lines 366-402 and 594-607) -/
structure PdlSetup where
  p : ℕ
  q : ℕ
  h1 : ℤ
  xhi : ℤ
  coins : ℕ
  rnd : PdlRand

/-- party_one.rs 366-400, `PaillierKeyPair::pdl_proof`; `none` is a panic. -/
def PaillierKeyPair.pdl_proof (s : Party1Private) (k : PaillierKeyPair) (a : PdlSetup) :
    Option (PDLwSlackStatement × PDLwSlackProof × CDProof) := do
  let (n_tilde, h1, h2, xhi) ← generate_h1_h2_n_tilde a.p a.q a.h1 a.xhi
  let dlog_statement : DLogStatement := ⟨n_tilde, h1, h2⟩
  let composite_dlog_proof := cdProve dlog_statement xhi a.coins
  let statement : PDLwSlackStatement :=
    { ciphertext := k.encrypted_share
      ek := k.ek
      Q := s.x1 • G
      G := G
      h1 := dlog_statement.g
      h2 := dlog_statement.ni
      N_tilde := dlog_statement.N }
  let witness : PDLwSlackWitness := ⟨s.x1, s.c_key_randomness⟩
  let proof ← PDLwSlackProof.prove witness statement a.rnd
  some (statement, proof, composite_dlog_proof)

/-- What `refresh_private_key` returns. (party_one.rs, lines 246-297) -/
structure Refreshed where
  ek_new : ℕ
  c_key_new : ℤ
  party_one_private_new : Party1Private
  correct_key_proof_new : CKProof
  pdl_statement : PDLwSlackStatement
  pdl_proof : PDLwSlackProof
  composite_dlog_proof : CDProof

/-- party_one.rs 246-296, `Party1Private::refresh_private_key`; `dk_new`, `r` are the sampled Paillier
key and randomness. -/
def Party1Private.refresh_private_key (s : Party1Private) (factor : ℤ) (dk_new : DecKey) (r : ℤ)
    (a : PdlSetup) : Option Refreshed := do
  let factor_fe : Sc := (factor : Sc)
  let x1_new := s.x1 * factor_fe
  let c_key_new := Paillier.encrypt dk_new.n x1_new.val r
  let correct_key_proof_new := ckProve dk_new
  let paillier_key_pair : PaillierKeyPair := ⟨dk_new.n, dk_new, c_key_new, r⟩
  let party_one_private_new : Party1Private := ⟨x1_new, dk_new, r⟩
  let (pdl_statement, pdl_proof, composite_dlog_proof) ←
    PaillierKeyPair.pdl_proof party_one_private_new paillier_key_pair a
  some ⟨dk_new.n, c_key_new, party_one_private_new, correct_key_proof_new, pdl_statement, pdl_proof,
    composite_dlog_proof⟩

/-- party_two.rs 275-300, `PaillierPublic::pdl_verify` -/
def PaillierPublic.pdl_verify (composite_dlog_proof : CDProof) (st : PDLwSlackStatement)
    (pf : PDLwSlackProof) (paillier_public : PaillierPublic) (q1 : Pt) : Res PartyTwoError Unit :=
  if st.ek ≠ paillier_public.ek ∨ st.ciphertext ≠ paillier_public.encrypted_secret_share ∨ st.Q ≠ q1
  then .err .PdlVerify
  else
    let dlog_statement : DLogStatement := ⟨st.N_tilde, st.h1, st.h2⟩
    match andOpt (cdVerify composite_dlog_proof dlog_statement) (pf.verify st) with
    | none => .panic
    | some true => .ok ()
    | some false => .err .PdlVerify

omit [Crypto] in
/-- party_two.rs, line 52, `PAILLIER_KEY_SIZE` -/
def PAILLIER_KEY_SIZE : ℕ := 2048

/-- party_two.rs 302-311, `PaillierPublic::verify_ni_proof_correct_key` -/
def PaillierPublic.verify_ni_proof_correct_key (proof : CKProof) (ek : ℕ) :
    Res IncorrectProof Unit :=
  if bitLength ek < PAILLIER_KEY_SIZE - 1 then .err .incorrectProof
  else
    match ckVerify proof ek with
    | none => .panic
    | some true => .ok ()
    | some false => .err .incorrectProof

/-! ### Transformation to additive shares -/

/-- party_two.rs 260-271, `Party2Private::to_mta_message_b`: the answer to a message without range
proofs; an error is unwrapped. -/
def Party2Private.to_mta_message_b (s : Party2Private) (ek : ℕ) (ciphertext : ℤ) (r beta_tag : ℤ)
    (t_b t_beta : Sc) : Res Error (MessageB × Sc) :=
  match MessageB.b s.x2 ek ⟨ciphertext, []⟩ r beta_tag [] t_b t_beta with
  | .ok out => .ok out
  | _ => .panic

/-- party_one.rs 310-315, `Party1Private::to_mta_message_b` -/
def Party1Private.to_mta_message_b (s : Party1Private) (message_b : MessageB) : Res Error (Sc × ℤ) :=
  message_b.verify_proofs_get_alpha s.paillier_priv s.x1

end Verif.Lindell17
