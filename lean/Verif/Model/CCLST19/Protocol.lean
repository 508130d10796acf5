import Verif.Ext.CL
import Verif.Model.Lindell17.Sign

/-!
# CCLST19: key generation and signing

Models `two_party_ecdsa/cclst_2019/party_one.rs` and `party_two.rs`.  The messages, commitments and
checks of key generation and of the nonce exchange are the same code as in Lindell17; they are
restated here as abbreviations with their own line references.
-/

namespace Verif.CCLST19

open EC Crypto

variable [Crypto]

/-- cclst_2019/party_one.rs 137-179, `KeyGenFirstMsg::create_commitments`: `secret` is the sampled
scalar; the share is a third of it, rounded down. -/
def create_commitments (secret t : Sc) (b1 b2 : ℤ) :
    Lindell17.KeyGenFirstMsg × Lindell17.CommWitness × Lindell17.EcKeyPair :=
  let secret_share : Sc := (((secret.val : ℤ) / 3 : ℤ) : Sc)
  let public_share := secret_share • G
  let d_log_proof := DLogProof.prove secret_share t
  let pk_commitment := hashCom (ser public_share) b1
  let zk_pok_commitment := hashCom (ser d_log_proof.pk_t_rand_commitment) b2
  (⟨pk_commitment, zk_pok_commitment⟩, ⟨b1, b2, public_share, d_log_proof⟩,
    ⟨public_share, secret_share⟩)

/-- cclst_2019/party_one.rs 181-220, `create_commitments_with_fixed_secret_share` -/
abbrev create_commitments_with_fixed_secret_share := @Lindell17.create_commitments

/-- cclst_2019/party_two.rs 127-163, `KeyGenFirstMsg::create`, `create_with_fixed_secret_share` -/
abbrev party2_create := @Lindell17.party2_create

/-- cclst_2019/party_one.rs 224-230, `KeyGenSecondMsg::verify_and_decommit` -/
abbrev verify_and_decommit := @Lindell17.verify_and_decommit

/-- cclst_2019/party_two.rs 166-209, `KeyGenSecondMsg::verify_commitments_and_dlog_proof` -/
abbrev verify_commitments_and_dlog_proof := @Lindell17.verify_commitments_and_dlog_proof

/-- cclst_2019/party_one.rs 281-309, `EphKeyGenFirstMsg::create` -/
abbrev eph_create := @Lindell17.eph_create

/-- cclst_2019/party_two.rs 254-309, `EphKeyGenFirstMsg::create_commitments` -/
abbrev eph_create_commitments := @Lindell17.eph_create_commitments

/-- cclst_2019/party_two.rs 313-325, `EphKeyGenSecondMsg::verify_and_decommit` -/
abbrev eph_verify_and_decommit := @Lindell17.eph_verify_and_decommit

/-- cclst_2019/party_one.rs 313-356, `EphKeyGenSecondMsg::verify_commitments_and_dlog_proof` -/
abbrev eph_verify_commitments_and_dlog_proof := @Lindell17.eph_verify_commitments_and_dlog_proof

variable [CL]

/-- cclst_2019/party_one.rs 66-72, `HSMCL` -/
structure HSMCL where
  public_ : CL.PK
  secret : CL.SK
  encrypted_share : CL.Ct
  cl_group : CL.Grp

/-- cclst_2019/party_one.rs 74-80, `HSMCLPublic` -/
structure HSMCLPublic where
  cl_pub_key : CL.PK
  proof : CL.Proof
  encrypted_share : CL.Ct
  cl_group : CL.Grp

/-- cclst_2019/party_one.rs 95-100, `Party1Private` -/
structure Party1Private where
  x1 : Sc
  hsmcl_pub : CL.PK
  hsmcl_priv : CL.SK

/-- cclst_2019/party_two.rs 55-60, `Party2Public` -/
structure Party2Public where
  group : CL.Grp
  ek : CL.PK
  encrypted_secret_share : CL.Ct

/-- cclst_2019/party_one.rs 233-238, `compute_pubkey` -/
def compute_pubkey (party_one_private : Party1Private) (other_share_public_share : Pt) : Pt :=
  party_one_private.x1 • other_share_public_share

omit [CL] in
/-- cclst_2019/party_two.rs 212-217, `compute_pubkey` -/
def party2_compute_pubkey (local_share : Lindell17.EcKeyPair) (other_share_public_share : Pt) : Pt :=
  local_share.secret_share • other_share_public_share

/-- cclst_2019/party_one.rs 241-247, `Party1Private::set_private_key` -/
def Party1Private.set_private_key (ec_key : Lindell17.EcKeyPair) (hsmcl : HSMCL) : Party1Private :=
  ⟨ec_key.secret_share, hsmcl.public_, hsmcl.secret⟩

/-- cclst_2019/party_one.rs 251-277, `HSMCL::generate_keypair_and_encrypted_share_and_proof`; `rk`, `re`
are the randomness of the key and of the encryption. -/
def HSMCL.generate (keygen : Lindell17.EcKeyPair) (seed : ℤ) (rk re : ℕ) : HSMCL × HSMCLPublic :=
  let cl_group : CL.Grp := CL.new_from_setup seed
  let k := CL.keygen cl_group rk
  let e := CL.verifiably_encrypt cl_group k.2 keygen.secret_share keygen.public_share re
  (⟨k.2, k.1, e.1, cl_group⟩, ⟨k.2, e.2, e.1, cl_group⟩)

/-- cclst_2019/party_two.rs 228-250, `Party2Public::verify_setup_and_zkcldl_proof` -/
def Party2Public.verify_setup_and_zkcldl_proof (pub : HSMCLPublic) (seed : ℤ)
    (party1_ec_pubkey : Pt) : Res Lindell17.ProofError Party2Public :=
  let setup_verify := CL.setup_verify pub.cl_group seed
  let proof_verify := CL.verify pub.proof pub.cl_group pub.cl_pub_key pub.encrypted_share
    party1_ec_pubkey
  if proof_verify && setup_verify then .ok ⟨pub.cl_group, pub.cl_pub_key, pub.encrypted_share⟩
  else .err .proofError

/-- cclst_2019/party_two.rs 329-355, `PartialSig::compute`: returns `c3`; `r` is the randomness of the
encryption. -/
def PartialSig.compute (pub : Party2Public) (local_share : Lindell17.Party2Private)
    (ephemeral_local_share : Lindell17.EcKeyPair) (ephemeral_other_public_share : Pt) (message : ℤ)
    (r : ℕ) : Res Error CL.Ct := do
  let R := ephemeral_local_share.secret_share • ephemeral_other_public_share
  let x ← Res.ofOption (xc R)
  let rx : ℤ := (x : ℤ) % q
  let k2 : ℤ := ephemeral_local_share.secret_share.val
  let k2_inv ← Res.ofOption (modInv k2 q)
  let k2_inv_m := k2_inv * message % q
  let k2_inv_m_fe : Sc := (k2_inv_m : Sc)
  let c1 := CL.encrypt pub.group pub.ek k2_inv_m_fe r
  let v := k2_inv * local_share.x2.val % q
  let v := v * rx % q
  let c2 := CL.eval_scal pub.encrypted_secret_share v
  .ok (CL.eval_sum c1 c2)

/-- cclst_2019/party_one.rs 360-391, `Signature::compute` -/
def Signature.compute (hsmcl : HSMCL) (party_one_private : Party1Private) (partial_sig_c3 : CL.Ct)
    (ephemeral_local_share : Lindell17.EcKeyPair) (ephemeral_other_public_share : Pt) :
    Res Error Lindell17.Signature := do
  let R := ephemeral_local_share.secret_share • ephemeral_other_public_share
  let x ← Res.ofOption (xc R)
  let rx : ℤ := (x : ℤ) % q
  let k1 : ℤ := ephemeral_local_share.secret_share.val
  let k1_inv ← Res.ofOption (modInv k1 q)
  let s_tag := CL.decrypt hsmcl.cl_group party_one_private.hsmcl_priv partial_sig_c3
  let s_tag_tag := k1_inv * (s_tag.val : ℤ) % q
  let s := min s_tag_tag (q - s_tag_tag)
  .ok ⟨s, rx⟩

end Verif.CCLST19
