import Verif.Model.Lindell17.Keygen

/-!
# Lindell17: signing

Models `two_party_ecdsa/lindell_2017/party_one.rs` 403-564 and `party_two.rs` 314-423.
-/

namespace Verif.Lindell17

open EC Crypto

variable [Crypto]

/-- party_two.rs 118-125, `EphCommWitness` -/
structure EphCommWitness where
  pk_commitment_blind_factor : ℤ
  zk_pok_blind_factor : ℤ
  public_share : Pt
  d_log_proof : ECDDHProof
  c : Pt
  deriving DecidableEq

/-- party_two.rs 133-136, `EphKeyGenSecondMsg` -/
structure EphKeyGenSecondMsg where
  comm_witness : EphCommWitness

/-- party_one.rs 125-130, `EphKeyGenFirstMsg` -/
structure Party1EphKeyGenFirstMsg where
  d_log_proof : ECDDHProof
  public_share : Pt
  c : Pt

/-- party_one.rs 404-433, `EphKeyGenFirstMsg::create`; `k` is the sampled nonce share and `s` the nonce
of the proof. -/
def eph_create (k s : Sc) : Party1EphKeyGenFirstMsg × EcKeyPair :=
  let public_share := k • G
  let c := k • H
  let delta : ECDDHStatement := ⟨G, public_share, H, c⟩
  (⟨ECDDHProof.prove k delta s, public_share, c⟩, ⟨public_share, k⟩)

/-- party_two.rs 315-371, `EphKeyGenFirstMsg::create_commitments` -/
def eph_create_commitments (k s : Sc) (b1 b2 : ℤ) : KeyGenFirstMsg × EphCommWitness × EcKeyPair :=
  let public_share := k • G
  let c := k • H
  let delta : ECDDHStatement := ⟨G, public_share, H, c⟩
  let d_log_proof := ECDDHProof.prove k delta s
  let pk_commitment := hashCom (ser public_share) b1
  let zk_pok_commitment := hashCom (hashPtsInt [d_log_proof.a1, d_log_proof.a2]) b2
  (⟨pk_commitment, zk_pok_commitment⟩, ⟨b1, b2, public_share, d_log_proof, c⟩, ⟨public_share, k⟩)

/-- party_two.rs 375-387, `EphKeyGenSecondMsg::verify_and_decommit` -/
def eph_verify_and_decommit (comm_witness : EphCommWitness) (m : Party1EphKeyGenFirstMsg) :
    Res ProofError EphKeyGenSecondMsg :=
  let delta : ECDDHStatement := ⟨G, m.public_share, H, m.c⟩
  if m.d_log_proof.verify delta then .ok ⟨comm_witness⟩ else .err .proofError

/-- party_one.rs 437-482, `EphKeyGenSecondMsg::verify_commitments_and_dlog_proof` -/
def eph_verify_commitments_and_dlog_proof (m1 : KeyGenFirstMsg) (m2 : EphKeyGenSecondMsg) :
    Res ProofError Unit :=
  let w := m2.comm_witness
  let flag := true
  let flag := if m1.pk_commitment ≠ hashCom (ser w.public_share) w.pk_commitment_blind_factor
    then false else flag
  let flag := if m1.zk_pok_commitment ≠
      hashCom (hashPtsInt [w.d_log_proof.a1, w.d_log_proof.a2]) w.zk_pok_blind_factor
    then false else flag
  if !flag then .err .proofError
  else
    let delta : ECDDHStatement := ⟨G, w.public_share, H, w.c⟩
    if w.d_log_proof.verify delta then .ok () else .err .proofError

/-- party_two.rs 391-423, `PartialSig::compute`: returns `c3`.  `rho` is the sample below `q²`, `r` the
randomness of the encryption. -/
def PartialSig.compute (ek : ℕ) (encrypted_secret_share : ℤ) (local_share : Party2Private)
    (ephemeral_local_share : EcKeyPair) (ephemeral_other_public_share : Pt) (message : ℤ)
    (rho r : ℤ) : Res Error ℤ := do
  let R := ephemeral_local_share.secret_share • ephemeral_other_public_share
  let x ← Res.ofOption (xc R)
  let rx : ℤ := (x : ℤ) % q
  let k2_inv ← Res.ofOption (modInv ephemeral_local_share.secret_share.val q)
  let partial_sig := rho * q + k2_inv * message % q
  let c1 := Paillier.encrypt ek partial_sig r
  let v := k2_inv * (rx * local_share.x2.val % q) % q
  let c2 := Paillier.mul ek encrypted_secret_share v.toNat
  .ok (Paillier.add ek c2 c1)

/-- party_one.rs 486-517, `Signature::compute` -/
def Signature.compute (party_one_private : Party1Private) (partial_sig_c3 : ℤ)
    (ephemeral_local_share : EcKeyPair) (ephemeral_other_public_share : Pt) :
    Res Error Signature := do
  let R := ephemeral_local_share.secret_share • ephemeral_other_public_share
  let x ← Res.ofOption (xc R)
  let rx : ℤ := (x : ℤ) % q
  let k1_inv ← Res.ofOption (scInvert ephemeral_local_share.secret_share)
  let s_tag ← Res.ofOption (Paillier.decrypt party_one_private.paillier_priv partial_sig_c3)
  let s_tag_fe : Sc := (s_tag : Sc)
  let s_tag_tag := s_tag_fe * k1_inv
  let s_tag_tag_bn : ℤ := s_tag_tag.val
  let s := min s_tag_tag_bn (q - s_tag_tag_bn)
  .ok ⟨s, rx⟩

omit [Crypto] in
/-- party_one.rs 83-88, `SignatureRecid` -/
structure SignatureRecid where
  s : ℤ
  r : ℤ
  recid : ℕ
  deriving DecidableEq

/-- party_one.rs 519-564, `Signature::compute_with_recid` -/
def Signature.compute_with_recid (party_one_private : Party1Private) (partial_sig_c3 : ℤ)
    (ephemeral_local_share : EcKeyPair) (ephemeral_other_public_share : Pt) :
    Res Error SignatureRecid := do
  let R := ephemeral_local_share.secret_share • ephemeral_other_public_share
  let x ← Res.ofOption (xc R)
  let rx : ℤ := (x : ℤ) % q
  let y ← Res.ofOption (yc R)
  let ry : ℤ := (y : ℤ) % q
  let k1_inv ← Res.ofOption (scInvert ephemeral_local_share.secret_share)
  let s_tag ← Res.ofOption (Paillier.decrypt party_one_private.paillier_priv partial_sig_c3)
  let s_tag_fe : Sc := (s_tag : Sc)
  let s_tag_tag := s_tag_fe * k1_inv
  let s_tag_tag_bn : ℤ := s_tag_tag.val
  let s := min s_tag_tag_bn (q - s_tag_tag_bn)
  let is_ry_odd : Bool := ry % 2 = 1
  let recid := if is_ry_odd then 1 else 0
  let recid := if s_tag_tag_bn > q - s_tag_tag_bn then recid ^^^ 1 else recid
  .ok ⟨s, rx, recid⟩

end Verif.Lindell17
