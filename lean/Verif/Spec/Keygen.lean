import Verif.Model.GG20.Keygen
import Verif.Spec.Shamir

/-!
# Specification of the key generation checks
-/

namespace Verif.Spec

open EC Crypto GG20

variable [Crypto]

/-- What round 1 of key generation requires of one party. -/
structure ValidBroadcast (bc : KeyGenBroadcastMessage1) (decom : KeyGenDecommitMessage1) :
    Prop where
  opens : hashCom (ser decom.y_i) decom.blind_factor = bc.com
  correct_key : ckVerify bc.correct_key_proof bc.e = some true
  paillier_size : bitLength bc.e = 2047 ∨ bitLength bc.e = 2048
  aux_size : bitLength bc.dlog_statement.N = 2047 ∨ bitLength bc.dlog_statement.N = 2048
  dlog_h1 : cdVerify bc.composite_dlog_proof_base_h1 bc.dlog_statement = some true
  dlog_h2 : cdVerify bc.composite_dlog_proof_base_h2
    ⟨bc.dlog_statement.N, bc.dlog_statement.ni, bc.dlog_statement.g⟩ = some true

/-- One of the proofs makes its verification panic: all that is checked before it is in order. -/
def PanickingBroadcast (bc : KeyGenBroadcastMessage1) (decom : KeyGenDecommitMessage1) : Prop :=
  hashCom (ser decom.y_i) decom.blind_factor = bc.com ∧
  (ckVerify bc.correct_key_proof bc.e = none ∨
    ckVerify bc.correct_key_proof bc.e = some true ∧
    (bitLength bc.e = 2047 ∨ bitLength bc.e = 2048) ∧
    (bitLength bc.dlog_statement.N = 2047 ∨ bitLength bc.dlog_statement.N = 2048) ∧
    (cdVerify bc.composite_dlog_proof_base_h1 bc.dlog_statement = none ∨
      cdVerify bc.composite_dlog_proof_base_h1 bc.dlog_statement = some true ∧
      cdVerify bc.composite_dlog_proof_base_h2
        ⟨bc.dlog_statement.N, bc.dlog_statement.ni, bc.dlog_statement.g⟩ = none))

/-- Entry `i` of both vectors is a valid broadcast with a valid opening. -/
def ValidBroadcastAt (bcs : List KeyGenBroadcastMessage1) (decoms : List KeyGenDecommitMessage1)
    (i : ℕ) : Prop :=
  ∃ bc decom, bcs[i]? = some bc ∧ decoms[i]? = some decom ∧ ValidBroadcast bc decom

/-- Entry `i` of both vectors makes a verification panic. -/
def PanickingBroadcastAt (bcs : List KeyGenBroadcastMessage1) (decoms : List KeyGenDecommitMessage1)
    (i : ℕ) : Prop :=
  ∃ bc decom, bcs[i]? = some bc ∧ decoms[i]? = some decom ∧ PanickingBroadcast bc decom

/-- Sender `i`'s share for party `index` matches its polynomial commitment, and the commitment
starts with the sender's announced public share. -/
def ValidShareAt (ys : List Pt) (shares : List Sc) (vss : List Vss) (index i : ℕ) : Prop :=
  ∃ y s v, ys[i]? = some y ∧ shares[i]? = some s ∧ vss[i]? = some v ∧
    feldmanEval v.commitments (index : Sc) = s • G ∧ v.commitments.head? = some y

/-- Party `i`'s discrete-log proof verifies and is about the share that all the polynomial
commitments together assign to party `i + 1`. -/
def ValidKeyProofAt (proofs : List DLogProof) (vss : List Vss) (i : ℕ) : Prop :=
  ∃ pf, proofs[i]? = some pf ∧ pf.verify = true ∧
    pf.pk = (vss.map (fun v => feldmanEval v.commitments ((i + 1 : ℕ) : Sc))).sum

end Verif.Spec
