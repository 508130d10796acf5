import Verif.Model.GG18.Sign
import Verif.Spec.Keygen

/-!
# Specification of the GG18 checks
-/

namespace Verif.Spec.GG18

open EC Crypto

variable [Crypto]

/-- Entry `i` of both vectors is a commitment with a valid opening, and the proof that the Paillier
key is well-formed verifies. -/
def ValidBroadcastAt (bcs : List GG18.KeyGenBroadcastMessage1)
    (decoms : List GG18.KeyGenDecommitMessage1) (i : ℕ) : Prop :=
  ∃ bc decom, bcs[i]? = some bc ∧ decoms[i]? = some decom ∧
    hashCom (ser decom.y_i) decom.blind_factor = bc.com ∧ ckVerify bc.correct_key_proof bc.e = some true

/-- Entry `i` of both vectors is a commitment with a valid opening, and the verification of the proof panics. -/
def PanickingBroadcastAt (bcs : List GG18.KeyGenBroadcastMessage1)
    (decoms : List GG18.KeyGenDecommitMessage1) (i : ℕ) : Prop :=
  ∃ bc decom, bcs[i]? = some bc ∧ decoms[i]? = some decom ∧
    hashCom (ser decom.y_i) decom.blind_factor = bc.com ∧ ckVerify bc.correct_key_proof bc.e = none

/-- Entry `i` of the proofs is a verifying proof of knowledge of a discrete logarithm. -/
def ValidProofAt (proofs : List DLogProof) (i : ℕ) : Prop :=
  ∃ pf, proofs[i]? = some pf ∧ pf.verify = true

/-- Peer `i` opened its commitment, to the point its MtA proof was about. -/
def OpensGamma (b_proofs : List DLogProof) (decoms : List GG18.SignDecommitPhase1)
    (bcs : List GG18.SignBroadcastPhase1) (i : ℕ) : Prop :=
  ∃ pf d bc, b_proofs[i]? = some pf ∧ decoms[i]? = some d ∧ bcs[i]? = some bc ∧
    pf.pk = d.g_gamma_i ∧ hashCom (ser d.g_gamma_i) d.blind_factor = bc.com

/-- Peer `i`'s phase-5a opening matches its commitment and both its proofs verify. -/
def Opens5a (R : Pt) (decoms : List GG18.Phase5ADecom1) (coms : List GG18.Phase5Com1)
    (hegs : List HomoElGamalProof) (dlogs : List DLogProof) (i : ℕ) : Prop :=
  ∃ d c h p, decoms[i]? = some d ∧ coms[i]? = some c ∧ hegs[i]? = some h ∧ dlogs[i]? = some p ∧
    hashCom (hashPtsInt [d.V_i, d.A_i, d.B_i]) d.blind_factor = c.com ∧
    h.verify ⟨d.A_i, R, G, d.V_i, d.B_i⟩ = true ∧ p.verify = true

/-- Signer `i`'s phase-5c opening matches its commitment. -/
def Opens5c (decoms : List GG18.Phase5DDecom2) (coms : List GG18.Phase5Com2) (i : ℕ) : Prop :=
  ∃ d c, decoms[i]? = some d ∧ coms[i]? = some c ∧
    hashCom (hashPtsInt [d.u_i, d.t_i]) d.blind_factor = c.com

end Verif.Spec.GG18
