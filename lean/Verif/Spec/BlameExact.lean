import Verif.Spec.Blame
import Verif.Model.GG20.SignRounds

/-! # Signers that cheat only in what they publish, and open what they really did -/

namespace Verif.Spec

open EC Crypto GG20

variable [Crypto]

/-- All signers followed the protocol up to the multiplications and open their true states `ls`; `right` are
the deltas that follow from what they did.  What they published as delta is a different matter. -/
structure TrueNonce (eks : List ℕ) (right : List Sc) (gGammas : List Pt) (mas : List MessageA)
    (mbs : List (List MessageB)) (ls : List LocalStatePhase5) : Prop where
  count : right.length = ls.length
  each : ∀ h L, ls[h]? = some L → ∃ dk, HonestNonce ls.length h eks right gGammas mas mbs dk L

/-- All signers followed the protocol up to the multiplications and open their true states `ls`, with the
exception of the last proof; `right` are the points `sigma_i R` that follow from what they did.  The answers
are ciphertexts in the usual form, as they are if masks are not negative and the randomness is invertible. -/
structure TrueKey (eks : List ℕ) (right gws : List Pt) (mas : List MessageA)
    (mbs : List (List MessageB)) (R : Pt) (ls : List LocalStatePhase6) : Prop where
  each : ∀ h L, ls[h]? = some L → ∃ dk w bts pf,
    HonestKey ls.length h eks right gws mas mbs R dk w bts { L with proof_of_eq_dlog := pf } ∧
    ∀ row, mbs[h]? = some row → ∀ mb ∈ row,
      0 ≤ mb.c ∧ mb.c < dk.n * dk.n ∧ Int.gcd mb.c dk.n = 1

/-- Signer `i` goes on with `sigma` instead of the right value: it publishes `sigma R` and proves it. -/
def UsesSigma (Ss : List Pt) (R : Pt) (ls : List LocalStatePhase6) (i : ℕ) (sigma nonce : Sc) : Prop :=
  Ss[i]? = some (sigma • R) ∧
    ∃ L, ls[i]? = some L ∧ L.proof_of_eq_dlog = ecddh_proof sigma R (sigma • R) nonce

/-- The hash value from which the verifier takes the challenge when it checks the proof of a signer that
used `sigma` against the point `P`. -/
def blameChallenge (P R : Pt) (sigma nonce : Sc) : Sc :=
  hashPts [G, P, R, sigma • R, nonce • G, nonce • R]

/-- The delta that signer `i` of `m` has to publish: its own product `k_i gamma_i`, and for every other
signer `j` its share of `k_i gamma_j` and its share of `k_j gamma_i`. -/
def rightDelta (m : ℕ) (rnd : ℕ → SignRandomness) (i : ℕ) : Sc :=
  (rnd i).k * (rnd i).gamma + (((List.range m).filter (· ≠ i)).map (fun j =>
    ((rnd i).k * (rnd j).gamma + ((rnd j).gammaBeta i : Sc)) - ((rnd i).gammaBeta j : Sc))).sum

/-- The `sigma` that signer `i` of `m` has to use, with key shares `w`. -/
def rightSigma (m : ℕ) (rnd : ℕ → SignRandomness) (w : ℕ → Sc) (i : ℕ) : Sc :=
  (rnd i).k * w i + (((List.range m).filter (· ≠ i)).map (fun j =>
    ((rnd i).k * w j + ((rnd j).wBeta i : Sc)) - ((rnd i).wBeta j : Sc))).sum

end Verif.Spec
