import Verif.Model.Demo.Driver
import Verif.Spec.Shamir

/-!
# Specification: what somebody reads in a room

Independent of the clients: the private key that anybody computes from the messages of a room in which a key
generation took place.
-/

namespace Verif.Spec

open EC Crypto GG20

variable [Crypto]

/-- What a message carries if it is a share that party `k` deals to party `j`. -/
def shareIn (k j : ℕ) (m : Msg Keygen.M) : Option Sc :=
  if m.sender = k ∧ m.receiver = some j then
    match m.body with
    | .Round3 (_, share) => some share
    | _ => none
  else none

/-- The share of dealer `k` for party `j` as found among the messages `log` (0 if there is none). -/
def dealtIn (log : List (Msg Keygen.M)) (k j : ℕ) : Sc := (log.findSome? (shareIn k j)).getD 0

/-- Interpolation at zero of what each of the dealers `1, ..., n` sent to the others, summed up. -/
noncomputable def keyFromLog (n : ℕ) (log : List (Msg Keygen.M)) : Sc :=
  ∑ k ∈ Finset.Icc 1 n, ∑ j ∈ (Finset.Icc 1 n).erase k,
    lagrangeCoeff ((Finset.Icc 1 n).erase k) j * dealtIn log k j

/-- A share message of dealer `k` for party `j` is among the messages. -/
def Dealt (log : List (Msg Keygen.M)) (k j : ℕ) : Prop :=
  ∃ vss share, (⟨k, some j, .Round3 (vss, share)⟩ : Msg Keygen.M) ∈ log

end Verif.Spec
