import Verif.Spec.KeygenSM

/-!
# Specification: accusations of key generation

What an error of key generation says, and what it means that the messages one party received from another
are genuine.
-/

namespace Verif.Spec

open EC Crypto GG20

/-- The parties an error accuses.  The vectors of accused parties hold positions, that is, party `p`
appears as `p - 1`. -/
def accused : Keygen.ProceedError → List ℕ
  | .Round2VerifyCommitments e => e.bad_actors.map (· + 1)
  | .Round3VerifyVssConstruct e => e.bad_actors.map (· + 1)
  | .Round4VerifyDLogProof e => e.bad_actors.map (· + 1)

/-- The last round whose messages had been received when the error was raised. -/
def accusedAfter : Keygen.ProceedError → ℕ
  | .Round2VerifyCommitments _ => 2
  | .Round3VerifyVssConstruct _ => 3
  | .Round4VerifyDLogProof _ => 4

variable [Crypto]

/-- The messages of rounds 1 to `r` that party `i` received from party `p` are among those that `p`
sent (`sent`) to everybody, or to `i`. -/
def GenuineUpTo (r : ℕ) (sent : List (Msg Keygen.M)) (i p : ℕ) (b1 : KeyGenBroadcastMessage1)
    (b2 : KeyGenDecommitMessage1) (b3 : Vss × Sc) (b4 : DLogProof) : Prop :=
  (1 ≤ r → ⟨p, none, .Round1 b1⟩ ∈ sent) ∧ (2 ≤ r → ⟨p, none, .Round2 b2⟩ ∈ sent) ∧
  (3 ≤ r → ⟨p, some i, .Round3 b3⟩ ∈ sent) ∧ (4 ≤ r → ⟨p, none, .Round4 b4⟩ ∈ sent)

end Verif.Spec
