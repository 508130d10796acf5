import Verif.Spec.SignSM

/-!
# Specification: whom an error of signing names
-/

namespace Verif.Spec

open GG20 GG20.Sign

/-- The signers an error of the offline stage names.  The vectors hold positions in the list of signers,
that is, the signer number `p` of the list appears as `p - 1`. -/
def namedSigners : SignError → List ℕ
  | .Round1 e => e.bad_actors.map (· + 1)
  | .Round3 e => e.bad_actors.map (· + 1)
  | .Round5 e => e.bad_actors.map (· + 1)
  | .Round6VerifyProof e => e.bad_actors.map (· + 1)
  | .Round6CheckSig _ => []

/-- The errors of the offline stage that name nobody. -/
def anonymousErrors : List SignError :=
  [.Round1 ⟨"InvalidKey", []⟩, .Round3 ⟨"InvalidKey", []⟩, .Round3 ⟨"proof error", []⟩,
    .Round5 ⟨"Phase5BadSum", []⟩, .Round6CheckSig .Phase6Error]

/-- The last round whose messages had been received when the error was raised. -/
def failedAfter : SignError → ℕ
  | .Round1 _ => 1
  | .Round3 e => if e.error_type = "proof error" then 3 else 2
  | .Round5 e => if e.error_type = "bad gamma_i decommit" then 4 else 5
  | .Round6VerifyProof _ => 6
  | .Round6CheckSig _ => 6

variable [Crypto]

/-- The messages of rounds 1 to `r` that signer `i` received from signer `p` are among those that `p` sent
(`sent`) to everybody, or to `i`. -/
def SignGenuineUpTo (r : ℕ) (sent : List (Msg Sign.M)) (i p : ℕ) (b : SignerMsgs) : Prop :=
  (1 ≤ r → ⟨p, none, .M1 (b.b1 p)⟩ ∈ sent) ∧ (2 ≤ r → ⟨p, some i, .M2 (b.b2 p)⟩ ∈ sent) ∧
  (3 ≤ r → ⟨p, none, .M3 (b.b3 p)⟩ ∈ sent) ∧ (4 ≤ r → ⟨p, none, .M4 (b.b4 p)⟩ ∈ sent) ∧
  (5 ≤ r → ⟨p, none, .M5 (b.b5 p)⟩ ∈ sent) ∧ (6 ≤ r → ⟨p, none, .M6 (b.b6 p)⟩ ∈ sent)

/-- Signers `i` and `p` have the same view of the broadcasts of rounds 3 and 4: `p` received what `i` sent
(`sent`), and both received the same from everybody else. -/
structure SameBroadcasts (sent : List (Msg Sign.M)) (i p : ℕ) (bi bp : SignerMsgs) : Prop where
  delta : ⟨i, none, .M3 (bp.b3 i)⟩ ∈ sent
  opening : ⟨i, none, .M4 (bp.b4 i)⟩ ∈ sent
  others : ∀ j, j ≠ i → j ≠ p → bi.b3 j = bp.b3 j ∧ bi.b4 j = bp.b4 j

end Verif.Spec
