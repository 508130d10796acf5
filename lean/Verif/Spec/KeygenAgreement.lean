import Verif.Spec.KeygenSM
import Verif.Spec.Shamir

/-!
# Specification: key generation with some honest parties

The parties in `honest` run the program; whatever the others do, and whether they send everybody the
same, is left open.
-/

namespace Verif.Spec

open EC Crypto GG20

variable [Crypto]

/-- Each party in `honest` got through key generation with some result, where `b1 i p`, ..., `b4 i p`
are the messages of party `p` that party `i` received (round 1 to 4).  Between honest parties the
messages are genuine: what `i` received from `p` is a message that `p` sent to everybody or to `i`.
Nothing is said about messages of other parties: they need not be the same for two receivers. -/
structure HonestKeygens (t n : ℕ) (honest : Finset ℕ) (rnd : ℕ → KeygenRandomness)
    (b1 : ℕ → ℕ → KeyGenBroadcastMessage1) (b2 : ℕ → ℕ → KeyGenDecommitMessage1)
    (b3 : ℕ → ℕ → Vss × Sc) (b4 : ℕ → ℕ → DLogProof) (key : ℕ → LocalKey) : Prop where
  range : ∀ i ∈ honest, 1 ≤ i ∧ i ≤ n
  coefs : ∀ i ∈ honest, (rnd i).coefs.length = t
  completed : ∀ i ∈ honest, (keygenLine (rnd i) i t n (b1 i) (b2 i) (b3 i) (b4 i)).2 = .ok (key i)
  genuine : ∀ i ∈ honest, ∀ p ∈ honest, p ≠ i →
    let sent := (keygenLine (rnd p) p t n (b1 p) (b2 p) (b3 p) (b4 p)).1
    ⟨p, none, .Round1 (b1 i p)⟩ ∈ sent ∧ ⟨p, none, .Round2 (b2 i p)⟩ ∈ sent ∧
    ⟨p, some i, .Round3 (b3 i p)⟩ ∈ sent ∧ ⟨p, none, .Round4 (b4 i p)⟩ ∈ sent

/-- The keys of the parties in `honest` belong together: one public key; any `t + 1` of these parties
hold it; and each of them knows the public key share and the Paillier modulus of each other. -/
def KeysFit (t : ℕ) (honest : Finset ℕ) (key : ℕ → LocalKey) : Prop :=
  ∃ d : Sc, (∀ i ∈ honest, (key i).public_key = d • G) ∧
    (∀ S ⊆ honest, t + 1 ≤ S.card →
      ∑ i ∈ S, lagrangeCoeff S i * (key i).keys_linear.x_i = d) ∧
    ∀ i ∈ honest, ∀ j ∈ honest,
      (key i).pk_vec[j - 1]? = some ((key j).keys_linear.x_i • G) ∧
      (key i).paillier_key_vec[j - 1]? = some (key j).paillier_dk.n

end Verif.Spec
