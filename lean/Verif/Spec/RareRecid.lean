import Verif.Spec.WhoseMessage

/-!
# Specification: how often recovery ids are wrong (C140)
-/

namespace Verif.Spec

open EC Crypto

/-- At most three points have one and the same y-coordinate, as on every curve `y^2 = x^3 + b`. -/
def ThreePerY [EC] : Prop :=
  ∀ y : ℕ, ∃ l : List Pt, l.length ≤ 3 ∧ ∀ P x, coords P = some (x, y) → P ∈ l

/-- Party two, given the message `m`, sends `c3`, and party one outputs `sig` with a recovery id. -/
def LindellSession.OutputsRecid [Crypto] (s : LindellSession) (m : ℤ) (sig : Lindell17.SignatureRecid) : Prop :=
  let key := Lindell17.PaillierKeyPair.generate s.dk ⟨s.x1 • G, s.x1⟩ s.rk
  let o1 := Lindell17.eph_create s.k1 s.n1
  let o2 := Lindell17.eph_create_commitments s.k2 s.n2 s.b1 s.b2
  ∃ c3,
    Lindell17.PartialSig.compute key.ek key.encrypted_share (.set_private_key ⟨s.x2 • G, s.x2⟩) o2.2.2
      o1.1.public_share m s.rho s.r = .ok c3 ∧
    Lindell17.Signature.compute_with_recid (.set_private_key ⟨s.x1 • G, s.x1⟩ key) c3 o1.2 o2.2.1.public_share =
      .ok sig

end Verif.Spec
