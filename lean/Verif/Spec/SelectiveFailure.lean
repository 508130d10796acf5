import Verif.Model.GG20.SignRounds

/-!
# Specification: a signer that chooses one of its masks
-/

namespace Verif.Spec

open EC Crypto GG20

variable [Crypto]

/-- The random values `rnd` of all signers, except that the signer at position `a`, when it answers the
signer at position `v` in the first share conversion, uses the mask `mask` instead of a random one. -/
def withMask (a v : ℕ) (mask : ℤ) (rnd : ℕ → SignRandomness) : ℕ → SignRandomness :=
  fun j => { rnd j with gammaBeta := fun i => if j = a ∧ i = v then mask else (rnd j).gammaBeta i }

end Verif.Spec
