import Verif.Model.Pdl
import Verif.Spec.Hiding

/-!
# Specification: convincing the verifier of the interactive PDL proof
-/

namespace Verif.Spec

open EC Crypto RangeNi

variable [Crypto] [RangeNi]

/-- A prover of the interactive PDL proof, as two functions: its first message in reply to the ciphertext that
the verifier sends, and its second message in reply to the challenge that the verifier opens. -/
structure PdlProver where
  first : ℤ → Pdl.ProverFirstMessage
  second : ℤ → Pdl.VerifierSecondMessage → Pdl.ProverDecommit

/-- The verifier that draws `a`, `b` and the randomness `r` (and blinds its commitment with `bl`) opens its
challenge to the prover and finally accepts. -/
def PdlProver.Convinces (P : PdlProver) (st : Pdl.Statement) (bl : ℤ) (a : Sc) (b r : ℤ) : Prop :=
  let v1 := Pdl.verifierMessage1 st a b bl r
  let m1 := P.first v1.1.c_tag
  let v2 := Pdl.verifierMessage2 m1 st v1.2
  ∃ m2, v2.1 = .ok m2 ∧ Pdl.verifierFinalize m1 (P.second v1.1.c_tag m2) v2.2 = .ok ()

/-- What the verifier draws: `a` (not zero), `b` below `q²` and the randomness of an encryption with modulus
`n`, invertible modulo `n`. -/
abbrev PdlChallenge (n : ℕ) : Type := {a : Sc // a ≠ 0} × Fin (q ^ 2) × (ZMod n)ˣ

end Verif.Spec
