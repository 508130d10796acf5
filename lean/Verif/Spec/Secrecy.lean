import Verif.Spec.Shamir
import Verif.Ext.Sigma

/-!
# What can be computed without the secrets

Programs that are given only public values.
-/

namespace Verif.Spec

open EC Polynomial

section
variable [EC]

/-- The Lagrange polynomial that is 1 at `i` and 0 at the other elements of `S`. -/
noncomputable def lagrangePoly (S : Finset ℕ) (i : ℕ) : Polynomial Sc :=
  ∏ j ∈ S.erase i, C (((i : Sc) - (j : Sc))⁻¹) * (X - C (j : Sc))

/-- Commitments to a polynomial of degree at most `t`, from a commitment `Y` to its value at zero and its values
`s` at the `t` places `T`: interpolation in the exponent. -/
noncomputable def simCommitments (t : ℕ) (T : Finset ℕ) (Y : Pt) (s : ℕ → Sc) : List Pt :=
  (List.range (t + 1)).map fun k =>
    (lagrangePoly (insert 0 T) 0).coeff k • Y +
      ∑ i ∈ T, ((lagrangePoly (insert 0 T) i).coeff k * s i) • G

end

section
variable [Crypto]

/-- A point computed from a proof of knowledge of the opening of a Pedersen commitment. -/
def pedersenLeak (pf : PedersenProof) : Pt := pf.e⁻¹ • (pf.z1 • G - pf.a1)

end
end Verif.Spec
