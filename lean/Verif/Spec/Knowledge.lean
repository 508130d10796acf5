import Verif.Ext.Sigma
import Mathlib.SetTheory.Cardinal.Finite
import Mathlib.Data.Rat.Defs
import Mathlib.Algebra.Order.Field.Rat

/-!
# Dishonest provers and a random hash function

A prover may be any program that computes hashes and chooses what to do next from the results.  It is represented
by its decision tree.  The hash function is drawn at random from all functions, as usual in the analysis of
Fiat-Shamir proofs; only hashes of lists of the length that the verifier hashes need be drawn, all others (and
everything else that the dependencies provide) stay what they are.
-/

namespace Verif.Spec

/-- A prover that ends with a result in `Z`, and asks for values at points of `X` with answers in `E` before. -/
inductive Prover (X E Z : Type) where
  | result (z : Z)
  | ask (x : X) (next : E → Prover X E Z)

namespace Prover

variable {X E Z : Type}

/-- The result when the questions are answered by `O`. -/
def run (O : X → E) : Prover X E Z → Z
  | result z => z
  | ask x next => (next (O x)).run O

/-- At most `n` questions are asked, whatever the answers. -/
def AsksAtMost : ℕ → Prover X E Z → Prop
  | _, result _ => True
  | 0, ask _ _ => False
  | n + 1, ask _ next => ∀ e, AsksAtMost n (next e)

end Prover

/-- Functions from lists of `k` points to scalars. -/
abbrev HashOf [EC] (k : ℕ) : Type := (Fin k → Pt) → Sc

/-- The dependencies with another hash function for lists of `k` points. -/
@[instance_reducible] def withHash (C : Crypto) (k : ℕ) (O : HashOf k) : Crypto :=
  { C with hashPts := fun l => if h : l.length = k then O fun i => l.get (i.cast h.symm) else C.hashPts l }

/-- The probability of an event when the hash function is drawn uniformly. -/
noncomputable def hashProb [EC] (k : ℕ) (event : HashOf k → Prop) : ℚ :=
  Nat.card {O : HashOf k // event O} / Nat.card (HashOf k)

/-! ### Acceptance by the verifiers, under another hash function -/

section
variable [C : Crypto]

/-- A proof, as one of the dependencies with another hash function: its three fields are the same. -/
def dlogUnder (O : HashOf 3) (pf : DLogProof) : @DLogProof (withHash C 3 O) :=
  @DLogProof.mk (withHash C 3 O) pf.pk pf.pk_t_rand_commitment pf.challenge_response

/-- `DLogProof::verify` -/
def DLogAccepted (O : HashOf 3) (pf : DLogProof) : Prop :=
  @DLogProof.verify (withHash C 3 O) (dlogUnder O pf) = true

/-- `PedersenProof::verify` -/
def PedersenAccepted (O : HashOf 5) (pf : PedersenProof) : Prop :=
  @PedersenProof.verify (withHash C 5 O)
    (@PedersenProof.mk (withHash C 5 O) pf.e pf.a1 pf.a2 pf.com pf.z1 pf.z2) = true

/-- `HomoELGamalProof::verify` -/
def ElGamalAccepted (O : HashOf 7) (st : HomoElGamalStatement) (pf : HomoElGamalProof) : Prop :=
  @HomoElGamalProof.verify (withHash C 7 O)
    (@HomoElGamalProof.mk (withHash C 7 O) pf.T pf.A3 pf.z1 pf.z2)
    (@HomoElGamalStatement.mk (withHash C 7 O) st.G st.H st.Y st.D st.E) = true

/-- The same for proofs of equality of logarithms -/
def ddhUnder (O : HashOf 6) (pf : ECDDHProof) : @ECDDHProof (withHash C 6 O) :=
  @ECDDHProof.mk (withHash C 6 O) pf.a1 pf.a2 pf.z

/-- `ECDDHProof::verify` -/
def DdhAccepted (O : HashOf 6) (st : ECDDHStatement) (pf : ECDDHProof) : Prop :=
  @ECDDHProof.verify (withHash C 6 O) (ddhUnder O pf)
    (@ECDDHStatement.mk (withHash C 6 O) st.g1 st.h1 st.g2 st.h2) = true

end

end Verif.Spec
