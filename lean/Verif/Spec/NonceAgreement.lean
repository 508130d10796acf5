import Verif.Spec.Culprits

/-!
# When two signers could finish with different nonce points
-/

namespace Verif.Spec

open EC Crypto GG20 GG20.Sign

variable [Crypto]

/-- Signer `i`, which sent `sent`, was unlucky in all of the proofs of its fifth message: the answer `s1`, which it
computed from random numbers of its own, is zero modulo the group order, and the challenge is the same for the nonce
points `R` and `R'`. -/
def ProofCoincidence (sent : List (Msg Sign.M)) (i : ℕ) (R R' : Pt) : Prop :=
  ∃ m1 m5, ⟨i, none, .M1 m1⟩ ∈ sent ∧ ⟨i, none, .M5 m5⟩ ∈ sent ∧ m5.2 ≠ [] ∧
    ∀ pf ∈ m5.2, (pf.s1 : Sc) = 0 ∧
      hashInts [ser R, ser m5.1, m1.1.c, pf.z, ser pf.u1, pf.u2, pf.u3] =
        hashInts [ser R', ser m5.1, m1.1.c, pf.z, ser pf.u1, pf.u2, pf.u3]

/-- What signer `i` of the honest ones has drawn and the conditions on its Paillier key and the hash function, under
which its proofs tell nonce points apart. -/
structure TellsNonces (dk : DecKey) (rnd : GG20.SignRandomness) : Prop where
  k_ne_zero : rnd.k ≠ 0
  beta_units : ∀ j, Int.gcd (rnd.pdl j).beta dk.n = 1
  primes : q ≤ dk.p ∧ q ≤ dk.q
  hash_lt : ∀ l, hashInts l < dk.n

end Verif.Spec
