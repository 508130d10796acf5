import Verif.Model.GG20.KeygenSM
import Verif.Spec.Shamir

/-!
# Specification: a key generation whose parties were started for different numbers of parties
-/

namespace Verif.Spec

open EC Crypto GG20

variable [Crypto]

/-- Parties `1, …, N` run the key generation program, in any schedule.  Party `k` was started with its own threshold
`t k` and its own number of parties `n k` (`Keygen::new(k, t, n)` is called by each party separately).  What a party
has accepted from another one of them, that party has sent; `s k` is the state party `k` starts in and `ops k` are the
calls of its driver. -/
structure MixedKeygens (N : ℕ) (t n : ℕ → ℕ) (rnd : ℕ → KeygenRandomness) (s : ℕ → Keygen.State)
    (ops : ℕ → List (Op Keygen.M)) : Prop where
  new : ∀ k, 1 ≤ k → k ≤ N → ∃ r, Keygen.new (rnd k) k (t k) (n k) = .ok (s k, r)
  count : ∀ k, 1 ≤ k → k ≤ N → n k ≤ N
  genuine : ∀ k p, 1 ≤ k → k ≤ N → 1 ≤ p → p ≤ N → p ≠ k →
    ∀ m ∈ ((Keygen.machine (rnd k)).run (s k) (ops k)).accepted, m.sender = p →
      m ∈ (Keygen.machine (rnd p)).sent ((Keygen.machine (rnd p)).run (s p) (ops p))

/-- Party `k` has got a key. -/
def GotKey (rnd : ℕ → KeygenRandomness) (s : ℕ → Keygen.State) (ops : ℕ → List (Op Keygen.M)) (k : ℕ) : Prop :=
  ∃ key, key ∈ ((Keygen.machine (rnd k)).run (s k) (ops k)).outputs

/-- The share for party `p` of the secret that a party draws: the value at `p` of the polynomial with the constant
coefficient `u` and the further coefficients `coefs`. -/
def shareFor (rnd : KeygenRandomness) (p : ℕ) : Sc := evalPoly (rnd.u :: rnd.coefs) (p : Sc)

end Verif.Spec
