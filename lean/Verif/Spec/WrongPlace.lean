import Verif.Spec.MixedKeys

/-!
# Specification: a signer that is started at the place of another party
-/

namespace Verif.Spec

open EC Crypto GG20

variable [Crypto]

/-- A key generation among `n` parties that follow the protocol ended with `keys`. -/
structure OneKeygen (t n : ℕ) (rnd : ℕ → KeygenRandomness) (keys : List LocalKey) : Prop where
  threshold : t < n
  honest : ∀ k < n, Keygen.HonestRandomness t (rnd k)
  result : Keygen.run t n rnd = .ok keys

/-- The signer at place `v` (from 0) of the list `s_l` gets a presignature with the key `keyv` from an offline stage
in which the signer at place `p` takes part with the key `keyp`.  Both run the program; the other signers and the
network do anything, except that what the two accept in the name of each other was sent by the other one. -/
def SignsBoth (s_l : List ℕ) (v p : ℕ) (keyv keyp : LocalKey) : Prop :=
  ∃ (rv rp : SignRandomness) (sv sp : Sign.State) (opsv opsp : List (Op Sign.M)),
    Sign.new (v + 1) s_l keyv = .ok sv ∧ Sign.new (p + 1) s_l keyp = .ok sp ∧
    (∀ m ∈ ((Sign.machine rv).run sv opsv).accepted, m.sender = p + 1 →
      m ∈ (Sign.machine rp).sent ((Sign.machine rp).run sp opsp)) ∧
    (∀ m ∈ ((Sign.machine rp).run sp opsp).accepted, m.sender = v + 1 →
      m ∈ (Sign.machine rv).sent ((Sign.machine rv).run sv opsv)) ∧
    ((Sign.machine rv).run sv opsv).outputs ≠ []

end Verif.Spec
