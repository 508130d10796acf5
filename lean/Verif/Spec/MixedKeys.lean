import Verif.Model.GG20.SignSM
import Verif.Model.GG20.KeygenRun
import Verif.Spec.Keygen

/-!
# Specification: signers whose keys come from different key generations
-/

namespace Verif.Spec

open EC Crypto GG20

variable [Crypto]

/-- Two key generations among `n` parties that follow the protocol: one with threshold `t` and the random values
`rnd`, which ended with `keys`, and one with threshold `t'` and the random values `rnd'`, which ended with `keys'`.
The second one may refresh the key of the first one or make another key. -/
structure TwoKeygens (t t' n : ℕ) (rnd rnd' : ℕ → KeygenRandomness) (keys keys' : List LocalKey) : Prop where
  threshold : t < n
  threshold' : t' < n
  honest : ∀ k < n, Keygen.HonestRandomness t (rnd k)
  honest' : ∀ k < n, Keygen.HonestRandomness t' (rnd' k)
  first : Keygen.run t n rnd = .ok keys
  second : Keygen.run t' n rnd' = .ok keys'

/-- The signer at place `v` (from 0) of the list `s_l` gets a presignature with the key `keyv` from an offline stage
in which the signer at place `p` takes part with the key `keyp`.  Both run the program; the other signers and the
network do anything, except that what `v` accepts in the name of `p` was sent by `p`. -/
def SignsWith (s_l : List ℕ) (v p : ℕ) (keyv keyp : LocalKey) : Prop :=
  ∃ (rv rp : SignRandomness) (sv sp : Sign.State) (opsv opsp : List (Op Sign.M)),
    Sign.new (v + 1) s_l keyv = .ok sv ∧ Sign.new (p + 1) s_l keyp = .ok sp ∧
    (∀ m ∈ ((Sign.machine rv).run sv opsv).accepted, m.sender = p + 1 →
      m ∈ (Sign.machine rp).sent ((Sign.machine rp).run sp opsp)) ∧
    ((Sign.machine rv).run sv opsv).outputs ≠ []

end Verif.Spec
