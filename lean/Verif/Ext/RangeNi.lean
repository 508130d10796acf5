import Verif.Ext.Paillier

/-!
# The range proof of `zk-paillier`

`RangeProofNi`, used only by the interactive PDL proof, is opaque.  A proof carries the range it was made for:
`verify` takes the key and the ciphertext only.
-/

namespace Verif

class RangeNi where
  /-- `zk_paillier::zkproofs::RangeProofNi` -/
  RPProof : Type
  /-- what the prover samples -/
  RPCoins : Type
  /-- `prove`; arguments: modulus, range bound, ciphertext, secret, randomness, samples -/
  rpProve : ℕ → ℤ → ℤ → ℤ → ℤ → RPCoins → RPProof
  /-- `verify`; `none` if it panics -/
  rpVerify : RPProof → ℕ → ℤ → Option Bool
  /-- Proofs about secrets up to a third of their range can be made. -/
  rp_complete : ∀ (n : ℕ) (range x r : ℤ), 0 < n → Int.gcd r n = 1 → 0 < x → 3 * x ≤ range →
    ∃ coins, rpVerify (rpProve n range (Paillier.encrypt n x r) x r coins) n (Paillier.encrypt n x r) =
      some true

/-- Used only in executable examples -/
@[reducible] def RangeNi.trivial : RangeNi where
  RPProof := Bool
  RPCoins := Unit
  rpProve := fun _ _ _ _ _ _ => true
  rpVerify := fun b _ _ => some b
  rp_complete := fun _ _ _ _ _ _ _ _ => ⟨(), rfl⟩

end Verif
