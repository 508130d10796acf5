import Verif.Spec.Backup
import Verif.Spec.Demo

/-!
# Refreshing a key: two epochs

After a key generation (first epoch) the parties add factors that add up to zero to their secrets, and deal
the new secrets in a second key generation (second epoch), with fresh random values.
-/

namespace Verif.Spec

open EC Crypto

variable [Crypto]

/-- Two epochs of GG20: a key generation with random values `rnd` that ends with `keys`, then a refresh with
factors that add up to zero and a key generation with the random values `rnd'` that ends with `keys'`. -/
structure GG20Epochs (t n : ℕ) (rnd rnd' : ℕ → GG20.KeygenRandomness) (keys keys' : List GG20.LocalKey) :
    Prop where
  honest : ∀ k < n, GG20.Keygen.HonestRandomness t (rnd k)
  honest' : ∀ k < n, GG20.Keygen.HonestRandomness t (rnd' k)
  first : GG20.Keygen.run t n rnd = .ok keys
  second : GG20.Keygen.run t n rnd' = .ok keys'
  refreshed : ∃ factor : ℕ → Sc, ∑ k ∈ Finset.range n, factor k = 0 ∧ ∀ k key, keys[k]? = some key →
    GG20.Keys.create (k + 1) (rnd' k).u (rnd' k).dk (rnd' k).aux =
      (gg20Holds rnd k key).refresh_private_key (factor k) (k + 1) (rnd' k).dk (rnd' k).aux

/-- Two epochs of the GG18 demo. -/
structure GG18Epochs (A : Aead) (t n : ℕ) (rnd rnd' : ℕ → Demo.Keygen.Rand)
    (files files' : List Demo.Keygen.KeyFile) : Prop where
  honest : ∀ i, 1 ≤ i → i ≤ n → GG18.HonestKeygenRand t (rnd i)
  honest' : ∀ i, 1 ≤ i → i ≤ n → GG18.HonestKeygenRand t (rnd' i)
  first : Demo.Keygen.run A t n rnd = .ok files
  second : Demo.Keygen.run A t n rnd' = .ok files'
  refreshed : ∃ factor : ℕ → Sc, ∑ k ∈ Finset.range n, factor k = 0 ∧ ∀ k file, files[k]? = some file →
    GG18.Keys.create (k + 1) (rnd' (k + 1)).u (rnd' (k + 1)).dk =
      (gg18Holds file).refresh_private_key (factor k) (k + 1) (rnd' (k + 1)).dk

end Verif.Spec
