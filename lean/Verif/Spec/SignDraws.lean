import Verif.Spec.Sign
import Verif.Spec.Demo
import Mathlib.Data.Fintype.Pi
import Mathlib.Data.Fintype.BigOperators
import Mathlib.Tactic.DeriveFintype
import Mathlib.Order.Interval.Finset.Nat

/-!
# The numbers that signers draw

The random numbers of a signing run on which its success depends, with the ranges they are drawn from.  `m` is
the number of signers, `L` the number of auxiliary statements.
-/

namespace Verif.Spec

open EC Crypto GG20

/-- One random number of the run.
* `k i`, `gamma i`: the two nonce shares of signer `i` (gg_2020/party_i.rs, lines 561-563)
* `ra i`: Paillier randomness of its `MessageA` (mta/mod.rs, line 57)
* `gammaR i j`, `wR i j`, `gammaBeta i j`, `wBeta i j`: Paillier randomness and mask of its two answers to signer
  `j` (mta/mod.rs, lines 97-98)
* `alpha i l`: the mask of its range proof for statement `l` (mta/range_proofs.rs, line 48) -/
inductive Draw (m L : ℕ) where
  | k (i : Fin m)
  | gamma (i : Fin m)
  | ra (i : Fin m)
  | gammaR (i j : Fin m)
  | wR (i j : Fin m)
  | gammaBeta (i j : Fin m)
  | wBeta (i j : Fin m)
  | alpha (i : Fin m) (l : Fin L)
  deriving DecidableEq, Fintype

section
variable [EC] {m L : ℕ}

/-- What each number is drawn from: `Scalar::random` (never zero) or `sample_below`; `N j` is the Paillier
modulus of signer `j`. -/
def Draw.range (N : ℕ → ℕ) : Draw m L → Finset ℕ
  | .k _ | .gamma _ => Finset.Ico 1 q
  | .ra i => Finset.Ico 0 (N i)
  | .gammaR _ j | .wR _ j | .gammaBeta _ j | .wBeta _ j => Finset.Ico 0 (N j)
  | .alpha _ _ => Finset.Ico 0 (q ^ 3)

/-- All ways to draw them, each equally likely. -/
def draws (m L : ℕ) (N : ℕ → ℕ) : Finset (Draw m L → ℕ) := Fintype.piFinset (Draw.range N)

end

section
variable [Crypto] {m L : ℕ}

/-- The drawn numbers of signer `i` together with the samples `base` that have no influence on success. -/
def withDraws (base : ℕ → SignRandomness) (f : Draw m L → ℕ) (i : ℕ) : SignRandomness :=
  if hi : i < m then
    let own (g : Fin m → Draw m L) : ℕ → ℤ := fun j => if hj : j < m then (f (g ⟨j, hj⟩) : ℤ) else 0
    { base i with
      k := (f (.k ⟨i, hi⟩) : Sc)
      gamma := (f (.gamma ⟨i, hi⟩) : Sc)
      ra := f (.ra ⟨i, hi⟩)
      gammaR := own (.gammaR ⟨i, hi⟩)
      wR := own (.wR ⟨i, hi⟩)
      gammaBeta := own (.gammaBeta ⟨i, hi⟩)
      wBeta := own (.wBeta ⟨i, hi⟩)
      alice := fun l =>
        { (base i).alice l with alpha := if hl : l < L then (f (.alpha ⟨i, hi⟩ ⟨l, hl⟩) : ℤ) else 0 } }
  else base i

/-- Parties `s_l` hold a key of `n` parties: `HonestSigners` without the samples. -/
structure KeyHolders (n : ℕ) (Y : Pt) (x : ℕ → Sc) (dk : ℕ → DecKey) (sts : List DLogStatement)
    (s_l : List ℕ) (key : ℕ → LocalKey) : Prop where
  n_lt : n < q
  n_u16 : n < 65536
  nodup : s_l.Nodup
  members : ∀ i ∈ s_l, 1 ≤ i ∧ i ≤ n
  holds : ∀ k < s_l.length, KeyOf n Y x dk sts (s_l.getD k 0) (key k)
  aux : AuxOk n sts
  dk_valid : ∀ i, 1 ≤ i → i ≤ n → (dk i).Valid

/-- The size of the parameters, measured by `K`: hash values are below `B`, and the group order and the Paillier
primes and moduli of the signers are large. -/
structure LargeFor (K B : ℕ) (dk : ℕ → DecKey) (s_l : List ℕ) : Prop where
  pos : 0 < K
  hash_le : ∀ l, hashInts l ≤ B
  order : 4 * K ≤ q - 1
  order_hash : K * B ≤ q ^ 2
  modulus : ∀ i ∈ s_l, K * q ^ 2 ≤ (dk i).n
  primes : ∀ i ∈ s_l, 2 * K ≤ (dk i).p ∧ 2 * K ≤ (dk i).q

end

namespace GG18

variable [Crypto] {m : ℕ}

/-- The same for client number `i` of the GG18 signing demo, which draws no range-proof masks
(gg_2018/party_i.rs, lines 387-391; gg18_sign_client.rs, lines 128-192). -/
def withDraws (base : ℕ → Demo.Sign.Rand) (f : Draw m 0 → ℕ) (i : ℕ) : Demo.Sign.Rand :=
  if hi : i - 1 < m then
    let own (g : Fin m → Draw m 0) : ℕ → ℤ := fun j => if hj : j - 1 < m then (f (g ⟨j - 1, hj⟩) : ℤ) else 0
    { base i with
      k := (f (.k ⟨i - 1, hi⟩) : Sc)
      gamma := (f (.gamma ⟨i - 1, hi⟩) : Sc)
      ra := f (.ra ⟨i - 1, hi⟩)
      gammaR := own (.gammaR ⟨i - 1, hi⟩)
      wR := own (.wR ⟨i - 1, hi⟩)
      gammaBeta := own (.gammaBeta ⟨i - 1, hi⟩)
      wBeta := own (.wBeta ⟨i - 1, hi⟩) }
  else base i

/-- Parties `s_l` hold the key files of a key: `HonestRoom` without the samples. -/
structure KeyHolders (n : ℕ) (Y : Pt) (x : ℕ → Sc) (dk : ℕ → DecKey) (s_l : List ℕ)
    (key : ℕ → Demo.Keygen.KeyFile) : Prop where
  n_lt : n < q
  n_u16 : n < 65536
  nodup : s_l.Nodup
  members : ∀ i ∈ s_l, 1 ≤ i ∧ i ≤ n
  holds : ∀ k < s_l.length, KeyFileOf n Y x dk (s_l.getD k 0) (key (k + 1))
  dk_valid : ∀ i, 1 ≤ i → i ≤ n → (dk i).Valid

end GG18

end Verif.Spec
