import Verif.Ext.Crypto
import Verif.Ext.Bytes
import Verif.Ext.Paillier
import Mathlib.NumberTheory.Primorial

/-!
# Two proofs of `zk-paillier` 0.4

`CompositeDLogProof` and `NiCorrectKeyProof`.  The crate is not in `/repo`; these are models of its source as far
as it is known to the authors of this model.  `digest` is `compute_digest`.  Verification is `none` where it
panics.
-/

namespace Verif.ZkPaillier

variable (digest : List ℤ → ℕ)

/-- `CompositeDLogProof`: knowledge of the logarithm of `ni⁻¹` to the base `g` modulo `N` -/
structure CompositeDLogProof where
  x : ℤ
  y : ℤ
  deriving DecidableEq, Repr

/-- The challenge, from the statement and the first message -/
def CompositeDLogProof.challenge (st : DLogStatement) (x : ℤ) : ℕ := digest [x, st.g, st.N, st.ni]

/-- `CompositeDLogProof::prove`, `r` is the sampled exponent -/
def CompositeDLogProof.prove (st : DLogStatement) (secret : ℤ) (r : ℕ) : CompositeDLogProof :=
  let x := st.g ^ r % st.N
  { x := x, y := r + challenge digest st x * secret }

/-- `CompositeDLogProof::verify`; the modulus must have more than 128 bits and both bases must be invertible,
otherwise it panics. -/
def CompositeDLogProof.verify (pf : CompositeDLogProof) (st : DLogStatement) : Option Bool :=
  if 2 ^ 128 < st.N ∧ Int.gcd st.g st.N = 1 ∧ Int.gcd st.ni st.N = 1 then do
    let ni_e ← modPow st.ni (challenge digest st pf.x) st.N
    let g_y ← modPow st.g pf.y st.N
    some (decide (pf.x = g_y * ni_e % st.N))
  else none

/-- `M2`, the number of roots in a key correctness proof -/
def M2 : ℕ := 11

/-- `SALT_STRING` -/
def salt : List UInt8 := [75, 90, 101, 110]

/-- `NiCorrectKeyProof`: `n`-th roots of pseudo-random numbers modulo `n` -/
structure NiCorrectKeyProof where
  sigma_vec : List ℤ
  deriving DecidableEq, Repr

/-- `mask_generation`: enough digests for a number of the given bit length -/
def mask (bits seed : ℕ) : ℕ :=
  (List.range (bits / 256 + 1)).foldl (fun (acc j : ℕ) => acc + digest [(seed : ℤ), (j : ℤ)] <<< (j * 256)) 0

/-- The `i`-th number whose root has to be shown -/
def rho (n i : ℕ) : ℕ :=
  mask digest (bitLength n) (digest [(n : ℤ), (digest [(fromBytes salt : ℤ)] : ℤ), (i : ℤ)]) % n

/-- `extract_nroot` of `kzen-paillier`, by the Chinese remainder theorem.  The two inverses exist for keys made
by `keypair()`; the code panics when they do not, here they are zero. -/
def nroot (dk : DecKey) (z : ℤ) : ℤ :=
  let dn := ((modInv dk.n (((dk.p - 1) * (dk.q - 1) : ℕ) : ℤ)).getD 0).toNat
  let rp := (z % dk.p) ^ (dn % (dk.p - 1)) % dk.p
  let rq := (z % dk.q) ^ (dn % (dk.q - 1)) % dk.q
  Paillier.recombine rp rq dk.p dk.q ((modInv dk.p dk.q).getD 0)

/-- `NiCorrectKeyProof::proof` -/
def NiCorrectKeyProof.prove (dk : DecKey) : NiCorrectKeyProof :=
  ⟨(List.range M2).map fun i => nroot dk (rho digest dk.n i)⟩

/-- `NiCorrectKeyProof::verify`: eleven roots, and no prime up to 6370 divides the modulus.  Panics for a zero
modulus (division by zero) and when the vector is too short (index out of bounds); more entries are ignored. -/
def NiCorrectKeyProof.verify (pf : NiCorrectKeyProof) (n : ℕ) : Option Bool :=
  if n = 0 ∨ pf.sigma_vec.length < M2 then none
  else some ((List.range M2).all (fun i => decide (pf.sigma_vec.getD i 0 ^ n % (n : ℤ) = rho digest n i)) &&
    decide (Nat.gcd (primorial 6370) n = 1))

end Verif.ZkPaillier
