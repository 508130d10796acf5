import Verif.Base.EC
import Mathlib.Data.Nat.Size

/-!
# Hashes and opaque third-party proofs

`Crypto` collects everything the code takes from its dependencies that is *not* modelled
concretely:

* SHA-256 as uninterpreted functions (no law at all is assumed about them except that a digest
  read as an integer is a natural number);
* `NiCorrectKeyProof` (zk-paillier), with the completeness law that an honestly generated proof
  verifies;
* `CompositeDLogProof` (zk-paillier), with the completeness law that a proof made with a correct
  secret verifies.

The completeness laws are assumptions about the dependencies and belong to the trusted base.  No
soundness of these proofs is assumed anywhere.
-/

namespace Verif

/-- `zk_paillier::zkproofs::DLogStatement`: claims `ni = g^(-secret) mod N`. -/
structure DLogStatement where
  N : ℤ
  g : ℤ
  ni : ℤ
  deriving DecidableEq, Repr

/-- `paillier::DecryptionKey`: the two primes. -/
structure DecKey where
  p : ℕ
  q : ℕ
  deriving DecidableEq, Repr

/-- The public modulus belonging to a decryption key (`paillier::EncryptionKey` is represented by
its modulus `n`; the field `nn` is always `n * n`). -/
def DecKey.n (dk : DecKey) : ℕ := dk.p * dk.q

/-- A decryption key as produced by `Paillier::keypair()`: distinct primes such that the modulus is
coprime to its totient. -/
structure DecKey.Valid (dk : DecKey) : Prop where
  p_prime : dk.p.Prime
  q_prime : dk.q.Prime
  ne : dk.p ≠ dk.q
  coprime : Nat.Coprime (dk.p * dk.q) ((dk.p - 1) * (dk.q - 1))

/-- Both primes are above 6370, the bound up to which `NiCorrectKeyProof` tests the modulus for small
factors.  `Paillier::keypair()` makes primes of 1024 bits. -/
structure DecKey.Large (dk : DecKey) : Prop where
  p_large : 6370 < dk.p
  q_large : 6370 < dk.q

/-- `BigInt::bit_length`. -/
def bitLength (n : ℤ) : ℕ := n.natAbs.size

class Crypto extends EC where
  /-- `HashCommitment::<Sha256>::create_commitment_with_user_defined_randomness(message, blinding)` -/
  hashCom : ℤ → ℤ → ℤ
  /-- `Sha256::new().chain_points(..).result_scalar()` -/
  hashPts : List EC.Pt → ZMod EC.q
  /-- `Sha256::new().chain_points(..).result_bigint()` -/
  hashPtsInt : List EC.Pt → ℤ
  /-- `Sha256::new().chain_bigint(..)...result_bigint()` -/
  hashInts : List ℤ → ℕ
  /-- `zk_paillier::zkproofs::NiCorrectKeyProof` -/
  CKProof : Type
  ckProve : DecKey → CKProof
  /-- `none` if it panics -/
  ckVerify : CKProof → ℕ → Option Bool
  ck_complete : ∀ dk : DecKey, dk.Valid → dk.Large → ckVerify (ckProve dk) dk.n = some true
  /-- `zk_paillier::zkproofs::CompositeDLogProof` -/
  CDProof : Type
  /-- the last argument is the prover's randomness -/
  cdProve : DLogStatement → ℤ → ℕ → CDProof
  /-- `none` if it panics -/
  cdVerify : CDProof → DLogStatement → Option Bool
  cd_complete : ∀ (st : DLogStatement) (secret : ℕ) (r : ℕ), 2 ^ 128 < st.N →
    Int.gcd st.g st.N = 1 → Int.gcd st.ni st.N = 1 →
    st.g ^ secret * st.ni ≡ 1 [ZMOD st.N] → cdVerify (cdProve st secret r) st = some true

end Verif
