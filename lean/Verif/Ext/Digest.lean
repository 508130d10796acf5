import Verif.Ext.Bytes
import Verif.Base.EC

/-!
# Hashing numbers and points

How `curv` feeds numbers and points to a hash function of byte strings (`DigestExt`, `HashCommitment`): the
encodings are concatenated, nothing separates them.  The hash function is a parameter.
-/

namespace Verif.Digest

open EC

variable (H : List UInt8 → List UInt8)

/-- `chain_bigint(..)....result_bigint()`, also `compute_digest` of `zk-paillier`: the digest of the
concatenated encodings, read as a number. -/
def ints (l : List ℤ) : ℕ := fromBytes (H (l.flatMap toBytes))

/-- `HashCommitment::create_commitment_with_user_defined_randomness(message, blinding_factor)` -/
def com (message blinding : ℤ) : ℤ := ints H [message, blinding]

/-- The first of `f i, f (i + 1), ...` that is there, looking at `fuel` of them -/
def firstOf {α : Type} (f : ℕ → Option α) : ℕ → ℕ → Option α
  | 0, _ => none
  | fuel + 1, i => (f i).or (firstOf f fuel (i + 1))

variable [EC]

/-- `Point::to_bytes(true)`: 33 bytes for a finite point, one zero byte for the point at infinity -/
def compressed (P : Pt) : List UInt8 :=
  match coords P with
  | none => [0]
  | some (x, y) => UInt8.ofNat (2 + y % 2) :: beBytes 32 x

/-- `Point::to_bytes(false)`: 65 bytes for a finite point, one zero byte for the point at infinity -/
def uncompressed (P : Pt) : List UInt8 :=
  match coords P with
  | none => [0]
  | some (x, y) => 4 :: (beBytes 32 x ++ beBytes 32 y)

/-- `chain_points(..).result_bigint()` -/
def ptsInt (l : List Pt) : ℤ := fromBytes (H (l.flatMap uncompressed))

/-- `chain_points(..).result_scalar()`: a counter is appended until the digest is below the group order. -/
def pts (l : List Pt) : Sc :=
  ((firstOf (fun i =>
    let d := fromBytes (H (l.flatMap uncompressed ++ beBytes 4 i))
    if d < q then some (d : Sc) else none) (2 ^ 32) 0).getD 0 : Sc)

end Verif.Digest
