import Mathlib.Data.Nat.Digits.Defs
import Verif.Base.Res

/-!
# Big integers and bytes

`BigInt::to_bytes` and `BigInt::from_bytes` of `curv` (arithmetic over GMP): big-endian, without the sign.
-/

namespace Verif

/-- `curv`, `BigInt::to_bytes`: the big-endian bytes of the absolute value, no leading zeros; one zero byte
for zero (`mpz_sizeinbase` of zero is one). -/
def toBytes (n : ℤ) : List UInt8 :=
  if n = 0 then [0] else (Nat.digits 256 n.natAbs).reverse.map UInt8.ofNat

/-- `curv`, `BigInt::from_bytes`: the number with these big-endian bytes. -/
def fromBytes (bs : List UInt8) : ℕ := Nat.ofDigits 256 (bs.reverse.map UInt8.toNat)

/-- The last `k` bytes of a number, big-endian (the fixed-size encodings of scalars and coordinates). -/
def beBytes : ℕ → ℕ → List UInt8
  | 0, _ => []
  | k + 1, n => beBytes k (n / 256) ++ [UInt8.ofNat (n % 256)]

/-- `vec![0u8; 32 - bytes.len()]` followed by the bytes.  The subtraction panics for more than 32 bytes
(without overflow checks it wraps, and the allocation panics). -/
def pad32 {ε : Type} (bs : List UInt8) : Res ε (List UInt8) :=
  if bs.length ≤ 32 then .ok (List.replicate (32 - bs.length) 0 ++ bs) else .panic

end Verif
