import Verif.Base.EC
import Verif.Ext.Bytes

/-!
# The `secp256k1` crate

The functions of the `secp256k1` crate (bindings to libsecp256k1) that the demo client calls to check its
signature, as their documentation and the C source describe them.  Parsing of a public key is a parameter.
-/

namespace Verif.LibSecp

open EC

variable [EC]

/-- `Message::from_slice`: 32 bytes or an error. -/
def messageFromSlice (bs : List UInt8) : Option (List UInt8) := if bs.length = 32 then some bs else none

/-- `PublicKey::from_slice`: the only assumptions are that it parses the uncompressed encoding of a finite
point and rejects strings that do not have 33 or 65 bytes. -/
structure Lib where
  parsePk : List UInt8 → Option Pt
  parse_uncompressed : ∀ P x y, coords P = some (x, y) → parsePk (4 :: (beBytes 32 x ++ beBytes 32 y)) = some P
  parse_length : ∀ bs P, parsePk bs = some P → bs.length = 33 ∨ bs.length = 65

/-- `Signature::from_compact`: 64 bytes, two big-endian numbers below the group order. -/
def signatureFromCompact (bs : List UInt8) : Option (Sc × Sc) :=
  if bs.length = 64 then
    let r := fromBytes (bs.take 32)
    let s := fromBytes (bs.drop 32)
    if r < q ∧ s < q then some ((r : Sc), (s : Sc)) else none
  else none

/-- `secp256k1_ecdsa_sig_verify`: the point is computed, and its x-coordinate compared with `r` and, if
that is still a field element, with `r` plus the group order. -/
def sigVerify (r s : Sc) (pk : Pt) (m : Sc) : Bool :=
  if r = 0 ∨ s = 0 then false
  else
    match coords ((m * s⁻¹) • G + (r * s⁻¹) • pk) with
    | none => false
    | some (x, _) => decide (x = r.val) || (decide (r.val + q < p) && decide (x = r.val + q))

/-- `secp256k1_ecdsa_verify`: the message is reduced modulo the group order; `s` must not be high. -/
def verify (msg : List UInt8) (sig : Sc × Sc) (pk : Pt) : Bool :=
  decide (sig.2.val ≤ q / 2) && sigVerify sig.1 sig.2 pk (fromBytes msg : Sc)

end Verif.LibSecp
