import Verif.Ext.LibSecp
import Verif.Model.Demo.GG18Clients

/-!
# The message of the signing demos, and the final check of the GG18 one

Models `check_sig` of `examples/common.rs` (lines 192-232), the conversions of the command-line argument to
a number (`examples/gg18_sign_client.rs`, lines 36-41 and 312; `examples/gg20_signing.rs`, line 66), and
the end of the GG18 signing client (lines 479-505).
-/

namespace Verif.Demo

open EC

/-- `hex::decode`, one digit: `0`-`9`, `a`-`f` and `A`-`F`.
(dependency, used in gg18_sign_client.rs, line 37) -/
def hexVal (c : UInt8) : Option UInt8 :=
  if 48 ≤ c ∧ c ≤ 57 then some (c - 48)
  else if 97 ≤ c ∧ c ≤ 102 then some (c - 87)
  else if 65 ≤ c ∧ c ≤ 70 then some (c - 55)
  else none

/-- `hex::decode`: fails on an odd length or a character that is no digit.
(dependency, used in gg18_sign_client.rs, line 37) -/
def hexDecode : List UInt8 → Option (List UInt8)
  | [] => some []
  | [_] => none
  | a :: b :: rest => do
    let h ← hexVal a
    let l ← hexVal b
    let bs ← hexDecode rest
    some ((h * 16 + l) :: bs)

/-- gg18_sign_client.rs 36-41: the argument is hex-decoded if that is possible, else its bytes are used. -/
def gg18MessageBytes (message_str : List UInt8) : List UInt8 :=
  match hexDecode message_str with
  | some x => x
  | none => message_str

/-- gg18_sign_client.rs, lines 36-41 and 312: `message_bn`. -/
def gg18Message (message_str : List UInt8) : ℤ := fromBytes (gg18MessageBytes message_str)

/-- gg20_signing.rs 65-68: the number that is signed for the `data_to_sign` argument. -/
def gg20Message (data_to_sign : List UInt8) : ℤ := fromBytes data_to_sign

section

variable [EC]

/-- `curv`, `Point::to_bytes(false)`: the identity is one zero byte.
(dependency, used in common.rs, line 206) -/
def uncompressed (P : Pt) : List UInt8 :=
  match coords P with
  | none => [0]
  | some (x, y) => 4 :: (beBytes 32 x ++ beBytes 32 y)

/-- common.rs 192-232, `check_sig`. -/
def check_sig (L : LibSecp.Lib) (r s : Sc) (msg : ℤ) (pk : Pt) : Res Empty Unit := do
  let msg ← pad32 (toBytes msg)
  let msg ← Res.ofOption (LibSecp.messageFromSlice msg)
  let raw_pk := uncompressed pk
  let raw_pk := if raw_pk.length = 64 then 4 :: raw_pk else raw_pk
  let pk ← Res.ofOption (L.parsePk raw_pk)
  let bytes_r ← pad32 (beBytes 32 r.val)
  let bytes_s ← pad32 (beBytes 32 s.val)
  let secp_sig ← Res.ofOption (LibSecp.signatureFromCompact (bytes_r ++ bytes_s))
  Res.assert (LibSecp.verify msg secp_sig pk)

end

variable [Crypto]

/-- gg18_sign_client.rs 36-505: the signing client for a message argument; the result is the signature it
writes to the file `signature`. -/
def Sign.main (L : LibSecp.Lib) (t : ℕ) (message_str : List UInt8) (rnd : ℕ → Sign.Rand) (party_num : ℕ)
    (key : Keygen.KeyFile) (b : Sign.Posted) : Res Empty GG18.SignatureRecid := do
  let sig ← Sign.client t (gg18Message message_str) rnd party_num key b
  check_sig L sig.r sig.s (gg18Message message_str) key.y_sum
  .ok sig

end Verif.Demo
