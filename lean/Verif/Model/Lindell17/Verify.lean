import Verif.Model.GG20.Signature

/-!
# Lindell17 and CCLST19: signature verification

Models `two_party_ecdsa/lindell_2017/party_one.rs` 567-592 and
`two_party_ecdsa/cclst_2019/party_one.rs` 394-419.  In these modules `r` and `s` are `BigInt`s,
so they may be negative or unreduced.
-/

namespace Verif

open EC

variable [EC]

namespace Lindell17

/-- lindell_2017/party_one.rs 90-94, `Signature` (cclst_2019/party_one.rs 89-93 is identical). -/
structure Signature where
  s : ℤ
  r : ℤ
  deriving DecidableEq

/-- lindell_2017/party_one.rs 567-592, `verify`.  `BigInt::to_bytes` is the big-endian magnitude
(the sign is dropped), so comparing the byte strings of `r` and of the x-coordinate compares
`|r|` with `x`. -/
def verify (signature : Signature) (pubkey : Pt) (message : ℤ) : Res Error Unit := do
  let s_fe : Sc := (signature.s : Sc)
  let rx_fe : Sc := (signature.r : Sc)
  let s_inv_fe ← Res.ofOption (scInvert s_fe)
  let e_fe : Sc := ((message % (q : ℤ) : ℤ) : Sc)
  let u1 := s_inv_fe • e_fe • G
  let u2 := s_inv_fe • rx_fe • pubkey
  let x ← Res.ofOption (xc (u1 + u2))
  if signature.r.natAbs = x ∧ signature.s < (q : ℤ) - signature.s then Res.ok ()
  else Res.err Error.InvalidSig

end Lindell17

namespace CCLST19

/-- cclst_2019/party_one.rs 394-419, `verify`: as Lindell17, but `invert` failing is an error
instead of a panic. -/
def verify (signature : Lindell17.Signature) (pubkey : Pt) (message : ℤ) : Res Error Unit := do
  let s_fe : Sc := (signature.s : Sc)
  let rx_fe : Sc := (signature.r : Sc)
  let s_inv_fe ← (match scInvert s_fe with
    | some a => Res.ok a
    | none => Res.err Error.InvalidSig)
  let e_fe : Sc := ((message % (q : ℤ) : ℤ) : Sc)
  let u1 := s_inv_fe • e_fe • G
  let u2 := s_inv_fe • rx_fe • pubkey
  let x ← Res.ofOption (xc (u1 + u2))
  if signature.r.natAbs = x ∧ signature.s < (q : ℤ) - signature.s then Res.ok ()
  else Res.err Error.InvalidSig

end CCLST19
end Verif
