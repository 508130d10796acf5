import Verif.Model.GG20.Signature

/-!
# GG18: output and verification

Models `src/protocols/multi_party_ecdsa/gg_2018/party_i.rs`, lines 674-737.
-/

namespace Verif.GG18

open EC

variable [EC]

/-- gg_2018/party_i.rs 140-145, `SignatureRecid`. -/
structure SignatureRecid where
  r : Sc
  s : Sc
  recid : ℕ
  deriving DecidableEq

/-- gg_2018/party_i.rs 105-113, `LocalSignature`. -/
structure LocalSignature where
  l_i : Sc
  rho_i : Sc
  R : Pt
  s_i : Sc
  m : ℤ
  y : Pt

/-- `Option::ok_or(Error::InvalidSig)?` (gg_2018/party_i.rs, lines 605, 682, 688, 715, 729) -/
def okOrInvalidSig {α : Type} : Option α → Res Error α
  | some a => Res.ok a
  | none => Res.err Error.InvalidSig

/-- gg_2018/party_i.rs 714-737, `verify`. -/
def verify (sig : SignatureRecid) (y : Pt) (message : ℤ) : Res Error Unit := do
  let b ← okOrInvalidSig (scInvert sig.s)
  let a : Sc := (message : Sc)
  let u1 := a * b
  let u2 := sig.r * b
  let gu1 := u1 • G
  let yu2 := u2 • y
  let x ← okOrInvalidSig (xc (gu1 + yu2))
  if sig.r = scOfCoord x then Res.ok () else Res.err Error.InvalidSig

/-- gg_2018/party_i.rs 674-711, `LocalSignature::output_signature`. -/
def LocalSignature.output_signature (self : LocalSignature) (s_vec : List Sc) :
    Res Error SignatureRecid := do
  let s := self.s_i + s_vec.sum
  let s_bn : ℤ := s.val
  let x ← okOrInvalidSig (xc self.R)
  let r := scOfCoord x
  let y ← okOrInvalidSig (yc self.R)
  let ry := y % q
  let is_ry_odd := ry % 2 = 1
  let recid := if is_ry_odd then 1 else 0
  let s_tag_bn : ℤ := q - s_bn
  let sr : Sc × ℕ := if s_bn > s_tag_bn then ((s_tag_bn : Sc), recid ^^^ 1) else (s, recid)
  let sig : SignatureRecid := { r := r, s := sr.1, recid := sr.2 }
  let ver ← Res.isOk (verify sig self.y self.m)
  if ver then Res.ok sig else Res.err Error.InvalidSig

end Verif.GG18
