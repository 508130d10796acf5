import Verif.Base.EC
import Verif.Model.Error

/-!
# GG20: local signature, output and verification

Models `src/protocols/multi_party_ecdsa/gg_2020/party_i.rs`, lines 850-936, and
`.../state_machine/sign.rs`, lines 624-646 with `.../sign/rounds.rs`, lines 647-693.
-/

namespace Verif

open EC

variable [EC]

/-- `Scalar::invert`: `None` exactly at zero (curv). (used in gg_2020/party_i.rs, lines 639 and 914) -/
def scInvert (s : Sc) : Option Sc := if s = 0 then none else some s⁻¹

/-- `Scalar::from(&P.x_coord().mod_floor(group_order))` once the coordinate is known.
(gg_2020/party_i.rs, lines 856-862, 878-883, 924-930) -/
def scOfCoord (x : ℕ) : Sc := ((x % q : ℕ) : Sc)

namespace GG20

/-- gg_2020/party_i.rs 130-135, `SignatureRecid`. -/
structure SignatureRecid where
  r : Sc
  s : Sc
  recid : ℕ
  deriving DecidableEq

/-- gg_2020/party_i.rs 121-128, `LocalSignature`. -/
structure LocalSignature where
  r : Sc
  R : Pt
  s_i : Sc
  m : ℤ
  y : Pt

/-- gg_2020/party_i.rs 913-936, `verify`.  `invert().unwrap()` and `x_coord().unwrap()` panic. -/
def verify (sig : SignatureRecid) (y : Pt) (message : ℤ) : Res Error Unit := do
  let b ← Res.ofOption (scInvert sig.s)
  let a : Sc := (message : Sc)
  let u1 := a * b
  let u2 := sig.r * b
  let gu1 := u1 • G
  let yu2 := u2 • y
  let x ← Res.ofOption (xc (gu1 + yu2))
  if sig.r = scOfCoord x then Res.ok () else Res.err Error.InvalidSig

/-- gg_2020/party_i.rs 850-871, `LocalSignature::phase7_local_sig`. -/
def phase7_local_sig (k_i : Sc) (message : ℤ) (R : Pt) (sigma_i : Sc) (pubkey : Pt) :
    Res Error LocalSignature := do
  let m_fe : Sc := (message : Sc)
  let x ← Res.ofOption (xc R)
  let r := scOfCoord x
  let s_i := m_fe * k_i + r * sigma_i
  Res.ok { r := r, R := R, s_i := s_i, m := message, y := pubkey }

/-- gg_2020/party_i.rs 873-910, `LocalSignature::output_signature`. -/
def LocalSignature.output_signature (self : LocalSignature) (s_vec : List Sc) :
    Res Error SignatureRecid := do
  let s := s_vec.foldl (fun acc x => acc + x) self.s_i
  let s_bn : ℤ := s.val
  let x ← Res.ofOption (xc self.R)
  let r := scOfCoord x
  let y ← Res.ofOption (yc self.R)
  let ry := y % q
  let is_ry_odd := ry % 2 = 1
  let recid := if is_ry_odd then 1 else 0
  let s_tag_bn : ℤ := q - s_bn
  let sr : Sc × ℕ := if s_bn > s_tag_bn then ((s_tag_bn : Sc), recid ^^^ 1) else (s, recid)
  let sig : SignatureRecid := { r := r, s := sr.1, recid := sr.2 }
  let ver ← Res.isOk (verify sig self.y self.m)
  if ver then Res.ok sig else Res.err Error.InvalidSig

/-- gg_2020/state_machine/sign/rounds.rs 647-655, `CompletedOfflineStage`: the fields read by the
online stage (`sign_keys.k_i`, `R`, `sigma_i`, `local_key.y_sum_s`).  The fields `i`, `t_vec` and
the rest of the keys are not read by the online stage and are omitted here. -/
structure CompletedOfflineStage where
  k_i : Sc
  R : Pt
  sigma_i : Sc
  y_sum_s : Pt

/-- sign/rounds.rs 657-661, `CompletedOfflineStage::public_key`. -/
def CompletedOfflineStage.public_key (c : CompletedOfflineStage) : Pt := c.y_sum_s

/-- sign.rs 630-637, `SignManual::new`, through sign/rounds.rs 672-685, `Round7::new`: returns the
state and the partial signature to broadcast. -/
def SignManual.new (message : ℤ) (c : CompletedOfflineStage) :
    Res Error (LocalSignature × Sc) := do
  let l ← phase7_local_sig c.k_i message c.R c.sigma_i c.y_sum_s
  Res.ok (l, l.s_i)

/-- sign.rs 641-645, `SignManual::complete`, through sign/rounds.rs 687-692. -/
def SignManual.complete (st : LocalSignature) (sigs : List Sc) : Res Error SignatureRecid :=
  st.output_signature sigs

end GG20
end Verif
