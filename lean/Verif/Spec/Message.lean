import Mathlib.Data.List.Basic

/-! # Specification: strings and hexadecimal spelling -/

namespace Verif.Spec

/-- The bytes of a text in ASCII. -/
def ascii (s : String) : List UInt8 := s.toList.map (fun c => UInt8.ofNat c.toNat)

/-- The character of a hexadecimal digit (lower case). -/
def hexChar (d : ℕ) : UInt8 := if d < 10 then UInt8.ofNat (48 + d) else UInt8.ofNat (87 + d)

/-- The hexadecimal spelling of a byte string, two characters for a byte. -/
def hexOf (bs : List UInt8) : List UInt8 :=
  bs.flatMap (fun b => [hexChar (b.toNat / 16), hexChar (b.toNat % 16)])

/-- Printable ASCII: from space to tilde. -/
def Printable (bs : List UInt8) : Prop := ∀ c ∈ bs, 32 ≤ c ∧ c ≤ 126

end Verif.Spec
