import Verif.Ext.Digest

/-!
# What is hashed

The byte strings that commitments and challenges are digests of, and what it means that two of them collide.
A collision is always stated about two given strings: that *some* two strings collide is true of every hash
function with a bounded output.
-/

namespace Verif.Spec

open EC

/-- These two byte strings are different and have the same digest. -/
def Collide (H : List UInt8 → List UInt8) (m m' : List UInt8) : Prop := m ≠ m' ∧ H m = H m'

/-- The bytes of several numbers, each without leading zeroes -/
def intBytes (l : List ℤ) : List UInt8 := l.flatMap toBytes

/-- The bytes of several points, 65 for each point other than the point at infinity -/
def ptBytes [EC] (l : List Pt) : List UInt8 := l.flatMap Digest.uncompressed

/-- One of two numbers has bytes that are the first bytes of the other's, and they are different numbers.  For
two digests this needs one of them to begin with a zero byte. -/
def ProperPrefix (a b : ℤ) : Prop := toBytes a ≠ toBytes b ∧ (toBytes a <+: toBytes b ∨ toBytes b <+: toBytes a)

/-- No counter makes the digest of the points and the counter a number below the group order. -/
def NoScalar [EC] (H : List UInt8 → List UInt8) (l : List Pt) : Prop :=
  ∀ i < 2 ^ 32, q ≤ fromBytes (H (ptBytes l ++ beBytes 4 i))

/-- Two openings of a commitment to a point show the same point, or the strings hashed for them collide. -/
def SamePoint [EC] (H : List UInt8 → List UInt8) (P : Pt) (b : ℤ) (P' : Pt) (b' : ℤ) : Prop :=
  P = P' ∨ Collide H (intBytes [ser P, b]) (intBytes [ser P', b'])

/-- Two openings of a commitment to the digest of points show the same points, or the strings hashed for them
collide, or the two digests differ and one without its leading zeroes is the beginning of the other. -/
def SamePoints [EC] (H : List UInt8 → List UInt8) (l : List Pt) (b : ℤ) (l' : List Pt) (b' : ℤ) : Prop :=
  l = l' ∨ Collide H (ptBytes l) (ptBytes l') ∨
    Collide H (intBytes [Digest.ptsInt H l, b]) (intBytes [Digest.ptsInt H l', b']) ∨
    ProperPrefix (Digest.ptsInt H l) (Digest.ptsInt H l')

/-- Two challenges made from points are the same only if the points are, or if strings hashed for them collide, or
if one of them was made from points for which no counter works. -/
def SameChallenge [EC] (H : List UInt8 → List UInt8) (l l' : List Pt) : Prop :=
  l = l' ∨ (∃ i i', Collide H (ptBytes l ++ beBytes 4 i) (ptBytes l' ++ beBytes 4 i')) ∨ NoScalar H l ∨ NoScalar H l'

end Verif.Spec
