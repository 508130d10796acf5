import Verif.Model.Lindell17.Sign

/-!
# A party two that looks for party one's share

Not part of the code in /repo: the program of a dishonest party two of Lindell17.  It uses what party two
gets in key generation (party one's Paillier modulus `n` and encrypted share `c`, its own share `x2`, the
public key `Y`), and in each signing the nonce point and the answer of party one.
-/

namespace Verif.Spec

open EC Lindell17

variable [Crypto]

/-- A signing as party two sees it: its own nonce, the message, its random numbers, party one's nonce
point, and party one as something that turns a nonce point and a ciphertext into an answer. -/
structure SeenSigning where
  k2 : Sc
  m : ℤ
  rho : ℤ
  r : ℤ
  R1 : Pt
  partyOne : Pt → ℤ → Res Error Signature

/-- The odd number below `2 q` that is `v 2^(l+1)` modulo `q`. -/
def oddMultiple (v : Sc) (l : ℕ) : ℕ :=
  let w := (v * 2 ^ (l + 1)).val
  if w % 2 = 1 then w else w + q

/-- What party two sends instead of its partial signature when it knows the last `l` bits `y` of the
share and asks for the next one. -/
def craftedPartial (n : ℕ) (c : ℤ) (x2 : Sc) (s : SeenSigning) (x l y : ℕ) : ℤ :=
  let v : Sc := s.k2⁻¹ * ((x : Sc) * x2)
  let K := oddMultiple v l * ((n + 1) / 2) ^ (l + 1) % n
  Paillier.add n (Paillier.mul n c K)
    (Paillier.encrypt n ((s.rho * q + (s.k2⁻¹ * (s.m : Sc)).val + v.val * y - K * y) % n) s.r)

/-- One signing: the next bit is 0 exactly if the answer is a valid signature. -/
def askBit (n : ℕ) (c : ℤ) (x2 : Sc) (Y : Pt) (s : SeenSigning) (l y : ℕ) : ℕ :=
  match xc (s.k2 • s.R1) with
  | none => y
  | some x =>
    match s.partyOne (s.k2 • G) (craftedPartial n c x2 s x l y) with
    | .ok sig => if verify sig Y s.m = .ok () then y else y + 2 ^ l
    | _ => y

/-- All signings, one after the other, starting with the last bit. -/
def askBits (n : ℕ) (c : ℤ) (x2 : Sc) (Y : Pt) : List SeenSigning → ℕ → ℕ → ℕ
  | [], _, y => y
  | s :: ss, l, y => askBits n c x2 Y ss (l + 1) (askBit n c x2 Y s l y)

end Verif.Spec
