import Verif.Model.CCLST19.Protocol

/-!
# A signing session of the two-party protocols

What happens when honest parties run one signing session.  Party two is given the message; the functions that
party one calls have no argument for it.
-/

namespace Verif.Spec

open EC Crypto

/-- The values of one Lindell17 session: the shares `x1`, `x2`, the nonces `k1`, `k2` and every random sample. -/
structure LindellSession [Crypto] where
  dk : DecKey
  x1 : Sc
  x2 : Sc
  k1 : Sc
  k2 : Sc
  n1 : Sc
  n2 : Sc
  b1 : ℤ
  b2 : ℤ
  rk : ℤ
  rho : ℤ
  r : ℤ

/-- The samples are in the ranges from which the code draws them, and the Paillier modulus is large enough for
the protocol. -/
structure LindellSession.Fair [Crypto] (s : LindellSession) : Prop where
  valid : s.dk.Valid
  large : (q : ℤ) ^ 3 + (q : ℤ) ^ 2 ≤ s.dk.n
  k1 : s.k1 ≠ 0
  k2 : s.k2 ≠ 0
  rho : 0 ≤ s.rho ∧ s.rho < (q : ℤ) ^ 2
  rk : Int.gcd s.rk s.dk.n = 1
  r : Int.gcd s.r s.dk.n = 1

/-- The public key as party one computes it. -/
def LindellSession.key [Crypto] (s : LindellSession) : Pt :=
  Lindell17.compute_pubkey (.set_private_key ⟨s.x1 • G, s.x1⟩ (.generate s.dk ⟨s.x1 • G, s.x1⟩ s.rk)) (s.x2 • G)

/-- Party two, given the message `m`, sends `c3`, and party one outputs `sig`. -/
def LindellSession.Outputs [Crypto] (s : LindellSession) (m : ℤ) (sig : Lindell17.Signature) : Prop :=
  let key := Lindell17.PaillierKeyPair.generate s.dk ⟨s.x1 • G, s.x1⟩ s.rk
  let o1 := Lindell17.eph_create s.k1 s.n1
  let o2 := Lindell17.eph_create_commitments s.k2 s.n2 s.b1 s.b2
  ∃ c3,
    Lindell17.PartialSig.compute key.ek key.encrypted_share (.set_private_key ⟨s.x2 • G, s.x2⟩) o2.2.2
      o1.1.public_share m s.rho s.r = .ok c3 ∧
    Lindell17.Signature.compute (.set_private_key ⟨s.x1 • G, s.x1⟩ key) c3 o1.2 o2.2.1.public_share = .ok sig

/-- The values of one CCLST19 session. -/
structure CclSession [Crypto] where
  x1 : Sc
  x2 : Sc
  k1 : Sc
  k2 : Sc
  n1 : Sc
  n2 : Sc
  b1 : ℤ
  b2 : ℤ
  seed : ℤ
  rk : ℕ
  re : ℕ
  r : ℕ

/-- The public key as party one computes it. -/
def CclSession.key [Crypto] [CL] (s : CclSession) : Pt :=
  CCLST19.compute_pubkey
    (.set_private_key ⟨s.x1 • G, s.x1⟩ (CCLST19.HSMCL.generate ⟨s.x1 • G, s.x1⟩ s.seed s.rk s.re).1) (s.x2 • G)

/-- Party two, given the message `m`, sends `c3`, and party one outputs `sig`. -/
def CclSession.Outputs [Crypto] [CL] (s : CclSession) (m : ℤ) (sig : Lindell17.Signature) : Prop :=
  let h := (CCLST19.HSMCL.generate ⟨s.x1 • G, s.x1⟩ s.seed s.rk s.re).1
  let o1 := CCLST19.eph_create s.k1 s.n1
  let o2 := CCLST19.eph_create_commitments s.k2 s.n2 s.b1 s.b2
  ∃ c3,
    CCLST19.PartialSig.compute ⟨h.cl_group, h.public_, h.encrypted_share⟩
      (.set_private_key ⟨s.x2 • G, s.x2⟩) o2.2.2 o1.1.public_share m s.r = .ok c3 ∧
    CCLST19.Signature.compute h (.set_private_key ⟨s.x1 • G, s.x1⟩ h) c3 o1.2 o2.2.1.public_share = .ok sig

end Verif.Spec
