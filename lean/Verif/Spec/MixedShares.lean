import Verif.Spec.WhoseMessage

/-!
# Two-party signing with shares that do not belong together

The session `s` says what party two has: its share `s.x2` and a ciphertext of `s.x1`.  Party one has the share
`own1` and has recorded the public share of party two for the share `own2`; if everything is in order then
`own1 = s.x1` and `own2 = s.x2`.
-/

namespace Verif.Spec

open EC Crypto

/-- The Lindell17 public key that party one has. -/
def LindellSession.ownKey [Crypto] (s : LindellSession) (own1 own2 : Sc) : Pt :=
  Lindell17.compute_pubkey (.set_private_key ⟨own1 • G, own1⟩ (.generate s.dk ⟨s.x1 • G, s.x1⟩ s.rk)) (own2 • G)

/-- Party two, given the message `m`, sends `c3`, and party one, with its own share, outputs `sig`. -/
def LindellSession.OutputsWith [Crypto] (s : LindellSession) (own1 : Sc) (m : ℤ) (sig : Lindell17.Signature) : Prop :=
  let key := Lindell17.PaillierKeyPair.generate s.dk ⟨s.x1 • G, s.x1⟩ s.rk
  let o1 := Lindell17.eph_create s.k1 s.n1
  let o2 := Lindell17.eph_create_commitments s.k2 s.n2 s.b1 s.b2
  ∃ c3,
    Lindell17.PartialSig.compute key.ek key.encrypted_share (.set_private_key ⟨s.x2 • G, s.x2⟩) o2.2.2
      o1.1.public_share m s.rho s.r = .ok c3 ∧
    Lindell17.Signature.compute (.set_private_key ⟨own1 • G, own1⟩ key) c3 o1.2 o2.2.1.public_share = .ok sig

/-- The CCLST19 public key that party one has. -/
def CclSession.ownKey [Crypto] [CL] (s : CclSession) (own1 own2 : Sc) : Pt :=
  CCLST19.compute_pubkey
    (.set_private_key ⟨own1 • G, own1⟩ (CCLST19.HSMCL.generate ⟨s.x1 • G, s.x1⟩ s.seed s.rk s.re).1) (own2 • G)

/-- Party two, given the message `m`, sends `c3`, and party one, with its own share, outputs `sig`. -/
def CclSession.OutputsWith [Crypto] [CL] (s : CclSession) (own1 : Sc) (m : ℤ) (sig : Lindell17.Signature) : Prop :=
  let h := (CCLST19.HSMCL.generate ⟨s.x1 • G, s.x1⟩ s.seed s.rk s.re).1
  let o1 := CCLST19.eph_create s.k1 s.n1
  let o2 := CCLST19.eph_create_commitments s.k2 s.n2 s.b1 s.b2
  ∃ c3,
    CCLST19.PartialSig.compute ⟨h.cl_group, h.public_, h.encrypted_share⟩
      (.set_private_key ⟨s.x2 • G, s.x2⟩) o2.2.2 o1.1.public_share m s.r = .ok c3 ∧
    CCLST19.Signature.compute h (.set_private_key ⟨own1 • G, own1⟩ h) c3 o1.2 o2.2.1.public_share = .ok sig

end Verif.Spec
