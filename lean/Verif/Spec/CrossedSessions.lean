import Verif.Spec.WhoseMessage

/-!
# Two-party signing with messages of two sessions

The session `s` is the one in which party two computes its partial signature.  Party one completes it with its
ephemeral key pair of a session with the nonces `k1` (its own, proof nonce `n1`) and `k2` (party two's there).
-/

namespace Verif.Spec

open EC Crypto

/-- Lindell17: party one outputs `sig`. -/
def LindellSession.OutputsIn [Crypto] (s : LindellSession) (k1 n1 k2 : Sc) (m : ℤ) (sig : Lindell17.Signature) : Prop :=
  let key := Lindell17.PaillierKeyPair.generate s.dk ⟨s.x1 • G, s.x1⟩ s.rk
  let o1 := Lindell17.eph_create s.k1 s.n1
  let o2 := Lindell17.eph_create_commitments s.k2 s.n2 s.b1 s.b2
  ∃ c3,
    Lindell17.PartialSig.compute key.ek key.encrypted_share (.set_private_key ⟨s.x2 • G, s.x2⟩) o2.2.2
      o1.1.public_share m s.rho s.r = .ok c3 ∧
    Lindell17.Signature.compute (.set_private_key ⟨s.x1 • G, s.x1⟩ key) c3 (Lindell17.eph_create k1 n1).2 (k2 • G) =
      .ok sig

/-- CCLST19: party one outputs `sig`. -/
def CclSession.OutputsIn [Crypto] [CL] (s : CclSession) (k1 n1 k2 : Sc) (m : ℤ) (sig : Lindell17.Signature) : Prop :=
  let h := (CCLST19.HSMCL.generate ⟨s.x1 • G, s.x1⟩ s.seed s.rk s.re).1
  let o1 := CCLST19.eph_create s.k1 s.n1
  let o2 := CCLST19.eph_create_commitments s.k2 s.n2 s.b1 s.b2
  ∃ c3,
    CCLST19.PartialSig.compute ⟨h.cl_group, h.public_, h.encrypted_share⟩
      (.set_private_key ⟨s.x2 • G, s.x2⟩) o2.2.2 o1.1.public_share m s.r = .ok c3 ∧
    CCLST19.Signature.compute h (.set_private_key ⟨s.x1 • G, s.x1⟩ h) c3 (CCLST19.eph_create k1 n1).2 (k2 • G) =
      .ok sig

end Verif.Spec
