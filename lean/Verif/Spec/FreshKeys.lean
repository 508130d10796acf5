import Verif.Model.CCLST19.Protocol
import Verif.Model.Demo.GG18Keygen
import Verif.Model.GG20.KeygenRun
import Verif.Model.Lindell17.Keygen
import Mathlib.Logic.Function.Basic

/-!
# Public keys of key generations

Specification for C142: which public key a key generation gives when one party draws a certain secret.
-/

namespace Verif.Spec

open EC Crypto

section
variable [Crypto]

/-- A GG20 key generation in which party `i` draws `u` ends for all parties with the public key `Y`. -/
def Gg20Key (t n i : ℕ) (rnd : ℕ → GG20.KeygenRandomness) (u : Sc) (Y : Pt) : Prop :=
  ∃ keys, GG20.Keygen.run t n (Function.update rnd i { rnd i with u := u }) = .ok keys ∧
    keys.length = n ∧ ∀ key ∈ keys, key.public_key = Y

/-- A key generation of the GG18 demo in which party `i + 1` draws `u` ends for all parties with the public key `Y`. -/
def Gg18Key (A : Aead) (t n i : ℕ) (rnd : ℕ → Demo.Keygen.Rand) (u : Sc) (Y : Pt) : Prop :=
  ∃ files, Demo.Keygen.run A t n (Function.update rnd (i + 1) { rnd (i + 1) with u := u }) = .ok files ∧
    files.length = n ∧ ∀ file ∈ files, file.y_sum = Y

/-- The public key of a Lindell17 key generation as both parties compute it. -/
def LindellKey (x1 x2 t1 t2 : Sc) (b1 b2 r : ℤ) (dk : DecKey) (Y : Pt) : Prop :=
  let o1 := Lindell17.create_commitments x1 t1 b1 b2
  let o2 := Lindell17.party2_create x2 t2
  let s1 := Lindell17.Party1Private.set_private_key o1.2.2 (Lindell17.PaillierKeyPair.generate dk o1.2.2 r)
  Lindell17.compute_pubkey s1 o2.1.public_share = Y ∧ Lindell17.party2_compute_pubkey o2.2 o1.2.1.public_share = Y

/-- The public key of a CCLST19 key generation as party one computes it. -/
def CclKey [CL] (secret x2 t1 t2 : Sc) (b1 b2 seed : ℤ) (rk re : ℕ) : Pt :=
  let o1 := CCLST19.create_commitments secret t1 b1 b2
  CCLST19.compute_pubkey (CCLST19.Party1Private.set_private_key o1.2.2 (CCLST19.HSMCL.generate o1.2.2 seed rk re).1)
    (CCLST19.party2_create x2 t2).1.public_share

end

end Verif.Spec
