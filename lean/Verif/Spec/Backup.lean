import Verif.Ext.Centipede
import Verif.Model.GG20.KeygenRun
import Verif.Model.Demo.GG18Keygen

/-!
# What the parties hold after key generation, and what a backup is for
-/

namespace Verif.Spec

open EC Crypto Centipede

variable [Crypto]

/-- From the encrypted part of the backup `b`, the holder of the recovery key `y` (for the base point `g`)
obtains `s`. -/
def RestoredBy (y : Sc) (g : Pt) (size : ℕ) (b : Witness × List Helgamal) (s : Sc) : Prop :=
  decrypt b.2 g y size = some s

/-- The secret shares that party `k + 1` holds after a key generation of GG20 with the random values `rnd`, in
which it got `key`. -/
def gg20Holds (rnd : ℕ → GG20.KeygenRandomness) (k : ℕ) (key : GG20.LocalKey) : GG20.PartyPrivate :=
  GG20.PartyPrivate.set_private (GG20.Keys.create (k + 1) (rnd k).u (rnd k).dk (rnd k).aux) key.keys_linear

/-- The secret shares of a party of the GG18 demo according to its key file
(examples/gg18_sign_client.rs, line 131). -/
def gg18Holds (file : Demo.Keygen.KeyFile) : GG18.PartyPrivate :=
  GG18.PartyPrivate.set_private file.party_keys file.shared_keys

end Verif.Spec
