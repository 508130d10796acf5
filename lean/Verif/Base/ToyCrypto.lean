import Verif.Base.Toy
import Verif.Ext.Crypto

/-!
# A toy instance of the hash and proof interface

Arithmetic stand-ins for SHA-256 and trivial third-party proofs, over the 31-point curve.  Used only
in executable examples.
-/

namespace Verif.Toy

@[reducible] def crypto : Crypto :=
  { inst with
    hashCom := fun a b => 1000003 * a + b
    hashPts := fun l => l.foldl (fun acc (x : ZMod 31) => 3 * acc + x + 1) (0 : ZMod 31)
    hashPtsInt := fun l => l.foldl (fun acc (x : ZMod 31) => 37 * acc + x.val + 1) (0 : ℤ)
    hashInts := fun l => (l.foldl (fun acc x => (5 * acc + x + 1) % 31) (0 : ℤ)).natAbs
    CKProof := Unit
    ckProve := fun _ => ()
    ckVerify := fun _ _ => some true
    ck_complete := fun _ _ _ => rfl
    CDProof := Bool
    cdProve := fun _ _ _ => true
    cdVerify := fun b _ => some b
    cd_complete := fun _ _ _ _ _ _ _ => rfl }

end Verif.Toy
