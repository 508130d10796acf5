import Verif.Secp256k1.Instance
import Verif.Lemmas.ZkPaillier
import Verif.Ext.Digest
import Verif.Ext.Sha256

/-!
# The interface with the real curve, SHA-256 and the proofs of `zk-paillier`

Everything that `Crypto` leaves open is filled in, so that every theorem about `Crypto` has an instance in which
nothing is abstract.
-/

namespace Verif.Secp256k1

@[reducible] noncomputable def crypto : Crypto :=
  { inst with
    hashCom := Digest.com Sha256.hash
    hashPts := @Digest.pts Sha256.hash inst
    hashPtsInt := @Digest.ptsInt Sha256.hash inst
    hashInts := Digest.ints Sha256.hash
    CKProof := ZkPaillier.NiCorrectKeyProof
    ckProve := ZkPaillier.NiCorrectKeyProof.prove (Digest.ints Sha256.hash)
    ckVerify := ZkPaillier.NiCorrectKeyProof.verify (Digest.ints Sha256.hash)
    ck_complete := ZkPaillier.NiCorrectKeyProof.complete _
    CDProof := ZkPaillier.CompositeDLogProof
    cdProve := ZkPaillier.CompositeDLogProof.prove (Digest.ints Sha256.hash)
    cdVerify := ZkPaillier.CompositeDLogProof.verify (Digest.ints Sha256.hash)
    cd_complete := ZkPaillier.CompositeDLogProof.complete _ }

end Verif.Secp256k1
