import Verif.Ext.Centipede
import Verif.Model.GG20.Keygen
import Verif.Model.GG18.Keygen
import Verif.Model.Lindell17.Keygen

/-!
# Encrypted backups of secret shares ("used for verifiable recovery"), and decryption by a key holder

The functions `to_encrypted_segment` of the three protocols that have one, and `PartyPrivate::decrypt`.
`r k` is the random value used for segment `k`.
-/

namespace Verif

open EC Crypto Centipede

variable [Crypto]

/-- gg_2020/party_i.rs, lines 503-511, `PartyPrivate::to_encrypted_segment` -/
def GG20.PartyPrivate.to_encrypted_segment (pp : GG20.PartyPrivate) (segment_size num_of_segments : ℕ)
    (pub_ke_y g : Pt) (r : ℕ → Sc) : Witness × List Helgamal :=
  to_encrypted_segments pp.u_i segment_size num_of_segments pub_ke_y g r

/-- gg_2018/party_i.rs, lines 361-369, `PartyPrivate::to_encrypted_segment` -/
def GG18.PartyPrivate.to_encrypted_segment (pp : GG18.PartyPrivate) (segment_size num_of_segments : ℕ)
    (pub_ke_y g : Pt) (r : ℕ → Sc) : Witness × List Helgamal :=
  to_encrypted_segments pp.u_i segment_size num_of_segments pub_ke_y g r

/-- lindell_2017/party_one.rs, lines 299-307, `Party1Private::to_encrypted_segment` -/
def Lindell17.Party1Private.to_encrypted_segment (pp : Lindell17.Party1Private)
    (segment_size num_of_segments : ℕ) (pub_ke_y g : Pt) (r : ℕ → Sc) : Witness × List Helgamal :=
  to_encrypted_segments pp.x1 segment_size num_of_segments pub_ke_y g r

/-- lindell_2017/party_two.rs, lines 249-257, `Party2Private::to_encrypted_segment` -/
def Lindell17.Party2Private.to_encrypted_segment (pp : Lindell17.Party2Private)
    (segment_size num_of_segments : ℕ) (pub_ke_y g : Pt) (r : ℕ → Sc) : Witness × List Helgamal :=
  to_encrypted_segments pp.x2 segment_size num_of_segments pub_ke_y g r

/-- gg_2020/party_i.rs, lines 455-457, `PartyPrivate::decrypt` -/
def GG20.PartyPrivate.decrypt (pp : GG20.PartyPrivate) (ciphertext : ℤ) : Option ℤ :=
  Paillier.decrypt pp.dk ciphertext

/-- gg_2018/party_i.rs, lines 327-329, `PartyPrivate::decrypt` -/
def GG18.PartyPrivate.decrypt (pp : GG18.PartyPrivate) (ciphertext : ℤ) : Option ℤ :=
  Paillier.decrypt pp.dk ciphertext

end Verif
