import Verif.Base.EC

/-!
# `centipede`: encryption of a secret in segments

The `to_encrypted_segment` functions of the repository call `Msegmentation::to_encrypted_segments` of the
`centipede` crate (version 0.3): the secret is cut into segments of a few bits, and every segment is encrypted
under a recovery key with ElGamal "in the exponent"; the holder of the recovery key decrypts a segment by
trying all its values.  The crate is not part of the repository; this is its code, from memory.  The crate
counts segments in a `u8`; numbers of segments above 256 are not modelled.
-/

namespace Verif.Centipede

open EC

variable [EC]

/-- `centipede::juggling::segmentation::Helgamal` -/
structure Helgamal where
  D : Pt
  E : Pt

/-- `Witness`: the segments and the random values of their encryptions -/
structure Witness where
  x_vec : List Sc
  r_vec : List Sc

/-- `Msegmentation::get_segment_k`: bits `size * k, ..., size * (k + 1) - 1` of the secret -/
def segment (secret : Sc) (size k : ℕ) : Sc := ((secret.val / 2 ^ (size * k) % 2 ^ size : ℕ) : Sc)

/-- `Msegmentation::encrypt_segment_k` -/
def encryptSegment (secret r : Sc) (size k : ℕ) (pub_ke_y g : Pt) : Helgamal :=
  ⟨r • pub_ke_y + segment secret size k • g, r • g⟩

/-- `Msegmentation::to_encrypted_segments`; `r k` is the random value for segment `k`. -/
def to_encrypted_segments (secret : Sc) (size num : ℕ) (pub_ke_y g : Pt) (r : ℕ → Sc) :
    Witness × List Helgamal :=
  (⟨(List.range num).map (segment secret size), (List.range num).map r⟩,
   (List.range num).map (fun k => encryptSegment secret (r k) size k pub_ke_y g))

/-- `Msegmentation::decrypt_segment`: the value below `2 ^ size` that fits, if there is one -/
def decryptSegment (c : Helgamal) (g : Pt) (private_key : Sc) (size : ℕ) : Option Sc :=
  ((List.range (2 ^ size)).find? (fun j : ℕ => decide ((j : Sc) • g = c.D - private_key • c.E))).map
    (fun j : ℕ => (j : Sc))

/-- `Msegmentation::assemble_fe` -/
def assemble (segments : List Sc) (size : ℕ) : Sc :=
  segments.foldr (fun s acc => s + (2 : Sc) ^ size * acc) 0

/-- `Msegmentation::decrypt` -/
def decrypt (cs : List Helgamal) (g : Pt) (private_key : Sc) (size : ℕ) : Option Sc :=
  (cs.mapM (fun c => decryptSegment c g private_key size)).map (fun l => assemble l size)

end Verif.Centipede
