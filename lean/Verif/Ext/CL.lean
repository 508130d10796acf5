import Verif.Ext.Crypto

/-!
# Castagnos-Laguillaumie encryption (`class_group` crate)

`two_party_ecdsa/cclst_2019` uses linearly homomorphic encryption of scalars in class groups with a
proof that a ciphertext encrypts a discrete logarithm.  The crate is not in `/repo`; the interface is a
class whose laws (decryption, homomorphic operations, completeness of the proof and of the setup
check) are assumptions about the dependency.  No soundness is assumed.
-/

namespace Verif

class CL [Crypto] where
  /-- `CLGroup` -/
  Grp : Type
  /-- `SK` -/
  SK : Type
  /-- `PK` -/
  PK : Type
  /-- `Ciphertext` -/
  Ct : Type
  /-- `CLDLProof` -/
  Proof : Type
  /-- `CLGroup::new_from_setup(&1348, seed)` -/
  new_from_setup : ℤ → Grp
  /-- `CLGroup::setup_verify(seed).is_ok()` -/
  setup_verify : Grp → ℤ → Bool
  /-- `CLGroup::keygen()`; the last argument is the randomness -/
  keygen : Grp → ℕ → SK × PK
  /-- `encrypt(group, pk, m)`; the last argument is the randomness -/
  encrypt : Grp → PK → Sc → ℕ → Ct
  /-- `eval_scal(c, v)` -/
  eval_scal : Ct → ℤ → Ct
  /-- `eval_sum(c, c')` -/
  eval_sum : Ct → Ct → Ct
  /-- `decrypt(group, sk, c)` -/
  decrypt : Grp → SK → Ct → Sc
  /-- `verifiably_encrypt(group, pk, (x, X))`; the last argument is the randomness -/
  verifiably_encrypt : Grp → PK → Sc → EC.Pt → ℕ → Ct × Proof
  /-- `CLDLProof::verify(group, pk, c, X).is_ok()` -/
  verify : Proof → Grp → PK → Ct → EC.Pt → Bool
  /-- `c` encrypts `m` under the key. -/
  IsEnc : Grp → PK → Ct → Sc → Prop
  isEnc_encrypt : ∀ g pk m r, IsEnc g pk (encrypt g pk m r) m
  isEnc_verifiably : ∀ g pk x r, IsEnc g pk (verifiably_encrypt g pk x (x • EC.G) r).1 x
  isEnc_scal : ∀ g pk c m v, IsEnc g pk c m → IsEnc g pk (eval_scal c v) ((v : Sc) * m)
  isEnc_sum : ∀ g pk c c' m m', IsEnc g pk c m → IsEnc g pk c' m' →
    IsEnc g pk (eval_sum c c') (m + m')
  decrypt_isEnc : ∀ g r c m, IsEnc g (keygen g r).2 c m → decrypt g (keygen g r).1 c = m
  verify_complete : ∀ g pk x r, verify (verifiably_encrypt g pk x (x • EC.G) r).2 g pk
    (verifiably_encrypt g pk x (x • EC.G) r).1 (x • EC.G) = true
  setup_complete : ∀ seed, setup_verify (new_from_setup seed) seed = true

/-- A trivial scheme meeting the laws (a ciphertext is its plaintext), so that they are consistent.
Used in executable examples only. -/
@[reducible] def CL.trivial [Crypto] : CL where
  Grp := ℤ
  SK := Unit
  PK := Unit
  Ct := Sc
  Proof := Bool
  new_from_setup := id
  setup_verify g seed := decide (g = seed)
  keygen _ _ := ((), ())
  encrypt _ _ m _ := m
  eval_scal c v := (v : Sc) * c
  eval_sum c c' := c + c'
  decrypt _ _ c := c
  verifiably_encrypt _ _ x _ _ := (x, true)
  verify b _ _ _ _ := b
  IsEnc _ _ c m := c = m
  isEnc_encrypt _ _ _ _ := rfl
  isEnc_verifiably _ _ _ _ := rfl
  isEnc_scal _ _ _ _ _ h := by rw [h]
  isEnc_sum _ _ _ _ _ _ h h' := by rw [h, h']
  decrypt_isEnc _ _ _ _ h := h
  verify_complete _ _ _ _ := rfl
  setup_complete seed := by simp

end Verif
