import Verif.Spec.RareRecid
import Verif.Spec.Sign
import Verif.Spec.Demo

/-!
# Specification: sessions with the same nonce (C141)
-/

namespace Verif.Spec

open EC Crypto

/-- What is given in a GG20 signing session: the key, the list of signers, the position of the signer whose nonce share
is drawn, and the nonce shares of the others. -/
structure Gg20Session [Crypto] where
  t : ℕ
  n : ℕ
  x : ℕ → Sc
  d : Sc
  dk : ℕ → DecKey
  sts : List DLogStatement
  s_l : List ℕ
  key : ℕ → GG20.LocalKey
  pos : ℕ
  k : ℕ → Sc

/-- There are enough signers, and their shares make up the key. -/
structure Gg20Session.Fits [Crypto] (s : Gg20Session) : Prop where
  shares : Reconstructs s.t s.n s.x s.d
  enough : s.t + 1 ≤ s.s_l.length
  pos_lt : s.pos < s.s_l.length

/-- With the nonce share `u` of the signer at position `pos` and some values of all other samples, all signers following
the program, a signer ends the offline stage with the nonce point `R`. -/
def Gg20Session.Nonce [Crypto] (s : Gg20Session) (u : Sc) (R : Pt) : Prop :=
  ∃ rnd cs, HonestSigners s.n (s.d • G) s.x s.dk s.sts s.s_l s.key rnd ∧ (rnd s.pos).k = u ∧
    (∀ j < s.s_l.length, j ≠ s.pos → (rnd j).k = s.k j) ∧
    GG20.Sign.offline s.s_l s.key rnd = .ok cs ∧ ∃ c ∈ cs, c.R = R

/-- The same for a session of GG18 demo clients. -/
structure Gg18Session [Crypto] where
  t : ℕ
  n : ℕ
  x : ℕ → Sc
  d : Sc
  dk : ℕ → DecKey
  s_l : List ℕ
  key : ℕ → Demo.Keygen.KeyFile
  message : ℤ
  pos : ℕ
  k : ℕ → Sc

/-- There are enough signers, and their shares make up the key. -/
structure Gg18Session.Fits [Crypto] (s : Gg18Session) : Prop where
  shares : Reconstructs s.t s.n s.x s.d
  enough : s.t + 1 ≤ s.s_l.length
  pos_lt : s.pos < s.s_l.length

/-- With the nonce share `u` of the client at position `pos` and some values of all other samples, all clients following
the program, the session ends with the signature `sig`. Excluded are nonces for which the signature would be zero. -/
def Gg18Session.Signs [Crypto] (s : Gg18Session) (u : Sc) (sig : GG18.SignatureRecid) : Prop :=
  ∃ rnd, Spec.GG18.HonestRoom s.n (s.d • G) s.x s.dk s.s_l s.key rnd ∧ (rnd (s.pos + 1)).k = u ∧
    (∀ j < s.s_l.length, j ≠ s.pos → (rnd (j + 1)).k = s.k j) ∧
    (∀ xr y, coords ((∑ j ∈ Finset.range s.s_l.length, (rnd (j + 1)).k)⁻¹ • (G : Pt)) = some (xr, y) →
      (s.message : Sc) + (xr : Sc) * s.d ≠ 0) ∧
    Demo.Sign.run (s.s_l.length - 1) s.key s.message rnd = .ok (List.replicate s.s_l.length sig)

end Verif.Spec
