import Verif.Model.Demo.GG18Sign

/-!
# One GG18 demo client among arbitrary peers

The sections of `main` of the two clients one after the other.  What the client finds under the keys of its
peers is arbitrary.
-/

namespace Verif.Demo

open EC Crypto GG18

variable [Crypto]

/-- What the other parties post for a key generation client, by party number
(gg18_keygen_client.rs, lines 68-75, 93-100, 156-163, 191-198, 232-233: the answers of the polls) -/
structure Keygen.Posted (A : Aead) where
  b1 : ℕ → KeyGenBroadcastMessage1
  b2 : ℕ → KeyGenDecommitMessage1
  b3 : ℕ → A.Ct
  b4 : ℕ → Vss
  b5 : ℕ → DLogProof

/-- gg18_keygen_client.rs, lines 56-263 -/
def Keygen.client (A : Aead) (t n : ℕ) (rnd : ℕ → Keygen.Rand) (i : ℕ) (b : Keygen.Posted A) :
    Res Empty Keygen.KeyFile := do
  let (st1, _) := Keygen.start i (rnd i)
  let (st2, _) ← Keygen.round2 i st1 (poll i n b.b1)
  let (st3, _) ← Keygen.round3 A ⟨t, n⟩ rnd i st2 (poll i n b.b2)
  let (st4, _) ← Keygen.round4 A ⟨t, n⟩ i st3 (poll i n b.b3)
  let (st5, _) ← Keygen.round5 ⟨t, n⟩ rnd i st4 (poll i n b.b4)
  Keygen.finish ⟨t, n⟩ i st5 (poll i n b.b5)

/-- What the other signers post for a signing client, by number in the signing room
(gg18_sign_client.rs, lines 78-85, 120-127, 197-204, 257-264, 284-291, 328-335, 359-366, 412-419, 438-445,
479-480: the answers of the polls) -/
structure Sign.Posted where
  b0 : ℕ → ℕ
  b1 : ℕ → SignBroadcastPhase1 × MessageA
  b2 : ℕ → MessageB × MessageB
  b3 : ℕ → Sc
  b4 : ℕ → SignDecommitPhase1
  b5 : ℕ → Phase5Com1
  b6 : ℕ → Sign.Open5a
  b7 : ℕ → Phase5Com2
  b8 : ℕ → Phase5DDecom2
  b9 : ℕ → Sc

/-- gg18_sign_client.rs, lines 66-478: up to the release of the partial signature -/
def Sign.release (t : ℕ) (message : ℤ) (rnd : ℕ → Sign.Rand) (i : ℕ) (key : Keygen.KeyFile)
    (b : Sign.Posted) : Res Empty (Sign.St9 × List (Msg Sc)) := do
  let (key, _) := Sign.start i key
  let (ctx, _) ← Sign.round1 t rnd i key (poll i (t + 1) b.b0)
  let (st2, _) ← Sign.round2 t rnd i ctx (poll i (t + 1) b.b1)
  let (st3, _) ← Sign.round3 t i st2 (poll i (t + 1) b.b2)
  let (st4, _) ← Sign.round4 i st3 (poll i (t + 1) b.b3)
  let (st5, _) ← Sign.round5 message rnd i st4 (poll i (t + 1) b.b4)
  let (st6, _) ← Sign.round6 i st5 (poll i (t + 1) b.b5)
  let (st7, _) ← Sign.round7 t rnd i st6 (poll i (t + 1) b.b6)
  let (st8, _) ← Sign.round8 i st7 (poll i (t + 1) b.b7)
  Sign.round9 t i st8 (poll i (t + 1) b.b8)

/-- gg18_sign_client.rs, lines 66-488 -/
def Sign.client (t : ℕ) (message : ℤ) (rnd : ℕ → Sign.Rand) (i : ℕ) (key : Keygen.KeyFile)
    (b : Sign.Posted) : Res Empty GG18.SignatureRecid := do
  let (st9, _) ← Sign.release t message rnd i key b
  Sign.finish i st9 (poll i (t + 1) b.b9)

end Verif.Demo
