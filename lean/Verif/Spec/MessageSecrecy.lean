import Verif.Spec.ZeroKnowledge
import Verif.Model.Mta
import Mathlib.Data.ZMod.Basic

/-!
# Messages computed without the sender's secret

Samples are uniform in the sets named here.
-/

namespace Verif.Spec

open EC Crypto

variable [Crypto]

/-! ### Lindell17: party two's partial signature -/

/-- rho and the randomness of the encryption (lindell_2017/party_two.rs, lines 404 and 408) -/
def partialSamples (n : ℕ) : Finset (ℤ × ℤ) := below ((q : ℤ) ^ 2) ×ˢ below n

/-- A ciphertext computed from party one's nonce and the signature. -/
def partialSim (n : ℕ) (k1 s : Sc) (ω : ℤ × ℤ) : ℤ := Paillier.encrypt n (ω.1 * q + (k1 * s).val) ω.2

/-! ### Bob's answer in the share conversion -/

/-- All scalars.  `Scalar::random()` draws from these, but never returns zero; that changes probabilities by at most
`1 / q`. -/
def scalars : Finset Sc :=
  have : NeZero q := ⟨q_pos.ne'⟩
  Finset.univ

/-- `DLogProof::prove(sk)` with nonce `t`, if the challenge is `e`. -/
def dlogAnswer (sk e t : Sc) : DLogProof := ⟨sk • G, t • G, t - e * sk⟩

/-- The same from the point. -/
def dlogSim (P : Pt) (e z : Sc) : DLogProof := ⟨P, z • G + e • P, z⟩

/-- beta_tag, the randomness of the encryption and the nonces of the two proofs (mta/mod.rs, lines 97-98 and 139-140) -/
def mtaSamples (n : ℕ) : Finset (ℤ × ℤ × Sc × Sc) := below n ×ˢ below n ×ˢ scalars ×ˢ scalars

/-- Bob's answer if the challenges of his two proofs are `e1` and `e2`. -/
def mtaAnswer (b : Sc) (n : ℕ) (m_a : MessageA) (sts : List DLogStatement) (e1 e2 : Sc)
    (ω : ℤ × ℤ × Sc × Sc) : Res Error MessageB := do
  let out ← MessageB.b b n m_a ω.2.1 ω.1 sts ω.2.2.1 ω.2.2.2
  .ok { out.1 with b_proof := dlogAnswer b e1 ω.2.2.1, beta_tag_proof := dlogAnswer (ω.1 : Sc) e2 ω.2.2.2 }

/-- The same from Alice's plaintext `a` and Bob's point `B`. -/
def mtaSim (n : ℕ) (a : ℤ) (B : Pt) (e1 e2 : Sc) (ω : ℤ × ℤ × Sc × Sc) : MessageB :=
  ⟨Paillier.encrypt n ω.1 ω.2.1, dlogSim B e1 ω.2.2.1, dlogSim ((ω.1 : Sc) • G - (a : Sc) • B) e2 ω.2.2.2⟩

end Verif.Spec
