import Verif.Model.RangeProofs
import Verif.Model.PdlSlack
import Mathlib.Order.Interval.Finset.Defs
import Mathlib.Data.Int.Interval
import Mathlib.Data.Finset.Prod

/-!
# Statistical closeness, and proofs computed without the witness

A party's samples range over a finite set `S`, uniformly.  `v` and `w` compute what is seen from the samples.
-/

namespace Verif.Spec

open EC Crypto

section
variable {Ω α : Type}

open Classical in
/-- The number of samples with a property. -/
noncomputable def count (S : Finset Ω) (P : Ω → Prop) : ℕ := (S.filter P).card

/-- Few samples have the property: at most `num / den` of them. -/
def Rare (num den : ℕ) (S : Finset Ω) (P : Ω → Prop) : Prop := den * count S P ≤ num * S.card

/-- No test tells `v` and `w` apart with an advantage above `num / den`. -/
def Within (num den : ℕ) (S : Finset Ω) (v w : Ω → α) : Prop :=
  ∀ P : α → Prop,
    den * |(count S (fun ω => P (v ω)) : ℤ) - count S (fun ω => P (w ω))| ≤ num * S.card

end

/-- `BigInt::sample_below(n)` -/
def below (n : ℤ) : Finset ℤ := Finset.Ico 0 n

/-- `BigInt::from_modulo(n)` -/
def unitsBelow (n : ℤ) : Finset ℤ := (Finset.Ico 0 n).filter fun x => Int.gcd x n = 1

section
variable [Crypto]

/-! ### Alice's range proof -/

/-- alpha, beta, gamma, ro (range_proofs.rs, lines 47-50) -/
def aliceSamples (N : ℕ) (Nt : ℤ) : Finset (ℤ × ℤ × ℤ × ℤ) :=
  below ((q : ℤ) ^ 3) ×ˢ unitsBelow N ×ˢ below ((q : ℤ) ^ 3 * Nt) ×ˢ below (q * Nt)

/-- The proof of a prover that gets the challenge `e`. -/
def aliceAnswer (N : ℕ) (st : DLogStatement) (a r e : ℤ) (ω : ℤ × ℤ × ℤ × ℤ) : Option AliceProof := do
  let rnd : AliceRand := ⟨ω.1, ω.2.1, ω.2.2.1, ω.2.2.2⟩
  let r1 ← AliceZkpRound1.make N st a rnd
  AliceProof.respond N a r rnd r1.z e

/-- The same without the secret: the responses are chosen, and the commitment is to zero. -/
def aliceSim (st : DLogStatement) (e : ℤ) (ω : ℤ × ℤ × ℤ × ℤ) : Option AliceProof := do
  let z ← commitInts st 0 ω.2.2.2
  some { z := z, e := e, s := ω.2.1, s1 := ω.1, s2 := ω.2.2.1 }

/-! ### Bob's range proof -/

/-- alpha, beta, gamma, ro, ro_prim, sigma, tau (range_proofs.rs, lines 230-236) -/
def bobSamples (N : ℕ) (Nt : ℤ) : Finset (ℤ × ℤ × ℤ × ℤ × ℤ × ℤ × ℤ) :=
  below ((q : ℤ) ^ 3) ×ˢ unitsBelow N ×ˢ below ((q : ℤ) ^ 2 * N) ×ˢ below (q * Nt) ×ˢ
    below ((q : ℤ) ^ 3 * Nt) ×ˢ below (q * Nt) ×ˢ below ((q : ℤ) ^ 3 * Nt)

/-- The proof of a prover that gets the challenge `e`, with the point of its nonce if `check`. -/
def bobAnswer (N : ℕ) (st : DLogStatement) (b : Sc) (beta_prim a_encrypted r : ℤ) (check : Bool) (e : ℤ)
    (ω : ℤ × ℤ × ℤ × ℤ × ℤ × ℤ × ℤ) : Option (BobProof × Option Pt) := do
  let rnd : BobRand := ⟨ω.1, ω.2.1, ω.2.2.1, ω.2.2.2.1, ω.2.2.2.2.1, ω.2.2.2.2.2.1, ω.2.2.2.2.2.2⟩
  let r1 ← BobZkpRound1.make N st b beta_prim a_encrypted rnd
  let pf ← BobProof.respond N b beta_prim r rnd r1.t r1.z e
  some (pf, if check then some ((rnd.alpha : Sc) • G) else none)

/-- The same from the point `X` only. -/
def bobSim (st : DLogStatement) (X : Pt) (check : Bool) (e : ℤ) (ω : ℤ × ℤ × ℤ × ℤ × ℤ × ℤ × ℤ) :
    Option (BobProof × Option Pt) := do
  let z ← commitInts st 0 ω.2.2.2.1
  let t ← commitInts st 0 ω.2.2.2.2.2.1
  some ({ t := t, z := z, e := e, s := ω.2.1, s1 := ω.1, s2 := ω.2.2.2.2.1, t1 := ω.2.2.1,
          t2 := ω.2.2.2.2.2.2 },
    if check then some ((ω.1 : Sc) • G - (e : Sc) • X) else none)

/-! ### The PDL proof with slack -/

/-- alpha, beta, rho, gamma (zk_pdl_with_slack/mod.rs, lines 73-77) -/
def pdlSamples (N : ℕ) (Nt : ℤ) : Finset (ℤ × ℤ × ℤ × ℤ) :=
  below ((q : ℤ) ^ 3) ×ˢ Finset.Ico (1 : ℤ) ((N : ℤ) - 1) ×ˢ below (q * Nt) ×ˢ below ((q : ℤ) ^ 3 * Nt)

/-- The proof of a prover that gets the challenge `e`. -/
def pdlAnswer (w : PDLwSlackWitness) (st : PDLwSlackStatement) (e : ℤ) (ω : ℤ × ℤ × ℤ × ℤ) :
    Option PDLwSlackProof := do
  let z ← commitmentUnknownOrder st.h1 st.h2 st.N_tilde w.x.val ω.2.2.1
  let u2 ← commitmentUnknownOrder (st.ek + 1) ω.2.1 (st.ek * st.ek) ω.1 st.ek
  let u3 ← commitmentUnknownOrder st.h1 st.h2 st.N_tilde ω.1 ω.2.2.2
  let s2 ← commitmentUnknownOrder w.r ω.2.1 st.ek e 1
  some { z := z, u1 := (ω.1 : Sc) • st.G, u2 := u2, u3 := u3, s1 := e * w.x.val + ω.1, s2 := s2,
         s3 := e * ω.2.2.1 + ω.2.2.2 }

/-- The same from the statement only: the responses are chosen, and the first message is computed from them. -/
def pdlSim (st : PDLwSlackStatement) (e : ℤ) (ω : ℤ × ℤ × ℤ × ℤ) : Option PDLwSlackProof := do
  let z ← commitmentUnknownOrder st.h1 st.h2 st.N_tilde 0 ω.2.2.1
  let c ← commitmentUnknownOrder (st.ek + 1) ω.2.1 (st.ek * st.ek) ω.1 st.ek
  let u2 ← commitmentUnknownOrder c st.ciphertext (st.ek * st.ek) 1 (-e)
  let d ← commitmentUnknownOrder st.h1 st.h2 st.N_tilde ω.1 ω.2.2.2
  let u3 ← commitmentUnknownOrder d z st.N_tilde 1 (-e)
  some { z := z, u1 := (ω.1 : Sc) • st.G - (e : Sc) • st.Q, u2 := u2, u3 := u3, s1 := ω.1, s2 := ω.2.1,
         s3 := ω.2.2.2 }

end
end Verif.Spec
