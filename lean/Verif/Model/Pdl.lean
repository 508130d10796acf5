import Verif.Ext.RangeNi
import Verif.Ext.Sigma

/-!
# The interactive PDL proof

Models `src/utilities/zk_pdl/mod.rs`.  Random samples are arguments.  `RangeProofNi` is opaque.
-/

namespace Verif.Pdl

open EC Crypto RangeNi

variable [Crypto] [RangeNi]

/-- zk_pdl/mod.rs, lines 39-45, `ZkPdlError` -/
inductive ZkPdlError where
  | Message2
  | Finalize
  deriving DecidableEq, Repr

/-- zk_pdl/mod.rs, lines 47-53, `PDLStatement` -/
structure Statement where
  ciphertext : ℤ
  ek : ℕ
  Q : Pt
  G : Pt

/-- zk_pdl/mod.rs, lines 54-59, `PDLWitness` -/
structure Witness where
  x : Sc
  r : ℤ
  dk : DecKey

/-- zk_pdl/mod.rs, lines 61-70, `PDLVerifierState` -/
structure VerifierState where
  c_tag : ℤ
  c_tag_tag : ℤ
  a : ℤ
  b : ℤ
  blindness : ℤ
  q_tag : Pt
  c_hat : ℤ

/-- zk_pdl/mod.rs, lines 97-101, `PDLProverDecommit`; `PDLProverSecondMessage` (lines 103-106) wraps it -/
structure ProverDecommit where
  q_hat : Pt
  blindness : ℤ

/-- zk_pdl/mod.rs, lines 72-76, `PDLProverState` -/
structure ProverState where
  decommit : ProverDecommit
  alpha : ℤ

/-- zk_pdl/mod.rs, lines 78-82, `PDLVerifierFirstMessage` -/
structure VerifierFirstMessage where
  c_tag : ℤ
  c_tag_tag : ℤ

/-- zk_pdl/mod.rs, lines 84-88, `PDLProverFirstMessage` -/
structure ProverFirstMessage where
  c_hat : ℤ
  range_proof : RPProof

/-- zk_pdl/mod.rs, lines 90-95, `PDLVerifierSecondMessage` -/
structure VerifierSecondMessage where
  a : ℤ
  b : ℤ
  blindness : ℤ

/-- `a + (b << a.bit_length())` (lines 126 and 222-226) -/
def abConcat (a b : ℤ) : ℤ := a + b * 2 ^ bitLength a

/-- zk_pdl/mod.rs, lines 112-148, `Verifier::message1`; `a_fe`, `b`, `blindness` and the encryption
randomness `r` are sampled. -/
def verifierMessage1 (st : Statement) (a_fe : Sc) (b blindness r : ℤ) :
    VerifierFirstMessage × VerifierState :=
  let a : ℤ := a_fe.val
  let b_fe : Sc := (b : Sc)
  let b_enc := Paillier.encrypt st.ek b r
  let ac := Paillier.mul st.ek st.ciphertext a_fe.val
  let c_tag := Paillier.add st.ek ac b_enc
  let c_tag_tag := hashCom (abConcat a b) blindness
  let q_tag := a_fe • st.Q + b_fe • st.G
  (⟨c_tag, c_tag_tag⟩, ⟨c_tag, c_tag_tag, a, b, blindness, q_tag, 0⟩)

/-- zk_pdl/mod.rs, lines 150-168, `Verifier::message2`: the state is updated whether the range proof is
acceptable or not. -/
def verifierMessage2 (m : ProverFirstMessage) (st : Statement) (state : VerifierState) :
    Res ZkPdlError VerifierSecondMessage × VerifierState :=
  let state' := { state with c_hat := m.c_hat }
  match rpVerify m.range_proof st.ek st.ciphertext with
  | none => (.panic, state)
  | some true => (.ok ⟨state.a, state.b, state.blindness⟩, state')
  | some false => (.err .Message2, state')

/-- zk_pdl/mod.rs, lines 170-187, `Verifier::finalize` -/
def verifierFinalize (m1 : ProverFirstMessage) (m2 : ProverDecommit) (state : VerifierState) :
    Res ZkPdlError Unit :=
  let c_hat_test := hashCom (ser m2.q_hat) m2.blindness
  if m1.c_hat = c_hat_test ∧ m2.q_hat = state.q_tag then .ok () else .err .Finalize

/-- zk_pdl/mod.rs, lines 191-214, `Prover::message1`; `blindness` and the coins of the range proof are
sampled. -/
def proverMessage1 (w : Witness) (st : Statement) (m : VerifierFirstMessage) (blindness : ℤ)
    (coins : RPCoins) : Res ZkPdlError (ProverFirstMessage × ProverState) :=
  match Paillier.decrypt w.dk m.c_tag with
  | none => .panic
  | some alpha =>
    let q_hat := (alpha : Sc) • st.G
    let c_hat := hashCom (ser q_hat) blindness
    let range_proof := rpProve st.ek q st.ciphertext w.x.val w.r coins
    .ok (⟨c_hat, range_proof⟩, ⟨⟨q_hat, blindness⟩, alpha⟩)

/-- zk_pdl/mod.rs, lines 216-241, `Prover::message2` -/
def proverMessage2 (m1 : VerifierFirstMessage) (m2 : VerifierSecondMessage) (w : Witness)
    (state : ProverState) : Res ZkPdlError ProverDecommit :=
  let c_tag_tag_test := hashCom (abConcat m2.a m2.b) m2.blindness
  let alpha_test := m2.a * w.x.val + m2.b
  if alpha_test = state.alpha ∧ m1.c_tag_tag = c_tag_tag_test then .ok state.decommit
  else .err .Message2

end Verif.Pdl
