import Verif.Model.RangeProofs
import Verif.Model.Error

/-!
# The multiplicative-to-additive exchange

Models `src/utilities/mta/mod.rs`.  Random samples are arguments; an abort inside big-integer
arithmetic is a panic.
-/

namespace Verif

open EC Crypto

variable [Crypto]

/-- mta/mod.rs, lines 34-38, `MessageA` -/
structure MessageA where
  c : ℤ
  range_proofs : List AliceProof
  deriving DecidableEq

/-- mta/mod.rs, lines 40-45, `MessageB` -/
structure MessageB where
  c : ℤ
  b_proof : DLogProof
  beta_tag_proof : DLogProof
  deriving DecidableEq

/-- mta/mod.rs, lines 76-81: one range proof per statement; `rs` gives the samples of the proof for
the statement at each position. -/
def aliceProofs (a c : ℤ) (N : ℕ) (r : ℤ) (rs : ℕ → AliceRand) :
    ℕ → List DLogStatement → Option (List AliceProof)
  | _, [] => some []
  | k, st :: sts => do
    let pf ← AliceProof.generate a c N st r (rs k)
    let rest ← aliceProofs a c N r rs (k + 1) sts
    some (pf :: rest)

/-- mta/mod.rs, lines 62-87, `MessageA::a_with_predefined_randomness`; `MessageA::a` (lines 52-60) is
the same with a sampled `r`. -/
def MessageA.a (a : Sc) (N : ℕ) (r : ℤ) (sts : List DLogStatement) (rs : ℕ → AliceRand) :
    Option MessageA := do
  let c_a := Paillier.encrypt N a.val r
  let pfs ← aliceProofs a.val c_a N r rs 0 sts
  some ⟨c_a, pfs⟩

/-- mta/mod.rs, lines 123-131: `zip`, `map` and `all`, which stops at the first failure. -/
def allVerify (c : ℤ) (N : ℕ) : List (AliceProof × DLogStatement) → Option Bool
  | [] => some true
  | (pf, st) :: rest => do
    if (← pf.verify c N st) then allVerify c N rest else some false

/-- mta/mod.rs, lines 111-158, `MessageB::b_with_predefined_randomness`; `MessageB::b` (lines 91-109) is
the same with sampled `r` and `beta_tag`.  `t_b`, `t_beta` are the nonces of the two proofs. -/
def MessageB.b (b : Sc) (N : ℕ) (m_a : MessageA) (r beta_tag : ℤ) (sts : List DLogStatement)
    (t_b t_beta : Sc) : Res Error (MessageB × Sc) :=
  if m_a.range_proofs.length ≠ sts.length then .err .InvalidKey else
  match allVerify m_a.c N (m_a.range_proofs.zip sts) with
  | none => .panic
  | some false => .err .InvalidKey
  | some true =>
    let beta_tag_fe : Sc := (beta_tag : Sc)
    let c_beta_tag := Paillier.encrypt N beta_tag r
    let b_c_a := Paillier.mul N m_a.c b.val
    let c_b := Paillier.add N b_c_a c_beta_tag
    let beta := 0 - beta_tag_fe
    .ok (⟨c_b, DLogProof.prove b t_b, DLogProof.prove beta_tag_fe t_beta⟩, beta)

/-- mta/mod.rs, lines 160-179, `MessageB::verify_proofs_get_alpha`; a decryption key whose constants
cannot be inverted makes `decrypt` panic. -/
def MessageB.verify_proofs_get_alpha (m : MessageB) (dk : DecKey) (a : Sc) : Res Error (Sc × ℤ) :=
  match Paillier.decrypt dk m.c with
  | none => .panic
  | some alice_share =>
    let alpha : Sc := (alice_share : Sc)
    let g_alpha : Pt := alpha • G
    let ba_btag := a • m.b_proof.pk + m.beta_tag_proof.pk
    if m.b_proof.verify && m.beta_tag_proof.verify && decide (ba_btag = g_alpha) then
      .ok (alpha, alice_share)
    else .err .InvalidKey

/-- mta/mod.rs, lines 183-202, `MessageB::verify_proofs_get_alpha_gg18`; `dk` is the key inside the
`PartyPrivate` (its `decrypt`, gg_2018/party_i.rs lines 327-329, is `Paillier::decrypt`). -/
def MessageB.verify_proofs_get_alpha_gg18 (m : MessageB) (dk : DecKey) (a : Sc) : Res Error Sc :=
  match Paillier.decrypt dk m.c with
  | none => .panic
  | some alice_share =>
    let alpha : Sc := (alice_share : Sc)
    let g_alpha : Pt := alpha • G
    let ba_btag := a • m.b_proof.pk + m.beta_tag_proof.pk
    if m.b_proof.verify && m.beta_tag_proof.verify && decide (ba_btag = g_alpha) then .ok alpha
    else .err .InvalidKey

/-- mta/mod.rs, lines 204-209, `MessageB::verify_b_against_public` -/
def MessageB.verify_b_against_public (public_gb mta_gb : Pt) : Bool := decide (public_gb = mta_gb)

end Verif
