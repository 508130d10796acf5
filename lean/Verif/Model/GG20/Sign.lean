import Verif.Model.GG20.Keygen
import Verif.Model.GG20.Signature
import Verif.Model.PdlSlack
import Verif.Model.Mta

/-!
# GG20 signing: the functions of `party_i.rs`

Models `src/protocols/multi_party_ecdsa/gg_2020/party_i.rs`, lines 101-119, 526-848.  Random samples are
arguments.
-/

namespace Verif

/-- `if j < i { j } else { j + 1 }`: the position of the `j`-th of the other signers, seen from the signer
at position `i`. (gg_2020/party_i.rs, lines 652, 737; sign/rounds.rs, line 261) -/
def otherInd (i j : ℕ) : ℕ := if j < i then j else j + 1

/-- `usize::try_into::<u16>().unwrap()` (gg_2020/party_i.rs, lines 396-399, 532, 552-555) -/
def toU16 {ε : Type} (i : ℕ) : Res ε ℕ := if i < 65536 then .ok i else .panic

namespace GG20

open EC Crypto

variable [Crypto]

/-- party_i.rs, lines 101-108, `SignKeys` -/
structure SignKeys where
  w_i : Sc
  g_w_i : Pt
  k_i : Sc
  gamma_i : Sc
  g_gamma_i : Pt

/-- party_i.rs, lines 110-113, `SignBroadcastPhase1` -/
structure SignBroadcastPhase1 where
  com : ℤ
  deriving DecidableEq

/-- party_i.rs, lines 115-119, `SignDecommitPhase1` -/
structure SignDecommitPhase1 where
  blind_factor : ℤ
  g_gamma_i : Pt
  deriving DecidableEq

/-- party_i.rs, lines 527-544, `SignKeys::g_w_vec`.  The parameter `vss_scheme` is passed on to
`map_share_to_new_params`, which does not use it. -/
def SignKeys.g_w_vec {ε : Type} (pk_vec : List Pt) (s : List ℕ) : Res ε (List Pt) := do
  let s ← Res.mapM toU16 s
  Res.mapM (fun i => do
    let si ← Res.get s i
    let li ← Res.ofOption (mapShareToNewParams si s)
    let pk ← Res.get pk_vec si
    .ok (li • pk)) (List.range s.length)

/-- party_i.rs, lines 390-403, `Keys::update_commitments_to_xi`; the parameter `vss_scheme` as above. -/
def update_commitments_to_xi {ε : Type} (comm : Pt) (index : ℕ) (s : List ℕ) : Res ε Pt := do
  let s ← Res.mapM toU16 s
  let index ← toU16 index
  let li ← Res.ofOption (mapShareToNewParams index s)
  .ok (li • comm)

/-- party_i.rs, lines 546-571, `SignKeys::create`; `gamma_i`, `k_i` are sampled. -/
def SignKeys.create {ε : Type} (private_x_i : Sc) (index : ℕ) (s : List ℕ) (gamma_i k_i : Sc) :
    Res ε SignKeys := do
  let s ← Res.mapM toU16 s
  let index ← toU16 index
  let li ← Res.ofOption (mapShareToNewParams index s)
  let w_i := li * private_x_i
  .ok { w_i := w_i, g_w_i := w_i • G, k_i := k_i, gamma_i := gamma_i, g_gamma_i := gamma_i • G }

/-- party_i.rs, lines 573-589, `SignKeys::phase1_broadcast`; `blind_factor` is sampled. -/
def SignKeys.phase1_broadcast (k : SignKeys) (blind_factor : ℤ) :
    SignBroadcastPhase1 × SignDecommitPhase1 :=
  let g_gamma_i : Pt := k.gamma_i • G
  (⟨hashCom (ser g_gamma_i) blind_factor⟩, ⟨blind_factor, k.g_gamma_i⟩)

/-- party_i.rs, lines 591-604, `SignKeys::phase2_delta_i` -/
def SignKeys.phase2_delta_i {ε : Type} (k : SignKeys) (alpha_vec beta_vec : List Sc) : Res ε Sc := do
  Res.assert (alpha_vec.length = beta_vec.length)
  .ok ((List.zipWith (· + ·) alpha_vec beta_vec).foldl (· + ·) (k.k_i * k.gamma_i))

/-- party_i.rs, lines 606-618, `SignKeys::phase2_sigma_i` -/
def SignKeys.phase2_sigma_i {ε : Type} (k : SignKeys) (miu_vec ni_vec : List Sc) : Res ε Sc := do
  Res.assert (miu_vec.length = ni_vec.length)
  .ok ((List.zipWith (· + ·) miu_vec ni_vec).foldl (· + ·) (k.k_i * k.w_i))

/-- party_i.rs, lines 620-634, `SignKeys::phase3_compute_t_i`; `l` and the nonces of the proof are
sampled. -/
def phase3_compute_t_i (sigma_i l s1 s2 : Sc) : Pt × Sc × PedersenProof :=
  (sigma_i • G + l • H, l, PedersenProof.prove sigma_i l s1 s2)

/-- party_i.rs, lines 635-640, `SignKeys::phase3_reconstruct_delta` -/
def phase3_reconstruct_delta {ε : Type} (delta_vec : List Sc) : Res ε Sc :=
  Res.ofOption (scInvert (delta_vec.foldl (· + ·) 0))

/-- party_i.rs, lines 650-667: the test of `phase4` for the `j`-th of the other signers -/
def phase4_test (b_proof_vec : List DLogProof) (decoms : List SignDecommitPhase1)
    (bc1_vec : List SignBroadcastPhase1) (index j : ℕ) : Res ErrorType Bool := do
  let ind := otherInd index j
  let b_proof ← Res.get b_proof_vec j
  let d ← Res.get decoms ind
  if b_proof.pk = d.g_gamma_i then do
    let bc ← Res.get bc1_vec ind
    .ok (decide (hashCom (ser d.g_gamma_i) d.blind_factor = bc.com))
  else .ok false

/-- party_i.rs, lines 642-687, `SignKeys::phase4` -/
def phase4 (delta_inv : Sc) (b_proof_vec : List DLogProof) (decoms : List SignDecommitPhase1)
    (bc1_vec : List SignBroadcastPhase1) (index : ℕ) : Res ErrorType Pt := do
  let (ok, bad) ← allPush (phase4_test b_proof_vec decoms bc1_vec index)
    (List.range b_proof_vec.length)
  match decoms with
  | [] => .panic
  | head :: tail =>
    if ok then .ok (delta_inv • tail.foldl (fun acc x => acc + x.g_gamma_i) head.g_gamma_i)
    else .err ⟨"bad gamma_i decommit", bad.map (otherInd index)⟩

/-- The statement of party_i.rs, lines 702-710 and 738-746 -/
def pdlStatement (R_dash R : Pt) (k_ciphertext : ℤ) (ek : ℕ) (st : DLogStatement) :
    PDLwSlackStatement :=
  { ciphertext := k_ciphertext, ek := ek, Q := R_dash, G := R, h1 := st.g, h2 := st.ni,
    N_tilde := st.N }

/-- party_i.rs, lines 691-717, `LocalSignature::phase5_proof_pdl` -/
def phase5_proof_pdl {ε : Type} (R_dash R : Pt) (k_ciphertext : ℤ) (ek : ℕ) (k_i : Sc)
    (k_enc_randomness : ℤ) (st : DLogStatement) (rnd : PdlRand) : Res ε PDLwSlackProof :=
  Res.ofOption (PDLwSlackProof.prove ⟨k_i, k_enc_randomness⟩
    (pdlStatement R_dash R k_ciphertext ek st) rnd)

/-- party_i.rs, lines 735-756: the test of `phase5_verify_pdl` for the `j`-th proof -/
def phase5_pdl_test (proofs : List PDLwSlackProof) (R_dash R : Pt) (k_ciphertext : ℤ) (ek : ℕ)
    (sts : List DLogStatement) (s : List ℕ) (i j : ℕ) : Res ErrorType Bool := do
  let ind := otherInd i j
  let si ← Res.get s ind
  let st ← Res.get sts si
  let pf ← Res.get proofs j
  Res.ofOption (pf.verify (pdlStatement R_dash R k_ciphertext ek st))

/-- party_i.rs, lines 719-766, `LocalSignature::phase5_verify_pdl`.  (`s.len() - 1` for an empty `s` is an
overflow panic.) -/
def phase5_verify_pdl (proofs : List PDLwSlackProof) (R_dash R : Pt) (k_ciphertext : ℤ) (ek : ℕ)
    (sts : List DLogStatement) (s : List ℕ) (i : ℕ) : Res ErrorType Unit :=
  if s.length = 0 then .panic else
  if proofs.length ≠ s.length - 1 then .err ⟨"Bad PDLwSlack proof", [i]⟩ else do
  let (ok, bad) ← allPush (phase5_pdl_test proofs R_dash R k_ciphertext ek sts s i)
    (List.range proofs.length)
  if ok then .ok () else .err ⟨"Bad PDLwSlack proof", bad.map (fun _ => i)⟩

/-- party_i.rs, lines 768-776, `LocalSignature::phase5_check_R_dash_sum` -/
def phase5_check_R_dash_sum (R_dash_vec : List Pt) : Res Error Unit :=
  let sum := R_dash_vec.foldl (· + ·) G
  if sum - G = G then .ok () else .err .Phase5BadSum

/-- The statement of party_i.rs, lines 785-791 and 811-817 -/
def hegStatement (R T S : Pt) : HomoElGamalStatement := { G := R, H := H, Y := G, D := T, E := S }

/-- party_i.rs, lines 778-799, `LocalSignature::phase6_compute_S_i_and_proof_of_consistency`; the nonces of
the proof are sampled. -/
def phase6_compute_S_i (R T : Pt) (sigma l s1 s2 : Sc) : Pt × HomoElGamalProof :=
  let S := sigma • R
  (S, HomoElGamalProof.prove sigma l (hegStatement R T S) s1 s2)

/-- party_i.rs, lines 809-822: the loop of `phase6_verify_proof`; collects the failing positions. -/
def phase6_bad {ε : Type} (S_vec : List Pt) (proof_vec : List HomoElGamalProof) (R_vec T_vec : List Pt) :
    List ℕ → Res ε (List ℕ)
  | [] => .ok []
  | i :: is => do
    let R ← Res.get R_vec i
    let T ← Res.get T_vec i
    let S ← Res.get S_vec i
    let pf ← Res.get proof_vec i
    let rest ← phase6_bad S_vec proof_vec R_vec T_vec is
    .ok (if pf.verify (hegStatement R T S) then rest else i :: rest)

/-- party_i.rs, lines 801-833, `LocalSignature::phase6_verify_proof` -/
def phase6_verify_proof (S_vec : List Pt) (proof_vec : List HomoElGamalProof) (R_vec T_vec : List Pt) :
    Res ErrorType Unit := do
  let bad ← phase6_bad S_vec proof_vec R_vec T_vec (List.range proof_vec.length)
  if bad = [] then .ok () else .err ⟨"phase6", bad⟩

/-- party_i.rs, lines 835-848, `LocalSignature::phase6_check_S_i_sum` -/
def phase6_check_S_i_sum (pubkey_y : Pt) (S_vec : List Pt) : Res Error Unit :=
  let sum := S_vec.foldl (· + ·) G - G
  if sum = pubkey_y then .ok () else .err .Phase6Error

end GG20
end Verif
