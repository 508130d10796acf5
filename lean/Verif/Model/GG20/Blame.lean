import Verif.Model.GG20.Sign
import Mathlib.Data.List.Destutter

/-!
# GG20 signing: finding the signers to blame

Models `src/protocols/multi_party_ecdsa/gg_2020/blame.rs`.  Every one of the three blame functions always
returns `Err`; the list inside the error is the verdict.  Out-of-range indexing is a panic.
-/

namespace Verif

/-- `if j < i { i - 1 } else { i }`: the position of `i` among the peers of the `j`-th peer of `i`
(blame.rs, lines 83, 94, 194, 391). -/
def backInd (i j : ℕ) : ℕ := if j < i then i - 1 else i

/-- The loop `for i in … { if !test(i) { bad.push(i) } }`: the indices at which the test fails.
(blame.rs, lines 121-125, 210-214, 398-411, 438-447) -/
def failing {ε : Type} (test : ℕ → Res ε Bool) : List ℕ → Res ε (List ℕ)
  | [] => .ok []
  | i :: is => do
    let b ← test i
    let rest ← failing test is
    .ok (if b then rest else i :: rest)

/-- `sort_unstable` followed by `dedup` (blame.rs, lines 217-218 and 413-414) -/
def sortDedup (l : List ℕ) : List ℕ := l.mergeSort.destutter (· ≠ ·)

/-- `mat[i][j]` (blame.rs, lines 149-155, 195, 331-333, 367, 392) -/
def getCell {ε α : Type} (mat : List (List α)) (i j : ℕ) : Res ε α := do
  let row ← Res.get mat i
  Res.get row j

namespace GG20

open EC Crypto

variable [Crypto]

/-- blame.rs, lines 32-40, `LocalStatePhase5`: what a signer opens when the nonce check has failed. -/
structure LocalStatePhase5 where
  k : Sc
  k_randomness : ℤ
  gamma : Sc
  beta_randomness : List ℤ
  beta_tag : List ℤ
  encryption_key : ℕ

/-- blame.rs, lines 42-55, `GlobalStatePhase5` -/
structure GlobalStatePhase5 where
  k_vec : List Sc
  k_randomness_vec : List ℤ
  gamma_vec : List Sc
  beta_randomness_vec : List (List ℤ)
  beta_tag_vec : List (List ℤ)
  encryption_key_vec : List ℕ
  delta_vec : List Sc
  g_gamma_vec : List Pt
  m_a_vec : List MessageA
  m_b_mat : List (List MessageB)

/-- blame.rs, lines 77-98: the matrix `mat[i][j] = local[ind1].field[ind2]`. -/
def transposed {ε α β : Type} (local_state_vec : List β) (field : β → List α) : Res ε (List (List α)) :=
  let len := local_state_vec.length
  Res.mapM (fun i =>
    Res.mapM (fun j => do
      let l ← Res.get local_state_vec (otherInd i j)
      Res.get (field l) (backInd i j)) (List.range (len - 1))) (List.range len)

/-- blame.rs, lines 60-113, `GlobalStatePhase5::local_state_to_global_state` -/
def GlobalStatePhase5.local_state_to_global_state {ε : Type} (encryption_key_vec : List ℕ)
    (delta_vec : List Sc) (g_gamma_vec : List Pt) (m_a_vec : List MessageA) (m_b_mat : List (List MessageB))
    (local_state_vec : List LocalStatePhase5) : Res ε GlobalStatePhase5 := do
  let beta_randomness_vec ← transposed local_state_vec (·.beta_randomness)
  let beta_tag_vec ← transposed local_state_vec (·.beta_tag)
  .ok
    { k_vec := local_state_vec.map (·.k)
      k_randomness_vec := local_state_vec.map (·.k_randomness)
      gamma_vec := local_state_vec.map (·.gamma)
      beta_randomness_vec := beta_randomness_vec
      beta_tag_vec := beta_tag_vec
      encryption_key_vec := encryption_key_vec
      delta_vec := delta_vec
      g_gamma_vec := g_gamma_vec
      m_a_vec := m_a_vec
      m_b_mat := m_b_mat }

/-- `MessageA::a_with_predefined_randomness(k, ek, r, &[])` (blame.rs, lines 129-134, 342-347): without
statements there are no range proofs, so no further randomness is used. -/
def messageA {ε : Type} (k : Sc) (ek : ℕ) (r : ℤ) : Res ε MessageA :=
  Res.ofOption (MessageA.a k ek r [] (fun _ => ⟨0, 0, 0, 0⟩))

/-- blame.rs, lines 121-125: is the opened `gamma` the one behind the decommitted point? -/
def GlobalStatePhase5.gamma_test (g : GlobalStatePhase5) (i : ℕ) : Res ErrorType Bool := do
  let gg ← Res.get g.g_gamma_vec i
  let gamma ← Res.get g.gamma_vec i
  .ok (decide (gg = gamma • G))

/-- blame.rs, lines 143-166: one recomputed answer of `phase5_blame`; returns whether the ciphertext is
the one that was sent, and the pair `(alpha, beta)`.  (The two proofs inside the recomputed message are
never looked at, so their nonces are left at zero.) -/
def GlobalStatePhase5.cell (g : GlobalStatePhase5) (message_a : MessageA) (i j : ℕ) :
    Res ErrorType (Bool × Sc × Sc) := do
  let ind := otherInd i j
  let gamma ← Res.get g.gamma_vec ind
  let ek ← Res.get g.encryption_key_vec i
  let br ← getCell g.beta_randomness_vec i j
  let bt ← getCell g.beta_tag_vec i j
  let (message_b, beta) ← Res.unwrap (MessageB.b gamma ek message_a br bt [] 0 0)
  let sent ← getCell g.m_b_mat i j
  let k_i ← Res.get g.k_vec i
  let alpha := k_i * gamma - beta
  .ok (decide (message_b.c = sent.c), alpha, beta)

/-- blame.rs, lines 128-171: one row; takes and returns the list of signers blamed so far. -/
def GlobalStatePhase5.row (g : GlobalStatePhase5) (bad : List ℕ) (i : ℕ) :
    Res ErrorType (List ℕ × List (Sc × Sc)) := do
  let k_i ← Res.get g.k_vec i
  let ek ← Res.get g.encryption_key_vec i
  let r ← Res.get g.k_randomness_vec i
  let message_a ← messageA k_i ek r
  let sent ← Res.get g.m_a_vec i
  let bad := if message_a.c ≠ sent.c then bad ++ [i] else bad
  if bad = [] then do
    let cells ← Res.mapM (fun j => do
      let c ← g.cell message_a i j
      .ok (j, c)) (List.range (g.delta_vec.length - 1))
    let wrong := cells.filter (fun c => !c.2.1)
    .ok (wrong.map (fun c => otherInd i c.1), cells.map (fun c => c.2.2))
  else .ok (bad, [])

/-- blame.rs, lines 127-173: all rows in order. -/
def GlobalStatePhase5.rows (g : GlobalStatePhase5) (bad : List ℕ) :
    List ℕ → Res ErrorType (List ℕ × List (List (Sc × Sc)))
  | [] => .ok (bad, [])
  | i :: is => do
    let (bad, r) ← g.row bad i
    let (bad, rs) ← g.rows bad is
    .ok (bad, r :: rs)

/-- blame.rs, lines 185-214: is the published `delta_i` the one that follows from the openings? -/
def GlobalStatePhase5.delta_test (g : GlobalStatePhase5) (mat : List (List (Sc × Sc))) (i : ℕ) :
    Res ErrorType Bool := do
  let k_i ← Res.get g.k_vec i
  let gamma_i ← Res.get g.gamma_vec i
  let row ← Res.get mat i
  let alpha_sum := row.foldl (fun acc x => acc + x.1) 0
  let beta_vec ← Res.mapM (fun j => do
    let c ← getCell mat (otherInd i j) (backInd i j)
    .ok c.2) (List.range (g.delta_vec.length - 1))
  let beta_sum := beta_vec.foldl (fun acc x => acc + x) 0
  let delta_i ← Res.get g.delta_vec i
  .ok (decide (delta_i = k_i * gamma_i + alpha_sum + beta_sum))

/-- blame.rs, lines 182-215: the deltas are compared only if nobody is blamed so far. -/
def GlobalStatePhase5.delta_bad (g : GlobalStatePhase5) (bad : List ℕ) (mat : List (List (Sc × Sc))) :
    Res ErrorType (List ℕ) :=
  if bad = [] then failing (g.delta_test mat) (List.range g.delta_vec.length) else .ok bad

/-- blame.rs, lines 116-224, `GlobalStatePhase5::phase5_blame` -/
def GlobalStatePhase5.phase5_blame (g : GlobalStatePhase5) : Res ErrorType Unit := do
  let len := g.delta_vec.length
  let bad ← failing g.gamma_test (List.range len)
  let (bad, mat) ← g.rows bad (List.range len)
  let bad ← g.delta_bad bad mat
  .err ⟨"phase6_blame", sortDedup bad⟩

/-- blame.rs, lines 227-234, `LocalStatePhase6`: what a signer opens when the key check has failed. -/
structure LocalStatePhase6 where
  k : Sc
  k_randomness : ℤ
  miu : List ℤ
  miu_randomness : List ℤ
  proof_of_eq_dlog : ECDDHProof

/-- blame.rs, lines 237-249, `GlobalStatePhase6` -/
structure GlobalStatePhase6 where
  k_vec : List Sc
  k_randomness_vec : List ℤ
  miu_vec : List (List ℤ)
  miu_randomness_vec : List (List ℤ)
  g_w_vec : List Pt
  encryption_key_vec : List ℕ
  proof_vec : List ECDDHProof
  S_vec : List Pt
  m_a_vec : List MessageA
  m_b_mat : List (List MessageB)

/-- blame.rs, lines 252-256, `GlobalStatePhase6::extract_paillier_randomness` -/
def extract_paillier_randomness {ε : Type} (ciphertext : ℤ) (dk : DecKey) : Res ε ℤ := do
  let pr ← Res.ofOption (Paillier.openCiphertext dk ciphertext)
  .ok pr.2

/-- The statement of blame.rs, lines 263-268 and 399-404 -/
def ddhStatement (R h1 S : Pt) : ECDDHStatement := { g1 := G, g2 := R, h1 := h1, h2 := S }

/-- blame.rs, lines 258-271, `GlobalStatePhase6::ecddh_proof`; the nonce is sampled. -/
def ecddh_proof (sigma_i : Sc) (R S : Pt) (nonce : Sc) : ECDDHProof :=
  ECDDHProof.prove sigma_i (ddhStatement R (sigma_i • G) S) nonce

/-- blame.rs, lines 293-306: the matrix `mat[i][j] = local[i].field[j]` for `j < len - 1`. -/
def untransposed {ε α β : Type} (local_state_vec : List β) (field : β → List α) :
    Res ε (List (List α)) :=
  let len := local_state_vec.length
  Res.mapM (fun i =>
    Res.mapM (fun j => do
      let l ← Res.get local_state_vec i
      Res.get (field l) j) (List.range (len - 1))) (List.range len)

/-- blame.rs, lines 275-320, `GlobalStatePhase6::local_state_to_global_state` -/
def GlobalStatePhase6.local_state_to_global_state {ε : Type} (encryption_key_vec : List ℕ)
    (S_vec : List Pt) (g_w_vec : List Pt) (m_a_vec : List MessageA) (m_b_mat : List (List MessageB))
    (local_state_vec : List LocalStatePhase6) : Res ε GlobalStatePhase6 := do
  let miu_randomness_vec ← untransposed local_state_vec (·.miu_randomness)
  let miu_vec ← untransposed local_state_vec (·.miu)
  .ok
    { k_vec := local_state_vec.map (·.k)
      k_randomness_vec := local_state_vec.map (·.k_randomness)
      miu_vec := miu_vec
      miu_randomness_vec := miu_randomness_vec
      g_w_vec := g_w_vec
      encryption_key_vec := encryption_key_vec
      proof_vec := local_state_vec.map (·.proof_of_eq_dlog)
      S_vec := S_vec
      m_a_vec := m_a_vec
      m_b_mat := m_b_mat }

/-- blame.rs, lines 329-334: does the opened `miu` re-encrypt to the ciphertext that was received? -/
def GlobalStatePhase6.miu_test (g : GlobalStatePhase6) (i j : ℕ) : Res ErrorType Bool := do
  let ek ← Res.get g.encryption_key_vec i
  let miu ← getCell g.miu_vec i j
  let r ← getCell g.miu_randomness_vec i j
  let sent ← getCell g.m_b_mat i j
  .ok (decide (Paillier.encrypt ek miu r = sent.c))

/-- blame.rs, lines 342-348: does the opened `k` re-encrypt to the ciphertext that was sent? -/
def GlobalStatePhase6.k_test (g : GlobalStatePhase6) (i : ℕ) : Res ErrorType Bool := do
  let k ← Res.get g.k_vec i
  let ek ← Res.get g.encryption_key_vec i
  let r ← Res.get g.k_randomness_vec i
  let message_a ← messageA k ek r
  let sent ← Res.get g.m_a_vec i
  .ok (decide (message_a.c = sent.c))

/-- blame.rs, lines 327-338: the signers blamed by the `miu` check, once per failing position. -/
def GlobalStatePhase6.miu_bad (g : GlobalStatePhase6) (len : ℕ) : List ℕ → Res ErrorType (List ℕ)
  | [] => .ok []
  | i :: is => do
    let b ← failing (g.miu_test i) (List.range (len - 1))
    let rest ← g.miu_bad len is
    .ok (b.map (fun _ => i) ++ rest)

/-- blame.rs, lines 361-371: `g_ni_mat[i][j]` -/
def GlobalStatePhase6.g_ni (g : GlobalStatePhase6) (i j : ℕ) : Res ErrorType Pt := do
  let k_i ← Res.get g.k_vec i
  let g_w_j ← Res.get g.g_w_vec (otherInd i j)
  let miu ← getCell g.miu_vec i j
  .ok (k_i • g_w_j - (miu : Sc) • G)

/-- blame.rs, lines 377-394: the point `g_sigma_i`.  Simplification: the two loops over all signers are
written as one computation per signer; the values and the panics are the same. -/
def GlobalStatePhase6.g_sigma (g : GlobalStatePhase6) (g_ni_mat : List (List Pt)) (len i : ℕ) :
    Res ErrorType Pt := do
  let g_w ← Res.get g.g_w_vec i
  let k_i ← Res.get g.k_vec i
  let mius ← Res.get g.miu_vec i
  let sum := mius.foldl (fun acc (x : ℤ) => acc + (x : Sc) • (G : Pt)) (k_i • g_w)
  let nis ← Res.mapM (fun j => getCell g_ni_mat (otherInd i j) (backInd i j)) (List.range (len - 1))
  .ok (nis.foldl (fun acc x => acc + x) sum)

/-- blame.rs, lines 398-410: does the proof of signer `i` hold for the reconstructed point? -/
def GlobalStatePhase6.ddh_test (g : GlobalStatePhase6) (R : Pt) (g_sigma_vec : List Pt) (i : ℕ) :
    Res ErrorType Bool := do
  let gs ← Res.get g_sigma_vec i
  let S ← Res.get g.S_vec i
  let pf ← Res.get g.proof_vec i
  .ok (pf.verify (ddhStatement R gs S))

/-- blame.rs, lines 356-411: the part that runs when all openings reproduce the ciphertexts -/
def GlobalStatePhase6.sigma_bad (g : GlobalStatePhase6) (R : Pt) (len : ℕ) : Res ErrorType (List ℕ) := do
  let g_ni_mat ← Res.mapM (fun i => Res.mapM (g.g_ni i) (List.range (len - 1))) (List.range len)
  let g_sigma_vec ← Res.mapM (g.g_sigma g_ni_mat len) (List.range len)
  failing (g.ddh_test R g_sigma_vec) (List.range len)

/-- blame.rs, lines 356-411: it runs only if nobody is blamed so far. -/
def GlobalStatePhase6.sigma_or (g : GlobalStatePhase6) (R : Pt) (len : ℕ) (bad : List ℕ) :
    Res ErrorType (List ℕ) :=
  if bad = [] then g.sigma_bad R len else .ok bad

/-- blame.rs, lines 322-420, `GlobalStatePhase6::phase6_blame` -/
def GlobalStatePhase6.phase6_blame (g : GlobalStatePhase6) (R : Pt) : Res ErrorType Unit := do
  let len := g.k_vec.length
  let bad1 ← g.miu_bad len (List.range len)
  let bad2 ← failing g.k_test (List.range len)
  let bad ← g.sigma_or R len (bad1 ++ bad2)
  .err ⟨"phase6_blame", sortDedup bad⟩

/-- blame.rs, lines 423-431, `GlobalStatePhase7` -/
structure GlobalStatePhase7 where
  s_vec : List Sc
  r : Sc
  R_dash_vec : List Pt
  m : ℤ
  R : Pt
  S_vec : List Pt

/-- blame.rs, lines 439-444: the test of `phase7_blame` for signer `i` -/
def GlobalStatePhase7.test (g : GlobalStatePhase7) (i : ℕ) : Res ErrorType Bool := do
  let s_i ← Res.get g.s_vec i
  let R_si := s_i • g.R
  let R_dash ← Res.get g.R_dash_vec i
  let R_dash_m := (g.m : Sc) • R_dash
  let S ← Res.get g.S_vec i
  let Si_r := g.r • S
  let right := R_dash_m + Si_r
  .ok (decide (R_si = right))

/-- blame.rs, lines 434-454, `GlobalStatePhase7::phase7_blame` -/
def GlobalStatePhase7.phase7_blame (g : GlobalStatePhase7) : Res ErrorType Unit := do
  let bad ← failing g.test (List.range g.s_vec.length)
  .err ⟨"phase7_blame", bad⟩

end GG20
end Verif
