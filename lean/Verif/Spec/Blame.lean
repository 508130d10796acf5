import Verif.Model.GG20.Blame

/-! # What it means to have followed the signing protocol, for the blame properties -/

namespace Verif.Spec

open EC Crypto GG20

/-- The position of signer `a` in a list that signer `b` keeps about all signers but itself. -/
def peerPos (b a : ℕ) : ℕ := if a < b then a else a - 1

variable [Crypto]

/-- Signer `h` of `m` followed the protocol up to the nonce check and opens its true state `L`.  The
lists are the published ones: encryption keys, deltas, decommitted points, first messages and answers
(`mbs`: row of the signer that was answered, position of the answering signer). -/
structure HonestNonce (m h : ℕ) (eks : List ℕ) (deltas : List Sc) (gGammas : List Pt)
    (mas : List MessageA) (mbs : List (List MessageB)) (dk : DecKey) (L : LocalStatePhase5) : Prop where
  /-- its encryption key -/
  ek : eks[h]? = some dk.n
  /-- it decommitted to the point of its `gamma` -/
  gamma : gGammas[h]? = some (L.gamma • G)
  /-- its first message encrypts its `k` -/
  first : ∃ ma sts rs, mas[h]? = some ma ∧ MessageA.a L.k dk.n L.k_randomness sts rs = some ma
  /-- it answered the first message of every other signer with its `gamma` and the opened randomness -/
  answers : ∀ i < m, i ≠ h → ∃ N ma row mb bt br sts t1 t2 beta,
    eks[i]? = some N ∧ mas[i]? = some ma ∧ mbs[i]? = some row ∧ row[peerPos i h]? = some mb ∧
    L.beta_tag[peerPos h i]? = some bt ∧ L.beta_randomness[peerPos h i]? = some br ∧
    MessageB.b L.gamma N ma br bt sts t1 t2 = .ok (mb, beta)
  /-- it opens one value per other signer -/
  tags : L.beta_tag.length = m - 1
  /-- it published the delta computed from its accepted answers and its own masks -/
  delta : ∃ row alphas, mbs[h]? = some row ∧ row.length = m - 1 ∧
    List.Forall₂ (fun mb alpha => ∃ x, MessageB.verify_proofs_get_alpha mb dk L.k = .ok (alpha, x))
      row alphas ∧
    deltas[h]? = some (L.k * L.gamma + alphas.sum + (L.beta_tag.map (fun b : ℤ => 0 - (b : Sc))).sum)
  /-- it found every answer to be about the decommitted point of its sender (phase 4) -/
  phase4 : ∀ j < m, j ≠ h → ∃ row mb, mbs[h]? = some row ∧ row[peerPos h j]? = some mb ∧
    gGammas[j]? = some mb.b_proof.pk

/-- Signer `h` of `m` followed the protocol up to the key check and opens its true state `L`.  `w` is its
key share, `bts` its masks towards the others and `R` the nonce point. -/
structure HonestKey (m h : ℕ) (eks : List ℕ) (Ss gws : List Pt) (mas : List MessageA)
    (mbs : List (List MessageB)) (R : Pt) (dk : DecKey) (w : Sc) (bts : List ℤ)
    (L : LocalStatePhase6) : Prop where
  ek : eks[h]? = some dk.n
  valid : dk.Valid
  /-- its public share -/
  share : gws[h]? = some (w • G)
  /-- its first message encrypts its `k` -/
  first : ∃ ma sts rs, mas[h]? = some ma ∧ MessageA.a L.k dk.n L.k_randomness sts rs = some ma
  /-- it answered the first message of every other signer with its key share and the mask `bts` -/
  answers : ∀ i < m, i ≠ h → ∃ N ma row mb bt br sts t1 t2 beta,
    eks[i]? = some N ∧ mas[i]? = some ma ∧ mbs[i]? = some row ∧ row[peerPos i h]? = some mb ∧
    bts[peerPos h i]? = some bt ∧
    MessageB.b w N ma br bt sts t1 t2 = .ok (mb, beta)
  masks : bts.length = m - 1
  /-- it accepted every answer, and opens the decrypted values and the randomness of the answers -/
  opens : ∃ row, mbs[h]? = some row ∧ row.length = m - 1 ∧
    List.Forall₂ (fun mb miu => ∃ alpha, MessageB.verify_proofs_get_alpha mb dk L.k = .ok (alpha, miu))
      row L.miu ∧
    List.Forall₂ (fun mb r => (extract_paillier_randomness mb.c dk : Res Error ℤ) = .ok r)
      row L.miu_randomness
  /-- it published `sigma_h R` and proves it, for the `sigma_h` computed from these values -/
  sigma : ∃ nonce, let sigma := L.k * w + (L.miu.map (fun x : ℤ => (x : Sc))).sum +
      (bts.map (fun b : ℤ => 0 - (b : Sc))).sum
    Ss[h]? = some (sigma • R) ∧ L.proof_of_eq_dlog = ecddh_proof sigma R (sigma • R) nonce

/-- The `k` that signer `i` opens in the key phase (0 if there is none) -/
def openedK (ls : List LocalStatePhase6) (i : ℕ) : Sc := (ls.map (·.k)).getD i 0

/-- The value that signer `i` opens for the answer of signer `a` (0 if there is none) -/
def openedMiu (ls : List LocalStatePhase6) (i a : ℕ) : Sc :=
  ((((ls.map (·.miu)).getD i []).getD (peerPos i a) 0 : ℤ) : Sc)

/-- `sigma_i G`, as it follows from all openings and the public share of signer `i`: its own product
`k_i w_i`, what it received from every other signer `a`, and what it kept when it answered `a`. -/
def openedSigma (ls : List LocalStatePhase6) (gws : List Pt) (i : ℕ) : Pt :=
  let W := gws.getD i 0
  openedK ls i • W + (((List.range ls.length).filter (· ≠ i)).map (fun a =>
    openedMiu ls i a • (G : Pt) + (openedK ls a • W - openedMiu ls a i • (G : Pt)))).sum

end Verif.Spec
