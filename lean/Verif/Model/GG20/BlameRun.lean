import Verif.Model.GG20.Blame
import Verif.Model.GG20.SignRounds

/-!
# GG20 signing: from a session to the states that are opened for blame

Models the parts of the simulation `sign` in `src/protocols/multi_party_ecdsa/gg_2020/test.rs` that prepare
the input of the blame procedures (the only place in the repository where they are called).  `m` is the
number of signers, `N i` the encryption key of signer `i` and `rnd i` what it draws.  Simplification: the
range proofs are made for the list `sts`, whichever it is; the state machine takes the statements of all
parties, the simulation those of the signers.
-/

namespace Verif.GG20.BlameRun

open EC Crypto

variable [Crypto]

/-- test.rs, lines 328-332: the first messages of all signers. -/
def firstMessages {ε : Type} (m : ℕ) (N : ℕ → ℕ) (sts : List DLogStatement) (rnd : ℕ → SignRandomness) :
    Res ε (List MessageA) :=
  Res.mapM (fun i => Res.ofOption (MessageA.a (rnd i).k (N i) (rnd i).ra sts (rnd i).alice)) (List.range m)

/-- test.rs, lines 346-386: row `i` has the answers of the other signers to signer `i`.  `b ind` is what
signer `ind` multiplies with; `r`, `tag`, `t1`, `t2` are what it draws to answer signer `i`. -/
def answerRows {ε : Type} (m : ℕ) (N : ℕ → ℕ) (sts : List DLogStatement) (mas : List MessageA) (b : ℕ → Sc)
    (r tag : ℕ → ℕ → ℤ) (t1 t2 : ℕ → ℕ → Sc) : Res ε (List (List MessageB)) :=
  Res.mapM (fun i => Res.mapM (fun j => do
    let ind := otherInd i j
    let ma ← Res.get mas i
    let (mb, _) ← Res.unwrap (MessageB.b (b ind) (N i) ma (r ind i) (tag ind i) sts (t1 ind i) (t2 ind i))
    .ok mb) (List.range (m - 1))) (List.range m)

/-- The answers with `gamma` (test.rs, lines 355-362). -/
def gammaRows {ε : Type} (m : ℕ) (N : ℕ → ℕ) (sts : List DLogStatement) (rnd : ℕ → SignRandomness)
    (mas : List MessageA) : Res ε (List (List MessageB)) :=
  answerRows m N sts mas (fun a => (rnd a).gamma) (fun a => (rnd a).gammaR) (fun a => (rnd a).gammaBeta)
    (fun a => (rnd a).gammaT1) (fun a => (rnd a).gammaT2)

/-- The answers with the key share `w` (test.rs, lines 363-369). -/
def shareRows {ε : Type} (m : ℕ) (N : ℕ → ℕ) (sts : List DLogStatement) (rnd : ℕ → SignRandomness)
    (w : ℕ → Sc) (mas : List MessageA) : Res ε (List (List MessageB)) :=
  answerRows m N sts mas w (fun a => (rnd a).wR) (fun a => (rnd a).wBeta)
    (fun a => (rnd a).wT1) (fun a => (rnd a).wT2)

/-- test.rs, lines 550-570: what signer `k` opens when the nonce check has failed. -/
def openNonce (m : ℕ) (N : ℕ → ℕ) (rnd : ℕ → SignRandomness) (k : ℕ) : LocalStatePhase5 :=
  { k := (rnd k).k
    k_randomness := (rnd k).ra
    gamma := (rnd k).gamma
    beta_randomness := (List.range (m - 1)).map (fun j => (rnd k).gammaR (otherInd k j))
    beta_tag := (List.range (m - 1)).map (fun j => (rnd k).gammaBeta (otherInd k j))
    encryption_key := N k }

/-- test.rs, lines 614-637 (and 409-411 for the decrypted values): what a signer opens when the key check
has failed.  `row` are the answers it received, `sigma` is what it used in place of its `sigma`. -/
def openKey (dk : DecKey) (k : Sc) (k_randomness : ℤ) (row : List MessageB) (R : Pt) (sigma nonce : Sc) :
    Res Error LocalStatePhase6 := do
  let miu ← Res.mapM (fun mb => do
    let (_, x) ← MessageB.verify_proofs_get_alpha mb dk k
    .ok x) row
  let miu_randomness ← Res.mapM (fun mb : MessageB => extract_paillier_randomness mb.c dk) row
  .ok { k := k, k_randomness := k_randomness, miu := miu, miu_randomness := miu_randomness,
        proof_of_eq_dlog := ecddh_proof sigma R (sigma • R) nonce }

/-- test.rs, lines 612-638: the states of all signers. -/
def openKeys (m : ℕ) (dk : ℕ → DecKey) (rnd : ℕ → SignRandomness) (rows : List (List MessageB)) (R : Pt)
    (sigma nonce : ℕ → Sc) : Res Error (List LocalStatePhase6) :=
  Res.mapM (fun i => do
    let row ← Res.get rows i
    openKey (dk i) (rnd i).k (rnd i).ra row R (sigma i) (nonce i)) (List.range m)

end Verif.GG20.BlameRun
