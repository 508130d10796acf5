import Verif.Model.Demo.Rounds
import Verif.Model.GG18.Keygen
import Verif.Ext.Bytes

/-!
# The GG18 key generation client

Models `main` of `examples/gg18_keygen_client.rs`, lines 56-263, cut at the points where the client waits for
messages.  A failed `expect`, `unwrap` or `assert!` is a panic, so the error type is empty.  Not
modelled: command line, files, HTTP, JSON.
-/

namespace Verif

/-- `aes_encrypt` and `aes_decrypt` of `examples/common.rs`, lines 51-79, over AES-256-GCM: decryption fails
on a wrong tag.  Only that decryption with a 32-byte key inverts encryption is assumed. -/
structure Aead where
  Ct : Type
  /-- key, plaintext, nonce -/
  enc : List UInt8 → List UInt8 → ℕ → Ct
  dec : List UInt8 → Ct → Option (List UInt8)
  dec_enc : ∀ k m nonce, k.length = 32 → dec k (enc k m nonce) = some m

namespace Demo.Keygen

open EC Crypto GG18

variable [Crypto]

/-- Everything the client samples.
(lines 56-57, 128-132, 142, 213-221: calls of library functions that sample, and `aes_encrypt`, common.rs 57-58) -/
structure Rand where
  u : Sc
  dk : DecKey
  blind : ℤ
  coefs : List Sc
  /-- AES nonce for the share of each party -/
  aesNonce : ℕ → ℕ
  dlogNonce : Sc

/-- What the client writes to its key file, lines 249-263. -/
structure KeyFile where
  party_keys : Keys
  shared_keys : SharedKeys
  party_id : ℕ
  vss_scheme_vec : List Vss
  paillier_key_vector : List ℕ
  y_sum : Pt

/-- State after sending round 1 (lines 51-67: the variables in use later) -/
structure St1 where
  keys : Keys
  bc : KeyGenBroadcastMessage1
  decom : KeyGenDecommitMessage1

/-- Lines 56-67: sample and commit -/
def start (party_num : ℕ) (rnd : Rand) : St1 × List (Msg KeyGenBroadcastMessage1) :=
  let keys := Keys.create party_num rnd.u rnd.dk
  let (bc, decom) := keys.phase1_broadcast rnd.blind
  (⟨keys, bc, decom⟩, [⟨party_num, none, bc⟩])

/-- State after sending round 2 (lines 68-92: the variables in use later) -/
structure St2 where
  keys : Keys
  bc1_vec : List KeyGenBroadcastMessage1
  decom : KeyGenDecommitMessage1

/-- Lines 68-92: collect the commitments (`Vec::insert` panics beyond the end), send the opening. -/
def round2 (party_num : ℕ) (st : St1) (ans : List KeyGenBroadcastMessage1) :
    Res Empty (St2 × List (Msg KeyGenDecommitMessage1)) := do
  Res.assert (party_num - 1 ≤ ans.length)
  .ok (⟨st.keys, ans.insertIdx (party_num - 1) st.bc, st.decom⟩, [⟨party_num, none, st.decom⟩])

/-- State after sending round 3 (lines 93-154: the variables in use later) -/
structure St3 where
  keys : Keys
  bc1_vec : List KeyGenBroadcastMessage1
  point_vec : List Pt
  enc_keys : List (List UInt8)
  y_sum : Pt
  vss_scheme : Vss
  secret_shares : List Sc

/-- Lines 114-120: the key shared with the sender of a public share; the point at infinity has no
x-coordinate. -/
def encKey (u_i : Sc) (decom_j : KeyGenDecommitMessage1) : Res Empty (List UInt8) := do
  let key_bn ← Res.ofOption (xc (u_i • decom_j.y_i))
  pad32 (toBytes key_bn)

/-- Lines 136-154: encrypt and send the shares; `js` lists the `(k, i)` of the loop with `i` another
party, `j` counts them. -/
def encShares (A : Aead) (party_num : ℕ) (enc_keys : List (List UInt8)) (secret_shares : List Sc)
    (aesNonce : ℕ → ℕ) : List ℕ → ℕ → Res Empty (List (Msg A.Ct))
  | [], _ => .ok []
  | i :: is, j =>
    if i = party_num then encShares A party_num enc_keys secret_shares aesNonce is j
    else do
      let key ← Res.get enc_keys j
      let share ← Res.get secret_shares (i - 1)
      let rest ← encShares A party_num enc_keys secret_shares aesNonce is (j + 1)
      .ok (⟨party_num, some i, A.enc key (toBytes share.val) (aesNonce i)⟩ :: rest)

/-- Lines 93-154: check the openings, deal the shares -/
def round3 (A : Aead) (params : Parameters) (rnd : ℕ → Rand) (party_num : ℕ) (st : St2)
    (ans : List KeyGenDecommitMessage1) : Res Empty (St3 × List (Msg A.Ct)) := do
  let decom_vec ← reassemble params.share_count party_num st.decom ans
  let enc_keys ← Res.mapM (encKey st.keys.u_i) ans
  let point_vec := decom_vec.map (·.y_i)
  match point_vec with
  | [] => .panic
  | head :: tail => do
    let y_sum := tail.foldl (· + ·) head
    let (vss_scheme, secret_shares, _) ←
      (st.keys.phase1_verify_distribute params decom_vec st.bc1_vec (rnd party_num).coefs).unwrap
    let out ← encShares A party_num enc_keys secret_shares (rnd party_num).aesNonce
      (List.range' 1 params.share_count) 0
    .ok (⟨st.keys, st.bc1_vec, point_vec, enc_keys, y_sum, vss_scheme, secret_shares⟩, out)

/-- State after sending round 4 (lines 156-190: the variables in use later) -/
structure St4 where
  keys : Keys
  bc1_vec : List KeyGenBroadcastMessage1
  point_vec : List Pt
  y_sum : Pt
  vss_scheme : Vss
  party_shares : List Sc

/-- Lines 171-177: decrypt the share at position `j` of the received ones. -/
def decShare (A : Aead) (enc_keys : List (List UInt8)) (ans : List A.Ct) (j : ℕ) : Res Empty Sc := do
  let aead_pack ← Res.get ans j
  let key ← Res.get enc_keys j
  let out ← Res.ofOption (A.dec key aead_pack)
  .ok (fromBytes out : Sc)

/-- Lines 156-190: collect the shares, send the polynomial commitment.  (The decryptions are done in the same
loop that inserts the own share.  The client reads its own share only if it is one of the parties
`1, ..., PARTIES`; any other client has panicked in round 3, `Props.round3_known`.) -/
def round4 (A : Aead) (params : Parameters) (party_num : ℕ) (st : St3) (ans : List A.Ct) :
    Res Empty (St4 × List (Msg Vss)) := do
  let received ← Res.mapM (decShare A st.enc_keys ans) (List.range (params.share_count - 1))
  let own ← Res.get st.secret_shares (party_num - 1)
  let party_shares ← reassemble params.share_count party_num own received
  .ok (⟨st.keys, st.bc1_vec, st.point_vec, st.y_sum, st.vss_scheme, party_shares⟩,
    [⟨party_num, none, st.vss_scheme⟩])

/-- State after sending round 5 (lines 191-231: the variables in use later) -/
structure St5 where
  keys : Keys
  bc1_vec : List KeyGenBroadcastMessage1
  point_vec : List Pt
  y_sum : Pt
  vss_scheme_vec : List Vss
  shared_keys : SharedKeys
  dlog_proof : DLogProof

/-- Lines 191-231: check the shares, send the proof -/
def round5 (params : Parameters) (rnd : ℕ → Rand) (party_num : ℕ) (st : St4) (ans : List Vss) :
    Res Empty (St5 × List (Msg DLogProof)) := do
  let vss_scheme_vec ← reassemble params.share_count party_num st.vss_scheme ans
  let (shared_keys, dlog_proof) ← (Keys.phase2_verify_vss params st.point_vec st.party_shares
    vss_scheme_vec party_num (rnd party_num).dlogNonce).unwrap
  .ok (⟨st.keys, st.bc1_vec, st.point_vec, st.y_sum, vss_scheme_vec, shared_keys, dlog_proof⟩,
    [⟨party_num, none, dlog_proof⟩])

/-- Lines 232-263: check the proofs, write the key file -/
def finish (params : Parameters) (party_num : ℕ) (st : St5) (ans : List DLogProof) :
    Res Empty KeyFile := do
  let dlog_proof_vec ← reassemble params.share_count party_num st.dlog_proof ans
  let _ ← (verify_dlog_proofs params dlog_proof_vec st.point_vec).unwrap
  let paillier_key_vec ← Res.mapM (fun i => do
    let bc ← Res.get st.bc1_vec i
    .ok bc.e) (List.range params.share_count)
  .ok ⟨st.keys, st.shared_keys, party_num, st.vss_scheme_vec, paillier_key_vec, st.y_sum⟩

/-- All clients together, party `i` with the random values `rnd i`. (lines 51-264, once per client) -/
def run (A : Aead) (t n : ℕ) (rnd : ℕ → Rand) : Res Empty (List KeyFile) := do
  let r1 := (List.range n).map (fun k => start (k + 1) (rnd (k + 1)))
  let r2 ← runRound n round2 r1
  let r3 ← runRound n (round3 A ⟨t, n⟩ rnd) r2
  let r4 ← runRound n (round4 A ⟨t, n⟩) r3
  let r5 ← runRound n (round5 ⟨t, n⟩ rnd) r4
  runRound n (finish ⟨t, n⟩) r5

end Demo.Keygen
end Verif
