import Verif.Model.GG20.Keygen
import Verif.Ext.RoundMsg

/-!
# GG20 key generation: round functions

Models `src/protocols/multi_party_ecdsa/gg_2020/state_machine/keygen/rounds.rs`.  A round function
takes the other parties' messages ordered by sender (`input`), and returns the next round together
with the messages it pushes.  Random values are explicit arguments.
-/

namespace Verif.GG20

open EC Crypto

variable [Crypto]

/-- Everything a party samples during key generation (`Keys::create`, the commitment blinding, the
coins of the proofs and the polynomial coefficients).
(gg_2020/party_i.rs, lines 137-178, 219-258, 314, 362) -/
structure KeygenRandomness where
  u : Sc
  dk : DecKey
  aux : ℤ × ℤ × ℤ × ℤ × ℤ
  blind : ℤ
  cd1 : ℕ
  cd2 : ℕ
  coefs : List Sc
  dlogNonce : Sc

namespace Keygen

/-- rounds.rs, lines 339-347, `ProceedError` -/
inductive ProceedError where
  | Round2VerifyCommitments (e : ErrorType)
  | Round3VerifyVssConstruct (e : ErrorType)
  | Round4VerifyDLogProof (e : ErrorType)
  deriving DecidableEq

/-- rounds.rs, lines 20-24, `Round0` -/
structure Round0 where
  party_i : ℕ
  t : ℕ
  n : ℕ

/-- rounds.rs, lines 54-61, `Round1` -/
structure Round1 where
  keys : Keys
  bc1 : KeyGenBroadcastMessage1
  decom1 : KeyGenDecommitMessage1
  party_i : ℕ
  t : ℕ
  n : ℕ

/-- rounds.rs, lines 95-103, `Round2` -/
structure Round2 where
  keys : Keys
  received_comm : List KeyGenBroadcastMessage1
  decom : KeyGenDecommitMessage1
  party_i : ℕ
  t : ℕ
  n : ℕ

/-- rounds.rs, lines 163-175, `Round3` -/
structure Round3 where
  keys : Keys
  y_vec : List Pt
  bc_vec : List KeyGenBroadcastMessage1
  own_vss : Vss
  own_share : Sc
  party_i : ℕ
  t : ℕ
  n : ℕ

/-- rounds.rs, lines 236-247, `Round4` -/
structure Round4 where
  keys : Keys
  y_vec : List Pt
  bc_vec : List KeyGenBroadcastMessage1
  shared_keys : SharedKeys
  own_dlog_proof : DLogProof
  vss_vec : List Vss
  party_i : ℕ
  t : ℕ
  n : ℕ

end Keygen

/-- rounds.rs, lines 309-322, `LocalKey` -/
structure LocalKey where
  paillier_dk : DecKey
  pk_vec : List Pt
  keys_linear : SharedKeys
  paillier_key_vec : List ℕ
  y_sum_s : Pt
  h1_h2_n_tilde_vec : List DLogStatement
  vss_scheme : Vss
  i : ℕ
  t : ℕ
  n : ℕ

/-- rounds.rs, lines 326-328, `LocalKey::public_key` -/
def LocalKey.public_key (k : LocalKey) : Pt := k.y_sum_s

namespace Keygen

/-- rounds.rs, lines 26-48, `Round0::proceed` -/
def Round0.proceed (r : Round0) (rnd : KeygenRandomness) :
    Res ProceedError (Round1 × List (Msg KeyGenBroadcastMessage1)) :=
  let keys := Keys.create r.party_i rnd.u rnd.dk rnd.aux
  let bd := keys.phase1_broadcast rnd.blind rnd.cd1 rnd.cd2
  .ok ({ keys := keys, bc1 := bd.1, decom1 := bd.2, party_i := r.party_i, t := r.t, n := r.n },
    [⟨r.party_i, none, bd.1⟩])

/-- rounds.rs, lines 64-87, `Round1::proceed` -/
def Round1.proceed (r : Round1) (input : List KeyGenBroadcastMessage1) :
    Res ProceedError (Round2 × List (Msg KeyGenDecommitMessage1)) :=
  .ok ({ keys := r.keys, received_comm := intoVecIncludingMe input r.party_i r.bc1,
         decom := r.decom1, party_i := r.party_i, t := r.t, n := r.n },
    [⟨r.party_i, none, r.decom1⟩])

/-- rounds.rs, lines 106-154, `Round2::proceed` -/
def Round2.proceed (r : Round2) (input : List KeyGenDecommitMessage1) (rnd : KeygenRandomness) :
    Res ProceedError (Round3 × List (Msg (Vss × Sc))) := do
  let received_decom := intoVecIncludingMe input r.party_i r.decom
  let vss_result ← (r.keys.phase1_verify_distribute ⟨r.t, r.n⟩ received_decom r.received_comm
    rnd.coefs).mapErr ProceedError.Round2VerifyCommitments
  let own_share ← Res.get vss_result.2.1 (r.party_i - 1)
  let out := (vss_result.2.1.zipIdx.filter (fun si => si.2 + 1 ≠ r.party_i)).map
    (fun si => (⟨r.party_i, some (si.2 + 1), (vss_result.1, si.1)⟩ : Msg (Vss × Sc)))
  .ok ({ keys := r.keys, y_vec := received_decom.map (·.y_i), bc_vec := r.received_comm,
         own_vss := vss_result.1, own_share := own_share, party_i := r.party_i, t := r.t, n := r.n },
    out)

/-- rounds.rs, lines 178-224, `Round3::proceed` -/
def Round3.proceed (r : Round3) (input : List (Vss × Sc)) (rnd : KeygenRandomness) :
    Res ProceedError (Round4 × List (Msg DLogProof)) := do
  let all := intoVecIncludingMe input r.party_i (r.own_vss, r.own_share)
  let vss_schemes := all.map Prod.fst
  let party_shares := all.map Prod.snd
  let (shared_keys, dlog_proof) ← (Keys.phase2_verify_vss ⟨r.t, r.n⟩ r.y_vec party_shares
    vss_schemes r.party_i rnd.dlogNonce).mapErr ProceedError.Round3VerifyVssConstruct
  .ok ({ keys := r.keys, y_vec := r.y_vec, bc_vec := r.bc_vec, shared_keys := shared_keys,
         own_dlog_proof := dlog_proof, vss_vec := vss_schemes, party_i := r.party_i, t := r.t,
         n := r.n },
    [⟨r.party_i, none, dlog_proof⟩])

/-- rounds.rs, lines 250-300, `Round4::proceed` -/
def Round4.proceed (r : Round4) (input : List DLogProof) : Res ProceedError LocalKey := do
  let dlog_proofs := intoVecIncludingMe input r.party_i r.own_dlog_proof
  (verify_dlog_proofs_check_against_vss ⟨r.t, r.n⟩ dlog_proofs r.y_vec r.vss_vec).mapErr
    ProceedError.Round4VerifyDLogProof
  let pk_vec ← Res.mapM (fun i => do let pf ← Res.get dlog_proofs i; .ok pf.pk) (List.range r.n)
  let paillier_key_vec ← Res.mapM (fun i => do let b ← Res.get r.bc_vec i; .ok b.e)
    (List.range r.n)
  let vss_scheme ← Res.get r.vss_vec (r.party_i - 1)
  match r.y_vec with
  | [] => .panic
  | head :: tail =>
    .ok { paillier_dk := r.keys.dk, pk_vec := pk_vec, keys_linear := r.shared_keys,
          paillier_key_vec := paillier_key_vec, y_sum_s := tail.foldl (· + ·) head,
          h1_h2_n_tilde_vec := r.bc_vec.map (·.dlog_statement), vss_scheme := vss_scheme,
          i := r.party_i, t := r.t, n := r.n }

end Keygen
end Verif.GG20
