import Verif.Spec.KeygenSM
import Verif.Model.GG20.SignSM
import Verif.Spec.Sign

/-!
# Specification of a signer's offline stage: rounds one after the other
-/

namespace Verif.Spec

open EC Crypto GG20 GG20.Sign

variable [Crypto]

/-- What each peer (numbered by its position in the list of signers, from 1) sends in each round. -/
structure SignerMsgs where
  b1 : ℕ → MessageA × SignBroadcastPhase1
  b2 : ℕ → MessageB × MessageB
  b3 : ℕ → TMsg
  b4 : ℕ → SignDecommitPhase1
  b5 : ℕ → Pt × List PDLwSlackProof
  b6 : ℕ → Pt × HomoElGamalProof

/-- The messages signer `i` sends and its result, if the peers send `b`. -/
def offlineLine (rnd : SignRandomness) (i : ℕ) (s_l : List ℕ) (key : LocalKey) (b : SignerMsgs) :
    List (Msg Sign.M) × Res SignError CompletedOfflineStage :=
  let ps := peers i s_l.length
  let x0 : List (Msg Sign.M) × Res SignError Sign.Round0 := ([], .ok ⟨i, s_l, key⟩)
  let x1 := Script.step x0 (fun r => sending .M1 (r.proceed rnd))
  let x2 := Script.step x1 (fun r => sending .M2 (r.proceed (ps.map b.b1) rnd))
  let x3 := Script.step x2 (fun r => sending .M3 (r.proceed (ps.map b.b2) rnd))
  let x4 := Script.step x3 (fun r => sending .M4 (r.proceed (ps.map b.b3)))
  let x5 := Script.step x4 (fun r => sending .M5 (r.proceed (ps.map b.b4) rnd))
  let x6 := Script.step x5 (fun r => sending .M6 (r.proceed (ps.map b.b5) rnd))
  Script.step x6 (fun r => do
    let c ← r.proceed (ps.map b.b6)
    .ok (c, []))

namespace SignMsg

/-- The round a message belongs to. -/
def round : Sign.M → ℕ
  | .M1 _ => 1
  | .M2 _ => 2
  | .M3 _ => 3
  | .M4 _ => 4
  | .M5 _ => 5
  | .M6 _ => 6

/-- Signer `i` of `n` expects a message like this: from another signer, round 2 addressed to `i`, the
other rounds broadcast. -/
def Expected (i n : ℕ) (m : Msg Sign.M) : Prop :=
  m.sender ∈ peers i n ∧ m.receiver = if round m.body = 2 then some i else none

/-- The message's content is what its sender has to say in that round. -/
def Says (b : SignerMsgs) (m : Msg Sign.M) : Prop :=
  match m.body with
  | .M1 x => x = b.b1 m.sender
  | .M2 x => x = b.b2 m.sender
  | .M3 x => x = b.b3 m.sender
  | .M4 x => x = b.b4 m.sender
  | .M5 x => x = b.b5 m.sender
  | .M6 x => x = b.b6 m.sender

/-- Signer `i` has to accept this message after having accepted `acc`: it is expected, and none of the
same round from the same sender was accepted. -/
def Fresh (i n : ℕ) (acc : List (Msg Sign.M)) (m : Msg Sign.M) : Prop :=
  Expected i n m ∧ ∀ m' ∈ acc, round m'.body = round m.body → m'.sender ≠ m.sender

end SignMsg

/-- A sequence of calls that delivers every peer's six messages, in any order and possibly more
than once, calls `proceed` and takes outgoing messages at any time, and may deliver any messages that
are not expected (wrong sender or receiver). -/
structure OfflineSchedule (i n : ℕ) (b : SignerMsgs) (ops : List (Op Sign.M)) : Prop where
  noPick : .pick ∉ ops
  genuine : ∀ m, .deliver m ∈ ops → SignMsg.Expected i n m → SignMsg.Says b m
  complete : ∀ p ∈ peers i n,
    .deliver ⟨p, none, .M1 (b.b1 p)⟩ ∈ ops ∧
    .deliver ⟨p, some i, .M2 (b.b2 p)⟩ ∈ ops ∧
    .deliver ⟨p, none, .M3 (b.b3 p)⟩ ∈ ops ∧
    .deliver ⟨p, none, .M4 (b.b4 p)⟩ ∈ ops ∧
    .deliver ⟨p, none, .M5 (b.b5 p)⟩ ∈ ops ∧
    .deliver ⟨p, none, .M6 (b.b6 p)⟩ ∈ ops

/-- One signer's own side is honest: the list names distinct parties of the key, the signer holds the key of
the party at position `k` (from 0) and samples its Paillier randomness and range-proof masks as the code
does; the other parties' Paillier moduli and auxiliary parameters are as key generation accepted them.
Nothing is assumed about the other signers. -/
structure HonestSigner (n : ℕ) (Y : Pt) (x : ℕ → Sc) (dk : ℕ → DecKey) (sts : List DLogStatement)
    (s_l : List ℕ) (k : ℕ) (key : LocalKey) (rnd : SignRandomness) : Prop where
  n_lt : n < q
  n_u16 : n < 65536
  nodup : s_l.Nodup
  members : ∀ i ∈ s_l, 1 ≤ i ∧ i ≤ n
  pos : k < s_l.length
  holds : KeyOf n Y x dk sts (s_l.getD k 0) key
  aux : AuxOk n sts
  dk_valid : (dk (s_l.getD k 0)).Valid
  moduli : ∀ i, 1 ≤ i → i ≤ n → 0 < (dk i).n
  ra_unit : Int.gcd rnd.ra (dk (s_l.getD k 0)).n = 1
  alpha_nonneg : ∀ i, 0 ≤ (rnd.alice i).alpha

/-- What peers have to send to signer `i` (position in the list, from 1) to make its offline stage panic;
`acc` are the messages it accepted, `sent` those it sent. -/
inductive OfflinePanicCause (x : ℕ → Sc) (dk : ℕ → DecKey) (sts : List DLogStatement) (s_l : List ℕ)
    (i : ℕ) (acc sent : List (Msg Sign.M)) : Prop where
  /-- a negative challenge in a range proof; cannot be expressed in the wire format -/
  | negativeChallenge (p : ℕ) (m : MessageA) (c : SignBroadcastPhase1) (pf : AliceProof)
      (received : ⟨p, none, .M1 (m, c)⟩ ∈ acc) (mem : pf ∈ m.range_proofs) (neg : pf.e < 0)
  /-- a proof for a key share that is not the sender's -/
  | foreignShare (p : ℕ) (mg mw : MessageB) (received : ⟨p, some i, .M2 (mg, mw)⟩ ∈ acc)
      (foreign : mw.b_proof.pk ≠ signShare x s_l (p - 1) • G)
  /-- `T` is not the commitment its proof is about -/
  | otherCommitment (p : ℕ) (t : TMsg) (received : ⟨p, none, .M3 t⟩ ∈ acc) (ne : t.t_i ≠ t.t_i_proof.com)
  /-- the delta shares add up to zero -/
  | zeroDelta (own : TMsg) (t : ℕ → TMsg) (broadcast : ⟨i, none, .M3 own⟩ ∈ sent)
      (received : ∀ p ∈ peers i s_l.length, ⟨p, none, .M3 (t p)⟩ ∈ acc)
      (zero : own.delta_i + ((peers i s_l.length).map (fun p => (t p).delta_i)).sum = 0)
  /-- an encrypted nonce that is not invertible modulo the sender's Paillier modulus, with a range proof
  whose challenge, the hash of its first message, is 0 -/
  | badCiphertext (p : ℕ) (m : MessageA) (c : SignBroadcastPhase1) (pf : AliceProof)
      (received : ⟨p, none, .M1 (m, c)⟩ ∈ acc) (bad : Int.gcd m.c (dk (s_l.getD (p - 1) 0)).n ≠ 1)
      (mem : pf ∈ m.range_proofs) (zero : pf.e = 0)
  /-- a PDL proof whose commitment is not invertible modulo somebody's auxiliary modulus -/
  | badCommitment (p : ℕ) (Rd : Pt) (pfs : List PDLwSlackProof) (pf : PDLwSlackProof)
      (st : DLogStatement) (received : ⟨p, none, .M5 (Rd, pfs)⟩ ∈ acc) (mem : pf ∈ pfs)
      (param : st ∈ sts) (bad : Int.gcd pf.z st.N ≠ 1)

end Verif.Spec
