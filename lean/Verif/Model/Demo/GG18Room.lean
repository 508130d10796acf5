import Mathlib.Logic.Function.Basic
import Verif.Model.Demo.GG18Manager
import Verif.Model.Demo.GG18Sign

/-!
# The GG18 demo clients and their manager together

Models `main` of `examples/gg18_keygen_client.rs` (from line 56) and of `examples/gg18_sign_client.rs` (from
line 66) as programs that post and poll, and several such programs running against one manager.  A request
whose answer is lost is repeated; the case in which `postb` gives up after two attempts and the client panics is
left out.  Sign-up is not part of the programs (C60).
-/

namespace Verif.Demo

/-- `serde_json` on the messages of one type: reading inverts writing, and fails on some texts.  `V` are the
values stored by the manager.
(dependency; used for the entries of the table, gg18_keygen_client.rs, lines 64 and 79, and so on in every round) -/
structure Codec (V β : Type) where
  enc : β → V
  dec : V → Option β
  dec_enc : ∀ b, dec (enc b) = some b

/-- What a client does next: return, store a value under a key (`set`), or ask for the value under a key
(`get`) until there is one. (common.rs, lines 104-190) -/
inductive Prog (V α : Type) where
  | done (r : α)
  | post (key : String) (v : V) (next : Prog V α)
  | poll (key : String) (next : V → Prog V α)

namespace Prog

variable {V α β τ : Type}

/-- examples/common.rs, lines 104-132, `broadcast` and `sendp2p`, for one message after the other -/
def send (c : Codec V β) (round uuid : String) : List (Msg β) → Prog V α → Prog V α
  | [], p => p
  | m :: ms, p =>
    let key := match m.receiver with
      | none => Manager.broadcastKey m.sender round uuid
      | some j => Manager.p2pKey m.sender j round uuid
    .post key (c.enc m.body) (send c round uuid ms p)

/-- The loops of `poll_for_broadcasts` and `poll_for_p2p` over the keys
(common.rs, lines 142-160 and 171-189) -/
def gather : List String → (List V → Prog V α) → Prog V α
  | [], f => f []
  | key :: keys, f => .poll key fun v => gather keys fun vs => f (v :: vs)

/-- The values under the keys, parsed; the clients panic if that fails.
(for example gg18_keygen_client.rs, lines 68-80; gg18_sign_client.rs, lines 508-524) -/
def recv (c : Codec V β) (keys : List String) (f : List β → Prog V (Res Empty α)) : Prog V (Res Empty α) :=
  gather keys fun vs =>
    match vs.mapM c.dec with
    | none => .done .panic
    | some bs => f bs

/-- examples/common.rs, lines 134-161, `poll_for_broadcasts` -/
def poll_for_broadcasts (c : Codec V β) (party_num n : ℕ) (round uuid : String) :
    (List β → Prog V (Res Empty α)) → Prog V (Res Empty α) :=
  recv c (Demo.poll party_num n fun i => Manager.broadcastKey i round uuid)

/-- examples/common.rs, lines 163-190, `poll_for_p2p` -/
def poll_for_p2p (c : Codec V β) (party_num n : ℕ) (round uuid : String) :
    (List β → Prog V (Res Empty α)) → Prog V (Res Empty α) :=
  recv c (Demo.poll party_num n fun i => Manager.p2pKey i party_num round uuid)

/-- Go on after a local computation, unless it panicked.
(the `unwrap` and `expect` calls, for example gg18_keygen_client.rs, line 132) -/
def after : Res Empty τ → (τ → Prog V (Res Empty α)) → Prog V (Res Empty α)
  | .ok x, f => f x
  | .err e, _ => .done (.err e)
  | .panic, _ => .done .panic

end Prog

open EC Crypto GG18

/-- The formats of the messages of key generation (gg18_keygen_client.rs, lines 64, 89, 148, 187, 228) -/
structure Keygen.Codecs [Crypto] (A : Aead) (V : Type) where
  c1 : Codec V KeyGenBroadcastMessage1
  c2 : Codec V KeyGenDecommitMessage1
  c3 : Codec V A.Ct
  c4 : Codec V Vss
  c5 : Codec V DLogProof

open Prog in
/-- gg18_keygen_client.rs, lines 56-263, for the party number and session id got at sign-up -/
def Keygen.program [Crypto] (A : Aead) {V : Type} (C : Keygen.Codecs A V) (t n : ℕ) (rnd : ℕ → Keygen.Rand)
    (uuid : String) (i : ℕ) : Prog V (Res Empty Keygen.KeyFile) :=
  let o1 := Keygen.start i (rnd i)
  send C.c1 "round1" uuid o1.2 <| poll_for_broadcasts C.c1 i n "round1" uuid fun ans1 =>
  after (Keygen.round2 i o1.1 ans1) fun o2 =>
  send C.c2 "round2" uuid o2.2 <| poll_for_broadcasts C.c2 i n "round2" uuid fun ans2 =>
  after (Keygen.round3 A ⟨t, n⟩ rnd i o2.1 ans2) fun o3 =>
  send C.c3 "round3" uuid o3.2 <| poll_for_p2p C.c3 i n "round3" uuid fun ans3 =>
  after (Keygen.round4 A ⟨t, n⟩ i o3.1 ans3) fun o4 =>
  send C.c4 "round4" uuid o4.2 <| poll_for_broadcasts C.c4 i n "round4" uuid fun ans4 =>
  after (Keygen.round5 ⟨t, n⟩ rnd i o4.1 ans4) fun o5 =>
  send C.c5 "round5" uuid o5.2 <| poll_for_broadcasts C.c5 i n "round5" uuid fun ans5 =>
  .done (Keygen.finish ⟨t, n⟩ i o5.1 ans5)

/-- The formats of the messages of signing
(gg18_sign_client.rs, lines 74, 116, 188, 253, 280, 324, 350, 408, 434, 475) -/
structure Sign.Codecs [Crypto] (V : Type) where
  c0 : Codec V ℕ
  c1 : Codec V (SignBroadcastPhase1 × MessageA)
  c2 : Codec V (MessageB × MessageB)
  c3 : Codec V Sc
  c4 : Codec V SignDecommitPhase1
  c5 : Codec V Phase5Com1
  c6 : Codec V Sign.Open5a
  c7 : Codec V Phase5Com2
  c8 : Codec V Phase5DDecom2
  c9 : Codec V Sc

open Prog in
/-- gg18_sign_client.rs, lines 66-488, for the number and session id got at sign-up -/
def Sign.program [Crypto] {V : Type} (C : Sign.Codecs V) (t : ℕ) (message : ℤ) (rnd : ℕ → Sign.Rand)
    (uuid : String) (key : ℕ → Keygen.KeyFile) (i : ℕ) : Prog V (Res Empty GG18.SignatureRecid) :=
  let o0 := Sign.start i (key i)
  send C.c0 "round0" uuid o0.2 <| poll_for_broadcasts C.c0 i (t + 1) "round0" uuid fun ans0 =>
  after (Sign.round1 t rnd i o0.1 ans0) fun o1 =>
  send C.c1 "round1" uuid o1.2 <| poll_for_broadcasts C.c1 i (t + 1) "round1" uuid fun ans1 =>
  after (Sign.round2 t rnd i o1.1 ans1) fun o2 =>
  send C.c2 "round2" uuid o2.2 <| poll_for_p2p C.c2 i (t + 1) "round2" uuid fun ans2 =>
  after (Sign.round3 t i o2.1 ans2) fun o3 =>
  send C.c3 "round3" uuid o3.2 <| poll_for_broadcasts C.c3 i (t + 1) "round3" uuid fun ans3 =>
  after (Sign.round4 i o3.1 ans3) fun o4 =>
  send C.c4 "round4" uuid o4.2 <| poll_for_broadcasts C.c4 i (t + 1) "round4" uuid fun ans4 =>
  after (Sign.round5 message rnd i o4.1 ans4) fun o5 =>
  send C.c5 "round5" uuid o5.2 <| poll_for_broadcasts C.c5 i (t + 1) "round5" uuid fun ans5 =>
  after (Sign.round6 i o5.1 ans5) fun o6 =>
  send C.c6 "round6" uuid o6.2 <| poll_for_broadcasts C.c6 i (t + 1) "round6" uuid fun ans6 =>
  after (Sign.round7 t rnd i o6.1 ans6) fun o7 =>
  send C.c7 "round7" uuid o7.2 <| poll_for_broadcasts C.c7 i (t + 1) "round7" uuid fun ans7 =>
  after (Sign.round8 i o7.1 ans7) fun o8 =>
  send C.c8 "round8" uuid o8.2 <| poll_for_broadcasts C.c8 i (t + 1) "round8" uuid fun ans8 =>
  after (Sign.round9 t i o8.1 ans8) fun o9 =>
  send C.c9 "round9" uuid o9.2 <| poll_for_broadcasts C.c9 i (t + 1) "round9" uuid fun ans9 =>
  .done (Sign.finish i o9.1 ans9)

/-! ### Several clients and one manager -/

/-- The table of the manager and what remains of the clients' programs (gg18_sm_manager.rs, line 105) -/
structure Store (V α : Type) where
  table : String → Option V
  client : ℕ → Prog V α

namespace Store

variable {V α : Type} (n : ℕ) (uuid : String)

/-- A key that no client of the session uses: it does not end with the session id.
(common.rs, lines 111 and 126: every key ends with the session id) -/
def Foreign (key : String) : Prop :=
  ∀ (p p' : ℕ) (round : String), key ≠ Manager.broadcastKey p round uuid ∧
    key ≠ Manager.p2pKey p p' round uuid

/-- One successful request of one of the clients `1, ..., n`; the requests are interleaved arbitrarily.  A poll
for a key without a value changes nothing and is repeated.
(common.rs, lines 114, 130, 150, 179; gg18_sm_manager.rs, lines 12-37) -/
inductive Step : Store V α → Store V α → Prop where
  /-- gg18_sm_manager.rs, lines 31-37, `set` -/
  | post (s : Store V α) (i : ℕ) (h1 : 1 ≤ i) (h2 : i ≤ n) (key : String) (v : V) (next : Prog V α)
      (prog : s.client i = .post key v next) :
      Step s ⟨Function.update s.table key (some v), Function.update s.client i next⟩
  /-- gg18_sm_manager.rs, lines 12-29, `get` -/
  | poll (s : Store V α) (i : ℕ) (h1 : 1 ≤ i) (h2 : i ≤ n) (key : String) (next : V → Prog V α) (v : V)
      (prog : s.client i = .poll key next) (found : s.table key = some v) :
      Step s ⟨s.table, Function.update s.client i (next v)⟩

/-- `k` answered requests of the clients, and any requests of other sessions.
(no lines of its own: repetition of `Step`) -/
inductive Steps (start : Store V α) : ℕ → Store V α → Prop where
  | init : Steps start 0 start
  | step {k : ℕ} {s s' : Store V α} (h : Steps start k s) (st : Step n s s') : Steps start (k + 1) s'
  /-- examples/common.rs, lines 90-100: the value is stored, but the answer is lost and the request will be
  repeated -/
  | lost {k : ℕ} {s : Store V α} (h : Steps start k s) (i : ℕ) (h1 : 1 ≤ i) (h2 : i ≤ n) (key : String) (v : V)
      (next : Prog V α) (prog : s.client i = .post key v next) :
      Steps start k ⟨Function.update s.table key (some v), s.client⟩
  | other {k : ℕ} {s : Store V α} (h : Steps start k s) (key : String) (v : V) (hk : Foreign uuid key) :
      Steps start k ⟨Function.update s.table key (some v), s.client⟩

end Store

end Verif.Demo
