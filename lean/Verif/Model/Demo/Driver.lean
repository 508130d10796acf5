import Verif.Ext.AsyncProtocol
import Mathlib.Logic.Function.Basic
import Verif.Model.Demo.Client
import Verif.Model.GG20.KeygenSM
import Verif.Model.GG20.SignSM

/-!
# The GG20 demo clients: running the state machines over the message server

Models `IsCritical` for the errors of both state machines, the calls of `AsyncProtocol` in
`examples/gg20_keygen.rs` and `examples/gg20_signing.rs`, and several clients in one room of the message
server.  The constructors' errors do not occur in a run and are left out.
-/

namespace Verif.Demo.Driver

variable {σ β ω ε : Type}

/-- gg_2020/state_machine/keygen.rs, lines 469-473 -/
def keygenCritical (_ : SMError ε) : Bool := true

/-- gg_2020/state_machine/sign.rs, lines 576-590 -/
def signCritical : SMError ε → Bool
  | .ProceedRound _ => true
  | .ReceivedOutOfOrderMessage _ _ => false
  | .HandleMessage _ => false
  | .DoublePickOutput => true
  | .InternalError _ => true

/-- A client in a room: its run (gg20_keygen.rs, lines 47-51; gg20_signing.rs, lines 52-56), how many of
the messages it sends it has posted, and how many messages of the room it has read. -/
structure Client (σ β ω ε : Type) where
  run : Async.Run σ β ω ε
  posted : ℕ
  cursor : ℕ

/-- A room: the messages posted so far (gg20_sm_manager.rs; every subscription yields them in this order,
C58) and the clients.
(gg20_sm_manager.rs, lines 57-62; gg20_keygen.rs, lines 39-51; gg20_signing.rs, lines 43-56) -/
structure Room (σ β ω ε : Type) where
  log : List (Msg β)
  client : ℕ → Client σ β ω ε

/-- `n` clients that have joined the room and started their machines; client `i` got the index `i` from the
server and plays party `i`. (gg20_keygen.rs, lines 39-47; gg20_signing.rs, lines 43-52) -/
structure Setting (σ β ω ε : Type) where
  n : ℕ
  machine : ℕ → StateMachine σ β ω ε
  critical : SMError ε → Bool
  start : ℕ → σ

variable (S : Setting σ β ω ε)

/-- The room when all clients have joined it and none has been run:
gg20_keygen.rs, lines 39-47; gg20_signing.rs, lines 43-52 -/
def Setting.init : Room σ β ω ε where
  log := []
  client := fun i => ⟨Async.start (S.machine i) S.critical (S.start i), 0, 0⟩

/-- One step of one client.  The requests of different clients are interleaved arbitrarily; a client posts
one message per request (gg20_sm_client.rs, lines 43-50) and waits for the response. -/
inductive Setting.Step : Room σ β ω ε → Room σ β ω ε → Prop where
  /-- client `i` posts the next of its messages -/
  | post (r : Room σ β ω ε) (i : ℕ) (h1 : 1 ≤ i) (h2 : i ≤ S.n) (m : Msg β)
      (next : (r.client i).run.sent[(r.client i).posted]? = some m) :
      Step r ⟨r.log ++ [m], Function.update r.client i
        { r.client i with posted := (r.client i).posted + 1 }⟩
  /-- client `i`, having posted its messages and not having returned, reads the next message of the room and
  either drops it or passes it on (gg20_sm_client.rs, lines 35-40) -/
  | read (r : Room σ β ω ε) (i : ℕ) (h1 : 1 ≤ i) (h2 : i ≤ S.n)
      (idle : (r.client i).posted = (r.client i).run.sent.length)
      (waits : (r.client i).run.result = none) (m : Msg β)
      (next : r.log[(r.client i).cursor]? = some m) :
      Step r ⟨r.log, Function.update r.client i
        { r.client i with
          cursor := (r.client i).cursor + 1
          run := if Client.accepts i m then Async.receive (S.machine i) S.critical (r.client i).run m
            else (r.client i).run }⟩

/-- `k` steps. (no lines of its own: repetition of `Step`, whose comment cites the lines) -/
inductive Setting.Steps : ℕ → Room σ β ω ε → Prop where
  | init : Steps 0 S.init
  | step {k : ℕ} {r r' : Room σ β ω ε} (h : Steps k r) (s : S.Step r r') : Steps (k + 1) r'

open GG20 in
/-- `n` clients that run `gg20_keygen.rs` (lines 38-51), drawing the random values `rnd 0, rnd 1, ...`. -/
def keygenRoom [Crypto] (n : ℕ) (rnd : ℕ → KeygenRandomness) (start : ℕ → Keygen.State) :
    Setting Keygen.State Keygen.M LocalKey Keygen.ProceedError :=
  ⟨n, fun i => Keygen.machine (rnd (i - 1)), keygenCritical, start⟩

open GG20 in
/-- `n` clients that run the offline stage of `gg20_signing.rs` (lines 41-56). -/
def offlineRoom [Crypto] (n : ℕ) (rnd : ℕ → SignRandomness) (start : ℕ → Sign.State) :
    Setting Sign.State Sign.M CompletedOfflineStage Sign.SignError :=
  ⟨n, fun i => Sign.machine (rnd (i - 1)), signCritical, start⟩

end Verif.Demo.Driver
