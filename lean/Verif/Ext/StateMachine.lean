import Verif.Ext.Store

/-!
# The `round_based::StateMachine` interface and histories of calls

`StateMachine` is the trait of the `round_based` crate that `Keygen` and `OfflineStage` implement.
A call through `&mut self` returns the new state together with its result, so the state after an error
is visible too.
-/

namespace Verif

/-- Internal errors of the state machines (keygen.rs, lines 480-; sign.rs, `InternalError`). -/
inductive InternalError where
  | StoreGone
  | RetrieveRoundMessages (e : StoreErr)
  deriving DecidableEq, Repr

/-- The errors of a running state machine: the common part of
`state_machine/keygen.rs`, lines 447-482, `Error` and `state_machine/sign.rs`, `Error`.
Simplification: the errors of the constructors `new` are a separate type. -/
inductive SMError (ε : Type) where
  | ProceedRound (e : ε)
  | HandleMessage (e : StoreErr)
  | ReceivedOutOfOrderMessage (current_round msg_round : ℕ)
  | DoublePickOutput
  | InternalError (e : InternalError)
  deriving DecidableEq

/-- Errors that refuse a message. -/
def SMError.refuses {ε : Type} : SMError ε → Bool
  | .HandleMessage _ => true
  | .ReceivedOutOfOrderMessage _ _ => true
  | _ => false

/-- The trait `round_based::StateMachine`, with the repository's `RoundBlame`
(gg_2020/state_machine/traits.rs). -/
structure StateMachine (σ β ω ε : Type) where
  handle_incoming : σ → Msg β → σ × Res (SMError ε) Unit
  proceed : σ → σ × Res (SMError ε) Unit
  message_queue : σ → List (Msg β)
  clear_queue : σ → σ
  wants_to_proceed : σ → Bool
  is_finished : σ → Bool
  pick_output : σ → σ × Option (Res (SMError ε) ω)
  current_round : σ → ℕ
  round_blame : σ → ℕ × List ℕ

/-- What a driver may do with a state machine; `drain` takes the outgoing messages. -/
inductive Op (β : Type) where
  | deliver (m : Msg β)
  | proceed
  | drain
  | pick

/-- A history: the current state and what was observed so far. -/
structure History (σ β ω ε : Type) where
  st : σ
  /-- messages taken from the outgoing queue, in order -/
  drained : List (Msg β)
  /-- delivered messages that were not refused, in order -/
  accepted : List (Msg β)
  /-- errors returned other than refusals of messages -/
  errors : List (SMError ε)
  /-- outputs picked -/
  outputs : List ω
  /-- a call panicked: nothing can be called any more -/
  panicked : Bool

namespace StateMachine

variable {σ β ω ε : Type} (M : StateMachine σ β ω ε)

/-- Record the result of `handle_incoming`/`proceed`. -/
def record (h : History σ β ω ε) (r : σ × Res (SMError ε) Unit) : History σ β ω ε :=
  match r.2 with
  | .ok _ => { h with st := r.1 }
  | .err e => { h with st := r.1, errors := if e.refuses then h.errors else h.errors ++ [e] }
  | .panic => { h with st := r.1, panicked := true }

/-- Was the message taken into a store? -/
def takes (r : Res (SMError ε) Unit) : Bool :=
  match r with
  | .err e => !e.refuses
  | _ => true

/-- One call. -/
def step (h : History σ β ω ε) (op : Op β) : History σ β ω ε :=
  if h.panicked then h else
  match op with
  | .deliver m =>
    let r := M.handle_incoming h.st m
    let h' := record h r
    if takes r.2 then { h' with accepted := h.accepted ++ [m] } else h'
  | .proceed => record h (M.proceed h.st)
  | .drain => { h with drained := h.drained ++ M.message_queue h.st, st := M.clear_queue h.st }
  | .pick =>
    let r := M.pick_output h.st
    match r.2 with
    | none => { h with st := r.1 }
    | some (.ok o) => { h with st := r.1, outputs := h.outputs ++ [o] }
    | some (.err e) => { h with st := r.1, errors := h.errors ++ [e] }
    | some .panic => { h with st := r.1, panicked := true }

/-- The history of a list of calls. -/
def run (s : σ) (ops : List (Op β)) : History σ β ω ε :=
  ops.foldl M.step ⟨s, [], [], [], [], false⟩

/-- All messages sent so far: drained ones and those still queued. -/
def sent (h : History σ β ω ε) : List (Msg β) := h.drained ++ M.message_queue h.st

end StateMachine
end Verif
