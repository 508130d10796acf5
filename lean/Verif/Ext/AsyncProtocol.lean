import Verif.Ext.StateMachine

/-!
# `round_based::AsyncProtocol`: the loop that runs a state machine

The demo clients hand their state machine to `AsyncProtocol::run` of the `round_based` crate, version 0.1.
The crate is not part of the repository; this is its loop, from memory:

    finish_if_possible; proceed_if_needed; send_outgoing; finish_if_possible;
    loop { handle_incoming; send_outgoing; proceed_if_needed; send_outgoing; finish_if_possible }

Each pass of the loop waits for one incoming message, and calls `proceed` at most once.  An error is
returned to the caller exactly if it is critical (`IsCritical`); other errors are only logged.  `proceed`
runs on a thread of its own, so that its panics become errors.  Timers are not modelled (`round_timeout` is
`None` in the repository); the channels do not fail.
-/

namespace Verif.Async

/-- `round_based::async_runtime::Error` (without the errors of the channels) -/
inductive RunError (ε : Type) where
  | HandleIncoming (e : SMError ε)
  | Proceed (e : SMError ε)
  | ProceedPanicked
  | Finish (e : SMError ε)
  | BadStateMachine

/-- A run: the state machine, the messages passed to the outgoing channel so far, and the value returned
(`none` while the run waits for the next message). -/
structure Run (σ β ω ε : Type) where
  st : σ
  sent : List (Msg β)
  result : Option (Res (RunError ε) ω)

variable {σ β ω ε : Type}

/-- What follows is reached only if the run has not returned (`?`). -/
def Run.andThen (r : Run σ β ω ε) (f : Run σ β ω ε → Run σ β ω ε) : Run σ β ω ε :=
  if r.result.isSome then r else f r

variable (M : StateMachine σ β ω ε) (critical : SMError ε → Bool)

/-- `send_outgoing` -/
def sendOutgoing (r : Run σ β ω ε) : Run σ β ω ε :=
  { r with st := M.clear_queue r.st, sent := r.sent ++ M.message_queue r.st }

/-- `proceed_if_needed` -/
def proceedIfNeeded (r : Run σ β ω ε) : Run σ β ω ε :=
  if M.wants_to_proceed r.st then
    let p := M.proceed r.st
    match p.2 with
    | .ok _ => { r with st := p.1 }
    | .err e => { r with st := p.1, result := if critical e then some (.err (.Proceed e)) else none }
    | .panic => { r with st := p.1, result := some (.err .ProceedPanicked) }
  else r

/-- `finish_if_possible` -/
def finishIfPossible (r : Run σ β ω ε) : Run σ β ω ε :=
  if M.is_finished r.st then
    let p := M.pick_output r.st
    match p.2 with
    | some (.ok o) => { r with st := p.1, result := some (.ok o) }
    | some (.err e) => { r with st := p.1, result := some (.err (.Finish e)) }
    | some .panic => { r with st := p.1, result := some .panic }
    | none => { r with st := p.1, result := some (.err .BadStateMachine) }
  else r

/-- `handle_incoming`, after the next message came in -/
def handleIncoming (r : Run σ β ω ε) (m : Msg β) : Run σ β ω ε :=
  let p := M.handle_incoming r.st m
  match p.2 with
  | .ok _ => { r with st := p.1 }
  | .err e =>
    { r with st := p.1, result := if critical e then some (.err (.HandleIncoming e)) else none }
  | .panic => { r with st := p.1, result := some .panic }

/-- The rest of a pass. -/
def advance (r : Run σ β ω ε) : Run σ β ω ε :=
  ((proceedIfNeeded M critical r).andThen (sendOutgoing M)).andThen (finishIfPossible M)

/-- `run`, up to the loop -/
def start (s : σ) : Run σ β ω ε :=
  (finishIfPossible M ⟨s, [], none⟩).andThen (advance M critical)

/-- One pass of the loop, with the incoming message `m` (nothing if the run has returned). -/
def receive (r : Run σ β ω ε) (m : Msg β) : Run σ β ω ε :=
  ((r.andThen (fun r => handleIncoming M critical r m)).andThen (sendOutgoing M)).andThen
    (advance M critical)

/-- The run after the messages `ms` came in, one after the other. -/
def run (s : σ) (ms : List (Msg β)) : Run σ β ω ε := ms.foldl (receive M critical) (start M critical s)

end Verif.Async
