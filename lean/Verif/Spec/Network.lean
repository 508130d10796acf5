import Verif.Ext.StateMachine

/-!
# Specification: several state machines that exchange messages

The drivers of the repository (`gg20_keygen.rs`, `gg20_signing.rs`) run one state machine per process and
pass the messages on.  Here an execution is a list of events, each a call on the machine of one party, in
any order.
-/

namespace Verif.Spec

variable {σ β ω ε : Type}

/-- The calls on party `i`'s machine among the events. -/
def callsOf (i : ℕ) (evs : List (ℕ × Op β)) : List (Op β) :=
  evs.filterMap (fun e => if e.1 = i then some e.2 else none)

/-- The machines of parties `1, ..., n` and the states they start in. -/
structure Network (σ β ω ε : Type) where
  n : ℕ
  machine : ℕ → StateMachine σ β ω ε
  start : ℕ → σ

namespace Network

variable (N : Network σ β ω ε)

/-- `i` is one of the parties. -/
def Party (i : ℕ) : Prop := 1 ≤ i ∧ i ≤ N.n

/-- The history of party `i`. -/
def hist (evs : List (ℕ × Op β)) (i : ℕ) : History σ β ω ε :=
  (N.machine i).run (N.start i) (callsOf i evs)

/-- The messages party `i` sent. -/
def sent (evs : List (ℕ × Op β)) (i : ℕ) : List (Msg β) := (N.machine i).sent (N.hist evs i)

/-- Every delivered message was sent before by the party it names as its sender.  Messages may be
delayed, reordered, duplicated, lost, and delivered to parties they are not meant for. -/
def Authentic (evs : List (ℕ × Op β)) : Prop :=
  ∀ pre i m post, evs = pre ++ (i, .deliver m) :: post →
    N.Party m.sender ∧ m ∈ N.sent pre m.sender

/-- Every message sent was delivered to each other party it is meant for (once at least), and no party
wants to proceed. -/
structure Quiescent (evs : List (ℕ × Op β)) : Prop where
  delivered : ∀ i j, N.Party i → N.Party j → i ≠ j → ∀ m ∈ N.sent evs j,
    m.receiver = none ∨ m.receiver = some i → .deliver m ∈ callsOf i evs
  idle : ∀ i, N.Party i → (N.machine i).wants_to_proceed (N.hist evs i).st = false

/-- Nothing went wrong at party `i`: no call panicked, the only error is that of picking the output
again, and an output that was handed out is `o`, once. -/
structure Sound (evs : List (ℕ × Op β)) (i : ℕ) (o : ω) : Prop where
  no_panic : (N.hist evs i).panicked = false
  no_error : ∀ e ∈ (N.hist evs i).errors, e = .DoublePickOutput ∧ (N.hist evs i).outputs = [o]
  output : (N.hist evs i).outputs = [] ∨ (N.hist evs i).outputs = [o]

/-- Party `i` is done: it handed out `o` or is finished and holds `o`. -/
def Done (evs : List (ℕ × Op β)) (i : ℕ) (o : ω) : Prop :=
  (N.hist evs i).outputs = [o] ∨
    (N.machine i).is_finished (N.hist evs i).st = true ∧
      ((N.machine i).pick_output (N.hist evs i).st).2 = some (.ok o)

end Network
end Verif.Spec
