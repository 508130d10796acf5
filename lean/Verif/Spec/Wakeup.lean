import Verif.Model.Demo.Wakeup

/-! What is said about the rooms of the GG20 message server in C103 -/

namespace Verif.Demo.Wakeup

/-- Subscription `i` was made and its client is still there. -/
def Room.Connected (r : Room) (i : ℕ) : Prop := i < r.nsubs ∧ (r.subs i).pc ≠ .gone

/-- Subscription `i` is suspended until `notify_waiters` is called. -/
def Room.Asleep (r : Room) (i : ℕ) : Prop :=
  (r.subs i).pc = .sleeping none ∨ (r.subs i).pc = .sleeping (some r.calls)

/-- Message `m` is stored and subscription `i` has to deliver it next. -/
def Room.Undelivered (r : Room) (i : ℕ) (m : String) : Prop := r.messages[(r.subs i).next_event]? = some m

/-- The messages of all calls of `publish`, finished or not -/
def Room.posted (r : Room) : List String := (List.range r.npubs).map fun j => (r.pubs j).message

/-- The stored messages from number `start` on, with their numbers -/
def Room.numbered (r : Room) (start : ℕ) : List (ℕ × String) :=
  (List.range' start (r.messages.length - start)).zip (r.messages.drop start)

/-- Nothing moves any more. -/
def Room.Quiet (sem : Semantics) (r : Room) : Prop := ∀ r', ¬ Step sem r r'

end Verif.Demo.Wakeup
