import Mathlib.Data.Nat.Notation
import Mathlib.Logic.Function.Basic

/-!
# Waiting for messages in a room of the GG20 message server

Models `Room::publish` (`examples/gg20_sm_manager.rs`, lines 104-108) and `Subscription::next` (lines
133-145) between the points at which a task may be suspended or another thread may interfere.  The message
list is behind a `tokio::sync::RwLock`: readers exclude writers, and a writer excludes everybody.
`message_appeared` is a `tokio::sync::Notify`, a dependency.  `Notify::notify_waiters` wakes the futures
returned by `notified()`; whether a future counts from its creation (as the documentation of `tokio`
guarantees) or only from its first `poll` is the parameter `Semantics`.

The model of the whole server is `Verif.Demo.Server`, where `poll` is one pass through the loop of `next`.
Here the number of the next event is a natural number; the overflow at 65536 events is treated there.
-/

namespace Verif.Demo.Wakeup

/-- From when on a future made by `Notify::notified` (line 141) is woken by `notify_waiters` (line 107) -/
inductive Semantics where
  | fromCreation
  | fromFirstPoll
  deriving DecidableEq

/-- Where a subscription is in `Subscription::next`, lines 133-145 -/
inductive SubPc where
  /-- line 135, before the read lock is acquired -/
  | idle
  /-- line 136, holding the read lock -/
  | locked
  /-- after line 141, holding the read lock; `notify_waiters` had been called `calls` times -/
  | created (calls : ℕ)
  /-- line 143; the number of calls of `notify_waiters` before the future counted, `none` if it does not yet -/
  | sleeping (calls : Option ℕ)
  /-- dropped, lines 148-152 -/
  | gone
  deriving DecidableEq

/-- Lines 127-130, `Subscription`, with the event it started from and what it has returned -/
structure Sub where
  start : ℕ
  next_event : ℕ
  got : List (ℕ × String)
  pc : SubPc

/-- Where a call of `Room::publish` is, lines 104-108 -/
inductive PubPc where
  /-- line 105, before the write lock is acquired -/
  | idle
  /-- line 106, holding the write lock -/
  | locked
  /-- line 107, holding the write lock -/
  | pushed
  | done
  deriving DecidableEq

/-- A call of `Room::publish`, line 104 -/
structure Pub where
  message : String
  pc : PubPc

/-- Lines 57-62, `Room`, with the subscriptions `0, ..., nsubs - 1` and the calls `0, ..., npubs - 1` of
`publish`; `calls` counts the calls of `notify_waiters`. -/
structure Room where
  messages : List String
  calls : ℕ
  nsubs : ℕ
  subs : ℕ → Sub
  npubs : ℕ
  pubs : ℕ → Pub

/-- Lines 95-102, `Room::empty` -/
def Room.empty : Room := ⟨[], 0, 0, fun _ => ⟨0, 0, [], .gone⟩, 0, fun _ => ⟨"", .done⟩⟩

/-- Nobody holds the write lock (line 135 can go on). -/
def Room.Readable (r : Room) : Prop :=
  ∀ j < r.npubs, (r.pubs j).pc ≠ .locked ∧ (r.pubs j).pc ≠ .pushed

/-- Nobody holds the lock (line 105 can go on). -/
def Room.Writable (r : Room) : Prop :=
  r.Readable ∧ ∀ i < r.nsubs, (r.subs i).pc ≠ .locked ∧ ∀ v, (r.subs i).pc ≠ .created v

/-- Replace subscription `i` (no lines of its own). -/
def Room.setSub (r : Room) (i : ℕ) (s : Sub) : Room := { r with subs := Function.update r.subs i s }

/-- Replace call `j` of `publish` (no lines of its own). -/
def Room.setPub (r : Room) (j : ℕ) (p : Pub) : Room := { r with pubs := Function.update r.pubs j p }

/-- A step of a subscription or of a call of `publish`, lines 104-108 and 133-145.  The lock of `tokio` is
fair; here it may be given to anybody who waits for it. -/
inductive Step (sem : Semantics) : Room → Room → Prop where
  /-- line 135 -/
  | read {r : Room} {i : ℕ} (hi : i < r.nsubs) (hp : (r.subs i).pc = .idle) (hl : r.Readable) :
      Step sem r (r.setSub i { r.subs i with pc := .locked })
  /-- lines 136-139; the lock is released and `next` is called again (lines 27-35) -/
  | deliver {r : Room} {i : ℕ} {m : String} (hi : i < r.nsubs) (hp : (r.subs i).pc = .locked)
      (hm : r.messages[(r.subs i).next_event]? = some m) :
      Step sem r (r.setSub i { r.subs i with
        next_event := (r.subs i).next_event + 1
        got := (r.subs i).got ++ [((r.subs i).next_event, m)]
        pc := .idle })
  /-- lines 136 and 141 -/
  | create {r : Room} {i : ℕ} (hi : i < r.nsubs) (hp : (r.subs i).pc = .locked)
      (hm : r.messages[(r.subs i).next_event]? = none) :
      Step sem r (r.setSub i { r.subs i with pc := .created r.calls })
  /-- line 142 -/
  | release {r : Room} {i v : ℕ} (hi : i < r.nsubs) (hp : (r.subs i).pc = .created v) :
      Step sem r (r.setSub i { r.subs i with
        pc := .sleeping (if sem = .fromCreation then some v else none) })
  /-- line 143, the first poll of a future that did not count yet -/
  | poll {r : Room} {i : ℕ} (hi : i < r.nsubs) (hp : (r.subs i).pc = .sleeping none) :
      Step sem r (r.setSub i { r.subs i with pc := .sleeping (some r.calls) })
  /-- line 143: `notify_waiters` was called since; back to line 135 -/
  | wake {r : Room} {i v : ℕ} (hi : i < r.nsubs) (hp : (r.subs i).pc = .sleeping (some v))
      (hv : v ≠ r.calls) :
      Step sem r (r.setSub i { r.subs i with pc := .idle })
  /-- line 105 -/
  | lock {r : Room} {j : ℕ} (hj : j < r.npubs) (hp : (r.pubs j).pc = .idle) (hl : r.Writable) :
      Step sem r (r.setPub j { r.pubs j with pc := .locked })
  /-- line 106 -/
  | push {r : Room} {j : ℕ} (hj : j < r.npubs) (hp : (r.pubs j).pc = .locked) :
      Step sem r { r.setPub j { r.pubs j with pc := .pushed } with
        messages := r.messages ++ [(r.pubs j).message] }
  /-- lines 107-108; the lock is released at the end -/
  | notify {r : Room} {j : ℕ} (hj : j < r.npubs) (hp : (r.pubs j).pc = .pushed) :
      Step sem r { r.setPub j { r.pubs j with pc := .done } with calls := r.calls + 1 }

/-- What clients do: subscribe (lines 110-116, `start` is the event after `Last-Event-ID`), post a message
(lines 46-51), or go away, which drops the future where it is suspended (lines 135 or 143). -/
inductive Request : Room → Room → Prop where
  | subscribe (r : Room) (start : ℕ) :
      Request r { r with
        nsubs := r.nsubs + 1
        subs := Function.update r.subs r.nsubs ⟨start, start, [], .idle⟩ }
  | broadcast (r : Room) (message : String) :
      Request r { r with
        npubs := r.npubs + 1
        pubs := Function.update r.pubs r.npubs ⟨message, .idle⟩ }
  | leave {r : Room} {i : ℕ} (hi : i < r.nsubs)
      (hp : (r.subs i).pc = .idle ∨ ∃ o, (r.subs i).pc = .sleeping o) :
      Request r (r.setSub i { r.subs i with pc := .gone })

/-- The states of a room: any interleaving of steps and requests (no lines of its own). -/
inductive Reachable (sem : Semantics) : Room → Prop where
  | empty : Reachable sem Room.empty
  | step {r r' : Room} (h : Reachable sem r) (s : Step sem r r') : Reachable sem r'
  | request {r r' : Room} (h : Reachable sem r) (s : Request r r') : Reachable sem r'

/-- `k` steps without new requests (no lines of its own). -/
inductive Steps (sem : Semantics) (start : Room) : ℕ → Room → Prop where
  | refl : Steps sem start 0 start
  | step {k : ℕ} {r r' : Room} (h : Steps sem start k r) (s : Step sem r r') : Steps sem start (k + 1) r'

end Verif.Demo.Wakeup
