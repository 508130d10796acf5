import Verif.Model.Demo.Manager

/-!
# What clients of the GG20 message server observe

Readings of the list of observations of a run.
-/

namespace Verif.Demo.Server

/-- The messages whose publication in the room named `id` was acknowledged, in order -/
def published (id : String) (outs : List Out) : List String :=
  outs.filterMap fun
    | .published _ id' m => if id' = id then some m else none
    | _ => none

/-- The indices issued in the room named `id`, in order -/
def issued (id : String) (outs : List Out) : List ℕ :=
  outs.filterMap fun
    | .issued _ id' i => if id' = id then some i else none
    | _ => none

/-- The messages with their event ids that subscription `k` delivered, in order -/
def delivered (k : ℕ) (outs : List Out) : List (String × ℕ) :=
  outs.filterMap fun
    | .delivered k' i m => if k' = k then some (m, i) else none
    | _ => none

/-- How many subscription requests have arrived -/
def Db.subscriptionRequests (db : Db) : ℕ :=
  db.tasks.countP fun t => match t.req with
    | .subscribe _ => true
    | _ => false

/-- The messages stored in the room that the table has for a name -/
def Db.history (db : Db) (id : String) : List String :=
  match db.rooms id with
  | none => []
  | some a => ((db.heap[a]?).map (·.messages)).getD []

/-- Subscription `k` is open on the room `a` that the table has for `id`, and no request in progress for
`id` holds another room. -/
structure Settled (db : Db) (id : String) (k a : ℕ) : Prop where
  table : db.rooms id = some a
  sub : ∃ s, db.subs[k]? = some s ∧ s.live = true ∧ s.room = a
  fresh : ∀ t ∈ db.tasks, t.room_id = id → ∀ b, t.pc = .got b → b = a

/-- A state of the server that some schedule leads to -/
def Reachable (release : Bool) (db : Db) : Prop := ∃ es, db = (Db.empty.run release es).1

/-- No request for the room named `id` is in progress. -/
def Idle (db : Db) (id : String) : Prop :=
  ∀ t ∈ db.tasks, t.room_id = id → t.pc = .done ∨ ∃ a, t.pc = .crashed a

/-- Where a subscription has to start when its client last saw the given event: at the next event, or at the
beginning -/
def firstEvent : Option ℕ → ℕ
  | none => 0
  | some last_seen => last_seen + 1

/-- The next event subscription `k` is to deliver -/
def Db.position (db : Db) (k : ℕ) : ℕ := ((db.subs[k]?).map (·.next_event)).getD 0

end Verif.Demo.Server
