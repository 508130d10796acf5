import Mathlib.Data.Nat.Notation

/-!
# The GG20 message server

Models `examples/gg20_sm_manager.rs`.  Requests run concurrently, so a request is a task that is advanced
from one atomic access to shared memory to the next:

* `lookup`: lines 72-78, under the read lock of the room table; what matters is the instant at which
  `is_abandoned` reads the counter, the table cannot change between taking the lock and that instant;
* `create`: lines 81-90, under the write lock.  Between the test of the counter and the replacement of
  the table entry, a task that already holds the room can still subscribe or publish to it; such an access
  does not touch the table, so it may as well be placed after the replacement;
* `got`: the atomic increment (`subscribe`, `issue_unique_idx`) or the push under the message lock
  (`publish`).

Rooms are reference counted (`Arc`): a room replaced in the table lives on for those who hold it.  They
are addressed by their position in `heap`.  `u16` counters that are `fetch_add`ed wrap; `i + 1` on `u16`
panics in a debug build and wraps in a release build.  Not modelled: HTTP, JSON, shutdown, the waking-up
through `Notify` (`poll` is one pass through the loop of `Subscription::next`, which is repeated after
every notification).
-/

namespace Verif.Demo.Server

/-- lines 57-62, `Room`; the counters are `u16` -/
structure Room where
  messages : List String
  subscribers : ℕ
  next_idx : ℕ

/-- lines 95-102, `Room::empty` -/
def Room.empty : Room := ⟨[], 0, 1⟩

/-- lines 118-120, `Room::is_abandoned` -/
def Room.is_abandoned (r : Room) : Bool := r.subscribers == 0

/-- lines 127-130, `Subscription`; `live` until it is dropped (lines 148-152) -/
structure Subscription where
  room : ℕ
  next_event : ℕ
  live : Bool

/-- The three routes, lines 17-51; `subscribe` with the `Last-Event-ID` header, a `u16` (lines 155-175) -/
inductive Req where
  | subscribe (last_seen_msg : Option ℕ)
  | issue_idx
  | broadcast (message : String)

/-- How far a request is; `crashed` is a subscription request that panicked after the counter of the room
was incremented.
(the points between the atomic accesses in lines 24-25, 41-42, 48-49, 71-91, 110-116) -/
inductive Pc where
  | lookup
  | create
  | got (room : ℕ)
  | done
  | crashed (room : ℕ)

/-- Lines 18-23, 40, 47: a request in progress -/
structure Task where
  room_id : String
  req : Req
  pc : Pc

/-- line 53, `Db`, together with the requests in progress and the open subscriptions -/
structure Db where
  heap : List Room
  rooms : String → Option ℕ
  tasks : List Task
  subs : List Subscription

/-- lines 65-69, `Db::empty` -/
def Db.empty : Db := ⟨[], fun _ => none, [], []⟩

/-- What can happen next (lines 17-51, 133-152) -/
inductive Event where
  /-- a request arrives -/
  | arrive (room_id : String) (req : Req)
  /-- the request with this number does its next atomic access -/
  | advance (task : ℕ)
  /-- the stream of this subscription is polled -/
  | poll (sub : ℕ)
  /-- the client of this subscription goes away -/
  | disconnect (sub : ℕ)

/-- What clients observe (lines 25, 32-34, 43, 50) -/
inductive Out where
  | subscribed (task : ℕ) (room_id : String) (sub : ℕ)
  | issued (task : ℕ) (room_id : String) (unique_idx : ℕ)
  | published (task : ℕ) (room_id : String) (message : String)
  | delivered (sub : ℕ) (event_id : ℕ) (message : String)
  | crash

/-- `i + 1` on `u16`; `release` says whether the server is a release build. (lines 114 and 138) -/
def succ16 (release : Bool) (i : ℕ) : Option ℕ :=
  if i + 1 < 65536 then some (i + 1) else if release then some 0 else none

/-- The room stored for a name, if somebody is subscribed to it: lines 73-78, and 82-83 of the second test -/
def Db.watched (db : Db) (room_id : String) : Option ℕ :=
  match db.rooms room_id with
  | none => none
  | some a =>
    match db.heap[a]? with
    | none => none
    | some r => if r.is_abandoned then none else some a

/-- lines 71-79 of `get_room_or_create_empty` -/
def Db.lookup (db : Db) (room_id : String) : Pc :=
  match db.watched room_id with
  | some a => .got a
  | none => .create

/-- lines 81-90 of `get_room_or_create_empty` -/
def Db.create (db : Db) (room_id : String) : Db × ℕ :=
  match db.watched room_id with
  | some a => (db, a)
  | none =>
    ({ db with
        heap := db.heap ++ [Room.empty]
        rooms := fun x => if x = room_id then some db.heap.length else db.rooms x },
      db.heap.length)

/-- `fetch_add(1)` of the subscriber count, line 111 -/
def Room.addSubscriber (r : Room) : Room := { r with subscribers := (r.subscribers + 1) % 65536 }

/-- `fetch_sub(1)`, line 150 -/
def Room.removeSubscriber (r : Room) : Room :=
  { r with subscribers := if r.subscribers = 0 then 65535 else r.subscribers - 1 }

/-- lines 104-108, `Room::publish` -/
def Room.publish (r : Room) (message : String) : Room := { r with messages := r.messages ++ [message] }

/-- lines 122-124, `Room::issue_unique_idx`: the new room and the index -/
def Room.issue_unique_idx (r : Room) : Room × ℕ :=
  ({ r with next_idx := (r.next_idx + 1) % 65536 }, r.next_idx)

/-- Put task number `t` at `pc`. (no lines of its own: the program counter of a request handler) -/
def Db.goto (db : Db) (t : ℕ) (task : Task) (pc : Pc) : Db :=
  { db with tasks := db.tasks.set t { task with pc := pc } }

/-- line 114: the first event a subscription is to deliver -/
def startPos (release : Bool) : Option ℕ → Option ℕ
  | none => some 0
  | some i => succ16 release i

/-- The access to the room: `Room::subscribe` (lines 110-116), `issue_unique_idx`, `publish`. -/
def Db.serve (release : Bool) (db : Db) (t : ℕ) (task : Task) (a : ℕ) (r : Room) : Db × Option Out :=
  match task.req with
  | .subscribe last =>
    let db := { db with heap := db.heap.set a r.addSubscriber }
    match startPos release last with
    | some next =>
      ({ db.goto t task .done with subs := db.subs ++ [⟨a, next, true⟩] },
        some (.subscribed t task.room_id db.subs.length))
    | none => (db.goto t task (.crashed a), some .crash)
  | .issue_idx =>
    let (r', idx) := r.issue_unique_idx
    ({ db.goto t task .done with heap := db.heap.set a r' }, some (.issued t task.room_id idx))
  | .broadcast m =>
    ({ db.goto t task .done with heap := db.heap.set a (r.publish m) },
      some (.published t task.room_id m))

/-- One atomic access of request `t` (lines 24-25, 41-42, 48-49) -/
def Db.advance (release : Bool) (db : Db) (t : ℕ) : Db × Option Out :=
  match db.tasks[t]? with
  | none => (db, none)
  | some task =>
    match task.pc with
    | .lookup => (db.goto t task (db.lookup task.room_id), none)
    | .create =>
      let (db', a) := db.create task.room_id
      (db'.goto t task (.got a), none)
    | .got a =>
      match db.heap[a]? with
      | none => (db, none)
      | some r => db.serve release t task a r
    | .done => (db, none)
    | .crashed _ => (db, none)

/-- lines 148-152, `Drop for Subscription` -/
def Db.dropSub (db : Db) (k : ℕ) (s : Subscription) (r : Room) : Db :=
  { db with
      heap := db.heap.set s.room r.removeSubscriber
      subs := db.subs.set k { s with live := false } }

/-- lines 133-145, one pass through the loop of `Subscription::next`; a panic in the stream drops the
subscription. -/
def Db.poll (release : Bool) (db : Db) (k : ℕ) : Db × Option Out :=
  match db.subs[k]? with
  | none => (db, none)
  | some s =>
    if s.live then
      match db.heap[s.room]? with
      | none => (db, none)
      | some r =>
        match r.messages[s.next_event]? with
        | none => (db, none)
        | some m =>
          match succ16 release s.next_event with
          | some next =>
            ({ db with subs := db.subs.set k { s with next_event := next } },
              some (.delivered k s.next_event m))
          | none => (db.dropSub k s r, some .crash)
    else (db, none)

/-- The client of subscription `k` goes away: the stream is dropped. (lines 26-36 and 148-152) -/
def Db.disconnect (db : Db) (k : ℕ) : Db :=
  match db.subs[k]? with
  | none => db
  | some s =>
    if s.live then
      match db.heap[s.room]? with
      | none => db
      | some r => db.dropSub k s r
    else db

/-- One event (lines 17-51) -/
def Db.step (release : Bool) (db : Db) : Event → Db × Option Out
  | .arrive room_id req => ({ db with tasks := db.tasks ++ [⟨room_id, req, .lookup⟩] }, none)
  | .advance t => db.advance release t
  | .poll k => db.poll release k
  | .disconnect k => (db.disconnect k, none)

/-- A schedule of events, with everything the clients observe (lines 17-51, any number of requests) -/
def Db.run (release : Bool) (db : Db) : List Event → Db × List Out
  | [] => (db, [])
  | e :: es =>
    let (db', o) := db.step release e
    let (db'', os) := db'.run release es
    (db'', o.toList ++ os)

end Verif.Demo.Server
