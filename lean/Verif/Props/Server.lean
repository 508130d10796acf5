import Verif.Lemmas.Manager
import Mathlib.Data.List.Nodup

/-!
# C58, C59: the GG20 message server

The properties hold from the moment on at which one client is properly subscribed to the room (`Settled`)
for as long as that client stays.  Before that moment they do not: a room without a subscriber is thrown
away by the next request, even when a subscription to it is about to be counted.
-/

namespace Verif.Props

open Demo.Server

/-! ## How a room becomes settled -/

theorem startPos_eq {release : Bool} {last : Option ℕ} (h : firstEvent last < 65536) :
    startPos release last = some (firstEvent last) := by
  cases last with
  | none => rfl
  | some i => exact if_pos h

/-- **C58, C59.** A client that subscribes to a room while no other request for this room is in progress
is subscribed to the room that later requests will use; it starts after the last event it saw, and if nobody
watched the room before, the room is empty and its first index will be 1. -/
theorem C58_first_subscriber {release : Bool} {db : Db} {id : String}
    (hidle : Idle db id) {last : Option ℕ} (hlast : firstEvent last < 65536) :
    let T := db.tasks.length
    let run := db.run release [.arrive id (.subscribe last), .advance T, .advance T, .advance T]
    run.2 = [.subscribed T id db.subs.length] ∧ ∃ a, Settled run.1 id db.subs.length a ∧
      run.1.position db.subs.length = firstEvent last ∧
      (db.watched id = none → run.1.history id = [] ∧ ∃ r, run.1.heap[a]? = some r ∧ r.next_idx = 1) := by
  have hl := startPos_eq (release := release) hlast
  generalize firstEvent last = next at hl
  have hT : ∀ (x : Task), (db.tasks ++ [x])[db.tasks.length]? = some x := by simp
  have hTs : ∀ (x y : Task), (db.tasks ++ [x]).set db.tasks.length y = db.tasks ++ [y] := by
    intro x y
    rw [List.set_append_right _ _ le_rfl]
    simp
  have hfresh : ∀ (a : ℕ) (x : Task), (∀ b, x.pc ≠ .got b) →
      ∀ t ∈ db.tasks ++ [x], t.room_id = id → ∀ b, t.pc = .got b → b = a := by
    intro a x hx t ht hid b hb
    simp only [List.mem_append, List.mem_singleton] at ht
    rcases ht with ht | rfl
    · rcases hidle t ht hid with h | ⟨c, h⟩ <;> rw [h] at hb <;> simp at hb
    · exact absurd hb (hx b)
  cases hw : db.watched id with
  | some a =>
    obtain ⟨h1, r, h2, h3⟩ := watched_eq_some hw
    have hw' : ∀ tasks, ({ db with tasks := tasks } : Db).watched id = some a := fun tasks => hw
    simp only [Db.run, Db.step, Db.advance, hT, hTs, Db.goto, Db.lookup, hw', h2, Db.serve, hl,
      Option.toList, List.nil_append, List.append_nil]
    refine ⟨trivial, a, ⟨h1, ⟨⟨a, next, true⟩, by simp, rfl, rfl⟩, hfresh a _ (by simp)⟩, by simp [Db.position],
      by simp⟩
  | none =>
    have hw' : ∀ tasks, ({ db with tasks := tasks } : Db).watched id = none := fun tasks => hw
    simp only [Db.run, Db.step, Db.advance, hT, hTs, Db.goto, Db.lookup, hw', Db.create, Db.serve, hl,
      Option.toList, List.nil_append, List.append_nil, List.getElem?_concat_length]
    refine ⟨trivial, db.heap.length, ⟨by simp, ⟨⟨_, next, true⟩, by simp, rfl, rfl⟩, hfresh _ _ (by simp)⟩,
      by simp [Db.position], fun _ => ⟨?_, Room.empty.addSubscriber, by simp, rfl⟩⟩
    simp [Db.history, Room.addSubscriber, Room.empty]

/-- **C58.** While a room is settled, every further subscription that is acknowledged is to the same room and
starts after the last event its client saw. -/
theorem C58_later_subscriber {release : Bool} {db : Db} {id : String} {k a : ℕ} (h : Settled db id k a)
    {t k' : ℕ} (ho : (db.step release (.advance t)).2 = some (.subscribed t id k')) :
    Settled (db.step release (.advance t)).1 id k' a ∧
    ∀ task last, db.tasks[t]? = some task → task.req = .subscribe last → firstEvent last < 65536 →
      (db.step release (.advance t)).1.position k' = firstEvent last := by
  simp only [Db.step, Db.advance] at ho ⊢
  split at ho
  · simp at ho
  · rename_i task ht
    have htm : task ∈ db.tasks := List.mem_of_getElem? ht
    split at ho
    · simp at ho
    · simp at ho
    · rename_i b hpc
      split at ho
      · simp at ho
      · rename_i r hr
        unfold Db.serve at ho ⊢
        split at ho
        · rename_i last hq
          dsimp only at ho ⊢
          generalize hnx : startPos release last = nx at ho ⊢
          cases nx with
          | none => simp at ho
          | some next =>
            simp only [Option.some.injEq, Out.subscribed.injEq, true_and] at ho
            obtain ⟨hid, rfl⟩ := ho
            obtain rfl := h.fresh task htm hid b hpc
            refine ⟨⟨h.table, ⟨⟨b, next, true⟩, by simp, rfl, rfl⟩, ?_⟩, fun task' last' ht' hq' hlt => ?_⟩
            rotate_left
            · obtain rfl := Option.some.inj (ht.symm.trans ht')
              obtain rfl := Req.subscribe.inj (hq.symm.trans hq')
              rw [startPos_eq hlt] at hnx
              simp [Db.position, Option.some.inj hnx]
            intro t' h' hid' c hc
            rcases mem_set h' with h1 | rfl
            · exact h.fresh t' h1 hid' c hc
            · simp at hc
        · simp at ho
        · simp at ho
    · simp at ho
    · simp at ho

/-! ## What holds while the room is settled -/

/-- **C58.** Let subscription `k` be settled in the room named `id`.  Whatever else happens, as long as it is not
disconnected and there are fewer than 65536 subscription requests and fewer than 65536 messages in the
room: the room stays settled, it stores exactly the messages whose publication under the name `id` is
acknowledged, in that order, the subscription delivers from its position on each of them once, in order
and with its number, and it has nothing to deliver only when it has delivered all of them. -/
theorem C58_delivery_partial {release : Bool} {db : Db} (hR : Reachable release db) {id : String} {k a : ℕ}
    (h : Settled db id k a) {es : List Event} (he : .disconnect k ∉ es)
    (hn : (db.run release es).1.subscriptionRequests < 65536)
    (hm : (db.history id ++ published id (db.run release es).2).length < 65536) :
    let db' := (db.run release es).1
    let outs := (db.run release es).2
    let expected := (db.history id ++ published id outs).zipIdx.drop (db.position k)
    Settled db' id k a ∧ db'.history id = db.history id ++ published id outs ∧
      delivered k outs <+: expected ∧
      ((db'.poll release k).2 = none → delivered k outs = expected) := by
  intro db' outs expected
  have hI := reachable_inv hR
  have ha := hI.roomsLt _ _ h.table
  obtain ⟨s, hs, hlive, hsa⟩ := h.sub
  have hr := List.getElem?_eq_getElem ha
  generalize db.heap[a] = r at hr
  have hhist : db.history id = r.messages := by simp [Db.history, h.table, hr]
  have hpos : db.position k = s.next_event := by simp [Db.position, hs]
  have hidx : r.next_idx < 65536 := by
    obtain ⟨es0, rfl⟩ := hR
    exact idx_lt release es0 (db := Db.empty) (by simp [Db.empty]) r (List.mem_of_getElem? hr)
  rw [hhist] at hm
  obtain ⟨r', s', g1, g2, g3, g4, g5, g6, g7⟩ := run_settled release es hI h hr hs he hidx hn hm
  have hhist' : db'.history id = r'.messages := by
    simp only [Db.history]
    rw [g1.table]
    simp only [db', g2]
    rfl
  have hexp : expected = r'.messages.zipIdx.drop s.next_event := by
    simp only [expected, outs]
    rw [hhist, hpos, ← g4]
  have hget : ∀ i, i < (delivered k outs).length → (delivered k outs)[i]? = expected[i]? := by
    intro i hi
    obtain ⟨m, q1, q2⟩ := g7 i hi
    rw [q2, hexp, List.getElem?_drop, List.getElem?_zipIdx, q1]
    simp
  have hpre : delivered k outs <+: expected := by
    rw [List.prefix_iff_eq_take]
    apply List.ext_getElem?
    intro i
    by_cases hi : i < (delivered k outs).length
    · rw [hget i hi, List.getElem?_take_of_lt hi]
    · rw [List.getElem?_eq_none (by omega), List.getElem?_eq_none (by simp; omega)]
  refine ⟨g1, by rw [hhist', g4, hhist], hpre, ?_⟩
  intro hnone
  obtain ⟨s1, hs1, hl1, ha1⟩ := g1.sub
  obtain rfl : s1 = s' := Option.some.inj (hs1.symm.trans g3)
  have hr1 : (db.run release es).1.heap[s1.room]? = some r' := by rw [ha1]; exact g2
  have hlen : r'.messages.length ≤ s1.next_event := by
    by_contra hlt
    have hm' := List.getElem?_eq_getElem (l := r'.messages) (i := s1.next_event) (by omega)
    have hsz : r'.messages.length < 65536 := by rw [g4]; exact hm
    have hsucc : succ16 release s1.next_event = some (s1.next_event + 1) := by
      rw [succ16, if_pos (by omega)]
    simp only [db', Db.poll, hs1, hl1, if_true, hr1, hm', hsucc] at hnone
    simp at hnone
  apply hpre.eq_of_length_le
  rw [hexp, List.length_drop, List.length_zipIdx]
  show _ ≤ (delivered k (db.run release es).2).length
  omega

/-- **C59.** While a room is settled, the indices issued in it are consecutive (modulo 2^16), so no two of
the first 65536 are equal. -/
theorem C59_indices_partial {release : Bool} {db : Db} (hR : Reachable release db) {id : String} {k a : ℕ}
    (h : Settled db id k a) {r : Room} (hr : db.heap[a]? = some r) {es : List Event}
    (he : .disconnect k ∉ es)
    (hn : (db.run release es).1.subscriptionRequests < 65536)
    (hm : (db.history id ++ published id (db.run release es).2).length < 65536) :
    let idxs := issued id (db.run release es).2
    idxs = (List.range idxs.length).map (fun i => (r.next_idx + i) % 65536) ∧
      (idxs.length ≤ 65536 → idxs.Nodup) := by
  intro idxs
  have hI := reachable_inv hR
  obtain ⟨s, hs, hlive, hsa⟩ := h.sub
  have hhist : db.history id = r.messages := by simp [Db.history, h.table, hr]
  have hidx : r.next_idx < 65536 := by
    obtain ⟨es0, rfl⟩ := hR
    exact idx_lt release es0 (db := Db.empty) (by simp [Db.empty]) r (List.mem_of_getElem? hr)
  rw [hhist] at hm
  obtain ⟨r', s', g1, g2, g3, g4, g5, g6, g7⟩ := run_settled release es hI h hr hs he hidx hn hm
  refine ⟨g5, fun hlen => ?_⟩
  show idxs.Nodup
  have : idxs = (List.range idxs.length).map (fun i => (r.next_idx + i) % 65536) := g5
  rw [this]
  refine (List.nodup_map_iff_inj_on List.nodup_range).2 ?_
  intro i hi j hj hij
  simp only [List.mem_range] at hi hj
  omega

/-- **C59.** A computation whose first client subscribes alone in a room nobody watches, and stays:
the indices issued from then on are 1, 2, 3, ... without gap or repetition. -/
theorem C59_indices_from_one_partial {release : Bool} {db : Db} (hR : Reachable release db) {id : String}
    (hidle : Idle db id) (hw : db.watched id = none) {es : List Event}
    (he : .disconnect db.subs.length ∉ es) :
    let T := db.tasks.length
    let db1 := (db.run release [.arrive id (.subscribe none), .advance T, .advance T, .advance T]).1
    let idxs := issued id (db1.run release es).2
    (db1.run release es).1.subscriptionRequests < 65536 →
    (published id (db1.run release es).2).length < 65536 → idxs.length < 65536 →
    idxs = List.range' 1 idxs.length := by
  intro T db1 idxs hn hm hlen
  obtain ⟨-, a, hset, -, hnew⟩ := C58_first_subscriber (release := release) hidle (last := none) (by decide)
  obtain ⟨hhist, r, hr, h1⟩ := hnew hw
  have hR1 : Reachable release db1 := by
    obtain ⟨es0, rfl⟩ := hR
    exact ⟨es0 ++ _, (run_append release es0 _ (db := Db.empty)).symm⟩
  obtain ⟨h2, -⟩ := C59_indices_partial hR1 hset hr he hn (by rw [hhist]; simpa using hm)
  rw [h1] at h2
  have h3 : idxs = (List.range idxs.length).map (fun i => (1 + i) % 65536) := h2
  rw [h3, List.length_map, List.length_range, List.range'_eq_map_range]
  refine List.map_congr_left fun i hi => ?_
  simp only [List.mem_range] at hi
  omega

/-! ## What goes wrong before -/

/-- **C58 fails.** Two clients subscribe to a new room at the same time, both are acknowledged and none goes
away.  The first is subscribed to a room that has been thrown away: whatever is published from then
on, it never receives any message. -/
theorem C58_orphaned_subscriber (release : Bool) : ∃ es0,
    (Db.empty.run release es0).2 = [.subscribed 0 "room" 0, .subscribed 1 "room" 1] ∧
    ∀ es, delivered 0 ((Db.empty.run release es0).1.run release es).2 = [] := by
  refine ⟨[.arrive "room" (.subscribe none), .arrive "room" (.subscribe none), .advance 0, .advance 0,
    .advance 1, .advance 1, .advance 0, .advance 1], rfl, fun es => ?_⟩
  refine orphan_run (a := 0) release es ⟨?_, ?_, ?_⟩ rfl ⟨_, rfl, rfl⟩
  · exact Nat.zero_lt_succ _
  · intro id
    simp [Db.run, Db.step, Db.advance, Db.lookup, Db.watched, Db.create, Db.goto, Db.serve, Db.empty,
      Room.is_abandoned, Room.empty, startPos]
    split_ifs <;> simp
  · intro t ht
    simp [Db.run, Db.step, Db.advance, Db.lookup, Db.watched, Db.create, Db.goto, Db.serve, Db.empty,
      Room.is_abandoned, Room.empty, startPos] at ht
    obtain rfl | rfl := ht
    all_goals simp

/-- **C58 fails.** A message published in a room without subscriber is acknowledged and lost: the next
client to subscribe finds an empty room. -/
theorem C58_unwatched_message_lost (release : Bool) (m : String) :
    let es : List Event := [.arrive "room" (.broadcast m), .advance 0, .advance 0, .advance 0,
      .arrive "room" (.subscribe none), .advance 1, .advance 1, .advance 1]
    (Db.empty.run release es).2 = [.published 0 "room" m, .subscribed 1 "room" 0] ∧
      (Db.empty.run release es).1.history "room" = [] ∧
      ∃ a, Settled (Db.empty.run release es).1 "room" 0 a := by
  refine ⟨rfl, rfl, 1, ⟨rfl, ⟨_, rfl, rfl, rfl⟩, ?_⟩⟩
  intro t ht
  simp [Db.run, Db.step, Db.advance, Db.lookup, Db.watched, Db.create, Db.goto, Db.serve, Db.empty,
      Room.is_abandoned, Room.empty, Room.publish, startPos] at ht
  rcases ht with rfl | rfl <;> simp

/-- **C59 fails.** Two clients that subscribe and then ask for an index, as `join_computation` does, are both
given index 1, although none of them goes away. -/
theorem C59_same_index_twice (release : Bool) : ∃ es,
    (∀ k, .disconnect k ∉ es) ∧
    (Db.empty.run release es).2 = [.subscribed 0 "room" 0, .issued 2 "room" 1,
      .subscribed 1 "room" 1, .issued 3 "room" 1] :=
  ⟨[.arrive "room" (.subscribe none), .arrive "room" (.subscribe none), .advance 0, .advance 0,
    .advance 1, .advance 1, .advance 0, .arrive "room" .issue_idx, .advance 2, .advance 2, .advance 2,
    .advance 1, .arrive "room" .issue_idx, .advance 3, .advance 3, .advance 3],
    by simp, rfl⟩

/-- **C59 fails.** Indices are given again when the room has no subscriber in between. -/
theorem C59_index_reused (release : Bool) : ∃ es,
    (Db.empty.run release es).2 = [.issued 0 "room" 1, .issued 1 "room" 1] :=
  ⟨[.arrive "room" .issue_idx, .advance 0, .advance 0, .advance 0,
    .arrive "room" .issue_idx, .advance 1, .advance 1, .advance 1], rfl⟩

/-- **C58 fails** beyond 65536 messages: a server built for release delivers the first message a second time, a
server built for debugging closes the connection without delivering message number 65535. -/
theorem C58_event_number_wraps (release : Bool) : ∃ db : Db, ∃ m m0 : String, Reachable release db ∧
    Settled db "room" 0 0 ∧ (db.history "room")[65535]? = some m ∧ (db.history "room")[0]? = some m0 ∧
    db.position 0 = 65535 ∧
    (db.run release [.poll 0, .poll 0]).2 =
      if release then [.delivered 0 65535 m, .delivered 0 0 m0] else [.crash] := by
  obtain ⟨es, h⟩ := long_room release 65535 le_rfl
  obtain ⟨es1, h1⟩ := h.publish release (inv_empty.run release es)
  rw [← run_append] at h1
  generalize hdb : (Db.empty.run release (es ++ es1)).1 = db at h1
  obtain ⟨r, hr, hm⟩ := h1.room
  obtain ⟨s, hs, hl, ha⟩ := h1.settled.sub
  obtain ⟨s', hs', hpos⟩ := h1.sub
  obtain rfl : s = s' := Option.some.inj (hs.symm.trans hs')
  have hk := (List.getElem?_eq_some_iff.1 hs).1
  have hh : db.history "room" = r.messages := by simp [Db.history, h1.settled.table, hr]
  have hlast : r.messages[65535]? = some "m" := by
    rw [hm, List.getElem?_replicate, if_pos (by omega)]
  have hfirst : r.messages[0]? = some "m" := by
    rw [hm, List.getElem?_replicate, if_pos (by omega)]
  refine ⟨db, "m", "m", ⟨_, hdb.symm⟩, h1.settled, by rw [hh, hlast], by rw [hh, hfirst],
    by simp [Db.position, hs, hpos], ?_⟩
  have hset : ∀ x : Subscription, (db.subs.set 0 x)[0]? = some x := by intro x; simp [hk]
  cases release with
  | true =>
    have h2 : succ16 true 65535 = some 0 := rfl
    have h3 : succ16 true 0 = some 1 := rfl
    simp only [Db.run, Db.step, Db.poll, hs, hl, if_true, ha, hr, hpos, hlast, h2, hset, hfirst, h3]
    rfl
  | false =>
    have h2 : succ16 false 65535 = none := rfl
    simp only [Db.run, Db.step, Db.poll, hs, hl, if_true, ha, hr, hpos, hlast, h2, Db.dropSub, hset]
    rfl

/-! ## Concrete cases -/

/-- A second subscriber joins, messages are published by requests that overlap, both subscribers poll. -/
example : let db := (Db.empty.run false [.arrive "a" (.subscribe none), .advance 0, .advance 0, .advance 0]).1
    let es : List Event := [.arrive "a" (.broadcast "x"), .arrive "a" (.subscribe none), .arrive "a" (.broadcast "y"),
      .advance 1, .advance 3, .advance 3, .poll 0, .advance 2, .advance 1, .advance 2, .poll 1, .poll 1, .poll 0]
    Settled db "a" 0 0 ∧ db.watched "a" = some 0 ∧ .disconnect 0 ∉ es ∧
      published "a" (db.run false es).2 = ["y", "x"] ∧
      delivered 0 (db.run false es).2 = [("y", 0), ("x", 1)] ∧
      delivered 1 (db.run false es).2 = [("y", 0), ("x", 1)] := by
  refine ⟨⟨rfl, ⟨_, rfl, rfl, rfl⟩, ?_⟩, rfl, by simp, rfl, rfl, rfl⟩
  intro t ht
  simp [Db.run, Db.step, Db.advance, Db.lookup, Db.watched, Db.create, Db.goto, Db.serve, Db.empty,
    Room.empty, startPos] at ht
  subst ht
  simp

/-- A second client that has seen event 0 gets event 1. -/
example : let db := (Db.empty.run true [.arrive "a" (.subscribe none), .advance 0, .advance 0, .advance 0]).1
    let es : List Event := [.arrive "a" (.broadcast "x"), .arrive "a" (.broadcast "y"), .advance 1, .advance 1,
      .advance 2, .advance 2, .arrive "a" (.subscribe (some 0)), .advance 3, .advance 3, .poll 1, .poll 1]
    delivered 1 (db.run true es).2 = [("y", 1)] := rfl

/-- Three clients ask for an index at the same time. -/
example : let db := (Db.empty.run true [.arrive "a" (.subscribe none), .advance 0, .advance 0, .advance 0]).1
    let es : List Event := [.arrive "a" .issue_idx, .arrive "a" .issue_idx, .arrive "a" .issue_idx,
      .advance 1, .advance 2, .advance 3, .advance 3, .advance 1, .advance 2]
    issued "a" (db.run true es).2 = [1, 2, 3] := rfl

end Verif.Props
