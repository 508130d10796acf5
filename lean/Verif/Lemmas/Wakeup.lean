import Verif.Model.Demo.Wakeup
import Mathlib.Algebra.BigOperators.Group.Finset.Basic
import Mathlib.Algebra.BigOperators.Group.Finset.Piecewise
import Mathlib.Algebra.Order.BigOperators.Group.Finset

/-! Invariants of a room of the GG20 message server. -/

namespace Verif.Demo.Wakeup

open Finset

/-- A call of `publish` that has appended its message -/
def Pub.written (p : Pub) : Prop := p.pc = .pushed ∨ p.pc = .done

instance (p : Pub) : Decidable p.written := by unfold Pub.written; infer_instance

/-- What holds in every reachable state -/
structure Inv (r : Room) : Prop where
  excl : ∀ i < r.nsubs, (r.subs i).pc = .locked ∨ (∃ v, (r.subs i).pc = .created v) → r.Readable
  one : ∀ j < r.npubs, ∀ k < r.npubs, ((r.pubs j).pc = .locked ∨ (r.pubs j).pc = .pushed) →
    ((r.pubs k).pc = .locked ∨ (r.pubs k).pc = .pushed) → j = k
  pos : ∀ i < r.nsubs, (r.subs i).next_event = (r.subs i).start + (r.subs i).got.length
  ids : ∀ i < r.nsubs, (r.subs i).got.map Prod.fst = List.range' (r.subs i).start (r.subs i).got.length
  got : ∀ i < r.nsubs, (r.subs i).got.map Prod.snd =
    (r.messages.drop (r.subs i).start).take (r.subs i).got.length
  log : ∀ m, r.messages.count m =
    ∑ j ∈ range r.npubs, if (r.pubs j).written ∧ (r.pubs j).message = m then 1 else 0

/-- What holds in addition if futures count from their creation -/
structure InvC (r : Room) : Prop where
  created : ∀ i < r.nsubs, ∀ v, (r.subs i).pc = .created v →
    v = r.calls ∧ r.messages[(r.subs i).next_event]? = none
  awake : ∀ i < r.nsubs, (r.subs i).pc ≠ .sleeping none
  sleeping : ∀ i < r.nsubs, ∀ v, (r.subs i).pc = .sleeping (some v) → v ≤ r.calls ∧
    (v = r.calls → r.messages[(r.subs i).next_event]? = none ∨
      ∃ j < r.npubs, (r.pubs j).pc = .pushed)

/-- Replacing one subscription keeps what holds of the others. -/
private theorem upd_sub {r : Room} {i : ℕ} {s : Sub} {P : Sub → Prop} (hs : P s)
    (h : ∀ k < r.nsubs, P (r.subs k)) : ∀ k < (r.setSub i s).nsubs, P ((r.setSub i s).subs k) := by
  intro k hk
  change P (Function.update r.subs i s k)
  by_cases e : k = i
  · subst e; rw [Function.update_self]; exact hs
  · rw [Function.update_of_ne e]; exact h k hk

theorem Inv.setSub {r : Room} (h : Inv r) {i : ℕ} {s : Sub}
    (hex : s.pc = .locked ∨ (∃ v, s.pc = .created v) → r.Readable)
    (hpos : s.next_event = s.start + s.got.length)
    (hids : s.got.map Prod.fst = List.range' s.start s.got.length)
    (hgot : s.got.map Prod.snd = (r.messages.drop s.start).take s.got.length) : Inv (r.setSub i s) where
  excl := upd_sub (P := fun s => s.pc = .locked ∨ (∃ v, s.pc = .created v) → r.Readable) hex h.excl
  one := h.one
  pos := upd_sub (P := fun s => s.next_event = s.start + s.got.length) hpos h.pos
  ids := upd_sub (P := fun s => s.got.map Prod.fst = List.range' s.start s.got.length) hids h.ids
  got := upd_sub (P := fun s => s.got.map Prod.snd = (r.messages.drop s.start).take s.got.length) hgot h.got
  log := h.log

theorem Inv.setPc {r : Room} (h : Inv r) {i : ℕ} (hi : i < r.nsubs) {pc : SubPc}
    (hex : pc = .locked ∨ (∃ v, pc = .created v) → r.Readable) :
    Inv (r.setSub i { r.subs i with pc := pc }) :=
  h.setSub hex (h.pos i hi) (h.ids i hi) (h.got i hi)

private theorem sum_update {n j : ℕ} (hj : j < n) (f : ℕ → Pub) (p : Pub) (F : Pub → ℕ) :
    ∑ k ∈ range n, F (Function.update f j p k) + F (f j) = ∑ k ∈ range n, F (f k) + F p := by
  have e : ∀ g : ℕ → ℕ, ∑ k ∈ range n, g k = g j + ∑ k ∈ (range n).erase j, g k := fun g =>
    (Finset.add_sum_erase _ _ (mem_range.2 hj)).symm
  rw [e, e (fun k => F (f k)), Function.update_self]
  have : ∑ k ∈ (range n).erase j, F (Function.update f j p k) = ∑ k ∈ (range n).erase j, F (f k) :=
    Finset.sum_congr rfl fun k hk => by rw [Function.update_of_ne (Finset.ne_of_mem_erase hk)]
  rw [this]; omega

private theorem sum_update_sub {n j : ℕ} (hj : j < n) (f : ℕ → Sub) (p : Sub) (F : Sub → ℕ) :
    ∑ k ∈ range n, F (Function.update f j p k) + F (f j) = ∑ k ∈ range n, F (f k) + F p := by
  have e : ∀ g : ℕ → ℕ, ∑ k ∈ range n, g k = g j + ∑ k ∈ (range n).erase j, g k := fun g =>
    (Finset.add_sum_erase _ _ (mem_range.2 hj)).symm
  rw [e, e (fun k => F (f k)), Function.update_self]
  have : ∑ k ∈ (range n).erase j, F (Function.update f j p k) = ∑ k ∈ (range n).erase j, F (f k) :=
    Finset.sum_congr rfl fun k hk => by rw [Function.update_of_ne (Finset.ne_of_mem_erase hk)]
  rw [this]; omega

theorem take_drop_append {l : List String} {a k : ℕ} {m : String} (h : l[a + k]? = some m) :
    (l.drop a).take (k + 1) = (l.drop a).take k ++ [m] := by
  rw [List.take_add_one, List.getElem?_drop, h]; rfl

theorem take_drop_push {l : List String} {a k : ℕ} {m : String} {g : List String}
    (h : g = (l.drop a).take k) (hk : g.length = k) : g = ((l ++ [m]).drop a).take k := by
  by_cases ha : a ≤ l.length
  · rw [List.drop_append_of_le_length ha, List.take_append_of_le_length, h]
    have := congrArg List.length h
    rw [List.length_take] at this
    omega
  · have : l.drop a = [] := List.drop_eq_nil_of_le (by omega)
    rw [this, List.take_nil] at h
    subst h
    simp only [List.length_nil] at hk
    subst hk
    rw [List.take_zero]

theorem Inv.step {sem : Semantics} {r r' : Room} (h : Inv r) (s : Step sem r r') : Inv r' := by
  cases s with
  | read hi hp hl => exact h.setPc hi fun _ => hl
  | @deliver i m hi hp hm =>
    refine h.setSub (by rintro (e | ⟨v, e⟩) <;> cases e) ?_ ?_ ?_
    · have := h.pos i hi
      simp only [List.length_append, List.length_singleton]
      omega
    · simp only [List.map_append, List.map_cons, List.map_nil, List.length_append, List.length_singleton]
      rw [h.ids i hi, h.pos i hi, List.range'_concat, Nat.one_mul]
    · simp only [List.map_append, List.map_cons, List.map_nil, List.length_append, List.length_singleton]
      rw [h.got i hi]
      rw [h.pos i hi] at hm
      exact (take_drop_append hm).symm
  | create hi hp hm => exact h.setPc hi fun _ => h.excl _ hi (.inl hp)
  | release hi hp => exact h.setPc hi (by rintro (e | ⟨v, e⟩) <;> cases e)
  | poll hi hp => exact h.setPc hi (by rintro (e | ⟨v, e⟩) <;> cases e)
  | wake hi hp hv => exact h.setPc hi (by rintro (e | ⟨v, e⟩) <;> cases e)
  | @lock j hj hp hl =>
    refine ⟨fun i hi e => ?_, fun a ha b hb ea eb => ?_, h.pos, h.ids, h.got, fun m => ?_⟩
    · exact absurd e (by
        rintro (e | ⟨v, e⟩)
        · exact (hl.2 i hi).1 e
        · exact (hl.2 i hi).2 v e)
    · have key : ∀ c < r.npubs, (((r.setPub j { r.pubs j with pc := .locked }).pubs c).pc = .locked ∨
          ((r.setPub j { r.pubs j with pc := .locked }).pubs c).pc = .pushed) → c = j := by
        intro c hc e
        by_contra hne
        change (Function.update r.pubs j _ c).pc = _ ∨ (Function.update r.pubs j _ c).pc = _ at e
        rw [Function.update_of_ne hne] at e
        rcases e with e | e
        · exact (hl.1 c hc).1 e
        · exact (hl.1 c hc).2 e
      rw [key a ha ea, key b hb eb]
    · have := sum_update hj r.pubs { r.pubs j with pc := .locked }
        (fun p => if p.written ∧ p.message = m then 1 else 0)
      have w : ¬ (r.pubs j).written := by rintro (e | e) <;> rw [hp] at e <;> cases e
      have w' : ¬ ({ r.pubs j with pc := .locked } : Pub).written := by rintro (e | e) <;> cases e
      simp only [w, w', false_and, if_false, Nat.add_zero] at this
      exact (h.log m).trans this.symm
  | @push j hj hp =>
    refine ⟨fun i hi e => ?_, fun a ha b hb ea eb => ?_, h.pos, h.ids, fun i hi => ?_, fun m => ?_⟩
    · exact absurd hp (h.excl i hi e j hj).1
    · have key : ∀ c < r.npubs, ((Function.update r.pubs j { r.pubs j with pc := .pushed } c).pc = .locked ∨
          (Function.update r.pubs j { r.pubs j with pc := .pushed } c).pc = .pushed) → c = j := by
        intro c hc e
        by_contra hne
        rw [Function.update_of_ne hne] at e
        exact hne (h.one c hc j hj e (.inl hp))
      rw [key a ha ea, key b hb eb]
    · exact take_drop_push (h.got i hi) (by rw [List.length_map])
    · have := sum_update hj r.pubs { r.pubs j with pc := .pushed }
        (fun p => if p.written ∧ p.message = m then 1 else 0)
      have w : ¬ (r.pubs j).written := by rintro (e | e) <;> rw [hp] at e <;> cases e
      have w' : ({ r.pubs j with pc := .pushed } : Pub).written := .inl rfl
      simp only [w, w', false_and, if_false, Nat.add_zero, true_and] at this
      have hl := h.log m
      change (r.messages ++ [(r.pubs j).message]).count m = ∑ k ∈ range r.npubs,
        if (Function.update r.pubs j { r.pubs j with pc := .pushed } k).written ∧
          (Function.update r.pubs j { r.pubs j with pc := .pushed } k).message = m then 1 else 0
      rw [this, List.count_append, hl, List.count_singleton]
      simp only [beq_iff_eq]
  | @notify j hj hp =>
    refine ⟨fun i hi e => ?_, fun a ha b hb ea eb => ?_, h.pos, h.ids, h.got, fun m => ?_⟩
    · exact absurd hp (h.excl i hi e j hj).2
    · have key : ∀ c < r.npubs, ((Function.update r.pubs j { r.pubs j with pc := .done } c).pc = .locked ∨
          (Function.update r.pubs j { r.pubs j with pc := .done } c).pc = .pushed) → False := by
        intro c hc e
        by_cases hne : c = j
        · subst hne; rw [Function.update_self] at e; rcases e with e | e <;> cases e
        · rw [Function.update_of_ne hne] at e
          exact hne (h.one c hc j hj e (.inr hp))
      exact (key a ha ea).elim
    · have := sum_update hj r.pubs { r.pubs j with pc := .done }
        (fun p => if p.written ∧ p.message = m then 1 else 0)
      have w : (r.pubs j).written := .inl hp
      have w' : ({ r.pubs j with pc := .done } : Pub).written := .inr rfl
      simp only [w, w', true_and] at this
      exact (h.log m).trans (Nat.add_right_cancel this).symm

theorem Inv.request {r r' : Room} (h : Inv r) (s : Request r r') : Inv r' := by
  cases s with
  | subscribe start =>
    have key : ∀ P : Sub → Prop, P ⟨start, start, [], .idle⟩ → (∀ k < r.nsubs, P (r.subs k)) →
        ∀ k < r.nsubs + 1, P (Function.update r.subs r.nsubs ⟨start, start, [], .idle⟩ k) := by
      intro P h0 hP k hk
      by_cases e : k = r.nsubs
      · subst e; rw [Function.update_self]; exact h0
      · rw [Function.update_of_ne e]; exact hP k (by omega)
    exact ⟨key (fun s => s.pc = .locked ∨ (∃ v, s.pc = .created v) → r.Readable)
        (by rintro (e | ⟨v, e⟩) <;> cases e) h.excl, h.one,
      key (fun s => s.next_event = s.start + s.got.length) rfl h.pos,
      key (fun s => s.got.map Prod.fst = List.range' s.start s.got.length) rfl h.ids,
      key (fun s => s.got.map Prod.snd = (r.messages.drop s.start).take s.got.length)
        (by rw [List.length_nil, List.take_zero]; rfl) h.got, h.log⟩
  | broadcast message =>
    have key : ∀ c < r.npubs + 1,
        ((Function.update r.pubs r.npubs ⟨message, .idle⟩ c).pc = .locked ∨
          (Function.update r.pubs r.npubs ⟨message, .idle⟩ c).pc = .pushed) →
        c < r.npubs ∧ ((r.pubs c).pc = .locked ∨ (r.pubs c).pc = .pushed) := by
      intro c hc e
      by_cases hne : c = r.npubs
      · subst hne; rw [Function.update_self] at e; rcases e with e | e <;> cases e
      · rw [Function.update_of_ne hne] at e
        exact ⟨by omega, e⟩
    refine ⟨fun i hi e j hj => ?_, fun a ha b hb ea eb => ?_, h.pos, h.ids, h.got, fun m => ?_⟩
    · have hr := h.excl i hi e
      constructor
      · intro e2
        obtain ⟨hc, e3⟩ := key j hj (.inl e2)
        exact e3.elim (hr j hc).1 (hr j hc).2
      · intro e2
        obtain ⟨hc, e3⟩ := key j hj (.inr e2)
        exact e3.elim (hr j hc).1 (hr j hc).2
    · obtain ⟨hc, e3⟩ := key a ha ea
      obtain ⟨hc', e3'⟩ := key b hb eb
      exact h.one a hc b hc' e3 e3'
    · change r.messages.count m = ∑ k ∈ range (r.npubs + 1),
        if (Function.update r.pubs r.npubs ⟨message, .idle⟩ k).written ∧
          (Function.update r.pubs r.npubs ⟨message, .idle⟩ k).message = m then 1 else 0
      rw [Finset.sum_range_succ, Function.update_self, if_neg (by
        rintro ⟨e | e, _⟩ <;> cases e), Nat.add_zero, h.log m]
      refine Finset.sum_congr rfl fun k hk => ?_
      rw [Function.update_of_ne (by have := mem_range.1 hk; omega)]
  | leave hi hp => exact h.setPc hi (by rintro (e | ⟨v, e⟩) <;> cases e)

theorem inv_empty : Inv Room.empty where
  excl := fun i hi => absurd hi (Nat.not_lt_zero i)
  one := fun i hi => absurd hi (Nat.not_lt_zero i)
  pos := fun i hi => absurd hi (Nat.not_lt_zero i)
  ids := fun i hi => absurd hi (Nat.not_lt_zero i)
  got := fun i hi => absurd hi (Nat.not_lt_zero i)
  log := fun _ => rfl

theorem Reachable.inv {sem : Semantics} {r : Room} (h : Reachable sem r) : Inv r := by
  induction h with
  | empty => exact inv_empty
  | step _ s ih => exact ih.step s
  | request _ s ih => exact ih.request s

theorem InvC.setSub {r : Room} (h : InvC r) {i : ℕ} {s : Sub}
    (h1 : ∀ v, s.pc = .created v → v = r.calls ∧ r.messages[s.next_event]? = none)
    (h2 : s.pc ≠ .sleeping none)
    (h3 : ∀ v, s.pc = .sleeping (some v) → v ≤ r.calls ∧
      (v = r.calls → r.messages[s.next_event]? = none ∨ ∃ j < r.npubs, (r.pubs j).pc = .pushed)) :
    InvC (r.setSub i s) where
  created := upd_sub (P := fun s => ∀ v, s.pc = .created v → v = r.calls ∧ r.messages[s.next_event]? = none)
    h1 h.created
  awake := upd_sub (P := fun s => s.pc ≠ .sleeping none) h2 h.awake
  sleeping := upd_sub (P := fun s => ∀ v, s.pc = .sleeping (some v) → v ≤ r.calls ∧
      (v = r.calls → r.messages[s.next_event]? = none ∨ ∃ j < r.npubs, (r.pubs j).pc = .pushed))
    h3 h.sleeping

theorem InvC.step {r r' : Room} (hI : Inv r) (h : InvC r) (s : Step .fromCreation r r') : InvC r' := by
  cases s with
  | read hi hp hl => exact h.setSub (fun v e => by cases e) (fun e => by cases e) (fun v e => by cases e)
  | deliver hi hp hm => exact h.setSub (fun v e => by cases e) (fun e => by cases e) (fun v e => by cases e)
  | create hi hp hm =>
    exact h.setSub (fun v e => by cases e; exact ⟨rfl, hm⟩) (fun e => by cases e) (fun v e => by cases e)
  | @release i v hi hp =>
    obtain ⟨e1, e2⟩ := h.created i hi v hp
    rw [if_pos rfl]
    exact h.setSub (fun v e => by cases e) (fun e => by cases e)
      (fun v e => by cases e; exact ⟨e1.le, fun _ => .inl e2⟩)
  | @poll i hi hp => exact absurd hp (h.awake i hi)
  | wake hi hp hv => exact h.setSub (fun v e => by cases e) (fun e => by cases e) (fun v e => by cases e)
  | @lock j hj hp hl =>
    refine ⟨h.created, h.awake, fun i hi v e => ⟨(h.sleeping i hi v e).1, fun hv => ?_⟩⟩
    refine ((h.sleeping i hi v e).2 hv).imp_right ?_
    rintro ⟨k, hk, e2⟩
    exact absurd e2 (hl.1 k hk).2
  | @push j hj hp =>
    refine ⟨fun i hi v e => absurd hp (hI.excl i hi (.inr ⟨v, e⟩) j hj).1, h.awake,
      fun i hi v e => ⟨(h.sleeping i hi v e).1, fun _ => .inr ⟨j, hj, ?_⟩⟩⟩
    change (Function.update r.pubs j _ j).pc = _
    rw [Function.update_self]
  | @notify j hj hp =>
    refine ⟨fun i hi v e => absurd hp (hI.excl i hi (.inr ⟨v, e⟩) j hj).2, h.awake,
      fun i hi v e => ⟨(h.sleeping i hi v e).1.trans (Nat.le_succ _), fun hv => ?_⟩⟩
    have := (h.sleeping i hi v e).1
    change v = r.calls + 1 at hv
    omega

theorem InvC.request {r r' : Room} (h : InvC r) (s : Request r r') : InvC r' := by
  cases s with
  | subscribe start =>
    have key : ∀ P : Sub → Prop, P ⟨start, start, [], .idle⟩ → (∀ k < r.nsubs, P (r.subs k)) →
        ∀ k < r.nsubs + 1, P (Function.update r.subs r.nsubs ⟨start, start, [], .idle⟩ k) := by
      intro P h0 hP k hk
      by_cases e : k = r.nsubs
      · subst e; rw [Function.update_self]; exact h0
      · rw [Function.update_of_ne e]; exact hP k (by omega)
    exact ⟨key (fun s => ∀ v, s.pc = .created v → v = r.calls ∧ r.messages[s.next_event]? = none)
        (fun v e => by cases e) h.created,
      key (fun s => s.pc ≠ .sleeping none) (fun e => by cases e) h.awake,
      key (fun s => ∀ v, s.pc = .sleeping (some v) → v ≤ r.calls ∧
        (v = r.calls → r.messages[s.next_event]? = none ∨ ∃ j < r.npubs, (r.pubs j).pc = .pushed))
        (fun v e => by cases e) h.sleeping⟩
  | broadcast message =>
    refine ⟨h.created, h.awake, fun i hi v e => ⟨(h.sleeping i hi v e).1, fun hv => ?_⟩⟩
    refine ((h.sleeping i hi v e).2 hv).imp_right ?_
    rintro ⟨k, hk, e2⟩
    refine ⟨k, by change k < r.npubs + 1; omega, ?_⟩
    change (Function.update r.pubs r.npubs _ k).pc = _
    rw [Function.update_of_ne (by omega), e2]
  | leave hi hp => exact h.setSub (fun v e => by cases e) (fun e => by cases e) (fun v e => by cases e)

theorem Reachable.invC {r : Room} (h : Reachable .fromCreation r) : InvC r := by
  induction h with
  | empty =>
    exact ⟨fun i hi => absurd hi (Nat.not_lt_zero i), fun i hi => absurd hi (Nat.not_lt_zero i),
      fun i hi => absurd hi (Nat.not_lt_zero i)⟩
  | step h s ih => exact ih.step h.inv s
  | request _ s ih => exact ih.request s

theorem Steps.reachable {sem : Semantics} {r r' : Room} {k : ℕ} (h : Reachable sem r) (s : Steps sem r k r') :
    Reachable sem r' := by
  induction s with
  | refl => exact h
  | step _ st ih => exact ih.step st

/-! ### Termination -/

/-- How far a subscription is from sleeping, when `notify_waiters` was called `calls` times -/
def SubPc.rank (calls : ℕ) : SubPc → ℕ
  | .idle => 5
  | .locked => 4
  | .created v => if v = calls then 3 else 7
  | .sleeping none => 2
  | .sleeping (some v) => if v = calls then 1 else 6
  | .gone => 0

/-- How far a call of `publish` is from its end -/
def PubPc.rank : PubPc → ℕ
  | .idle => 3
  | .locked => 2
  | .pushed => 1
  | .done => 0

/-- 1 if the message is still to be appended -/
def PubPc.unwritten : PubPc → ℕ
  | .idle => 1
  | .locked => 1
  | .pushed => 0
  | .done => 0

/-- 1 if `notify_waiters` is still to be called -/
def PubPc.unfinished : PubPc → ℕ
  | .idle => 1
  | .locked => 1
  | .pushed => 1
  | .done => 0

/-- The number of messages when all calls of `publish` have appended theirs -/
def Room.total (r : Room) : ℕ :=
  r.messages.length + ∑ j ∈ range r.npubs, (r.pubs j).pc.unwritten

/-- The number of calls of `notify_waiters` to come -/
def Room.pending (r : Room) : ℕ := ∑ j ∈ range r.npubs, (r.pubs j).pc.unfinished

/-- A bound on the number of steps to come -/
def Room.bound (r : Room) : ℕ :=
  ∑ i ∈ range r.nsubs, (6 * (r.total - (r.subs i).next_event) + 6 * r.pending +
    (r.subs i).pc.rank r.calls) + ∑ j ∈ range r.npubs, (r.pubs j).pc.rank

private theorem sub_step {r : Room} {i : ℕ} (hi : i < r.nsubs) {s : Sub}
    (h : 6 * (r.total - s.next_event) + s.pc.rank r.calls + 1 ≤
      6 * (r.total - (r.subs i).next_event) + (r.subs i).pc.rank r.calls) :
    (r.setSub i s).bound + 1 ≤ r.bound := by
  have := sum_update_sub hi r.subs s
    (fun s => 6 * (r.total - s.next_event) + 6 * r.pending + s.pc.rank r.calls)
  unfold Room.bound
  change ∑ k ∈ range r.nsubs, (6 * (r.total - (Function.update r.subs i s k).next_event) + 6 * r.pending +
    (Function.update r.subs i s k).pc.rank r.calls) + ∑ j ∈ range r.npubs, (r.pubs j).pc.rank + 1 ≤ _
  omega

theorem SubPc.rank_le (pc : SubPc) (c d : ℕ) : pc.rank c ≤ pc.rank d + 6 := by
  cases pc with
  | created v => simp only [SubPc.rank]; split <;> split <;> omega
  | sleeping o =>
    cases o with
    | none => simp only [SubPc.rank]; omega
    | some v => simp only [SubPc.rank]; split <;> split <;> omega
  | _ => simp only [SubPc.rank]; omega

private theorem pub_step {r : Room} {j : ℕ} (hj : j < r.npubs) {p : Pub} {ms : List String} {c : ℕ}
    (h1 : ms.length + p.pc.unwritten = r.messages.length + (r.pubs j).pc.unwritten)
    (h2 : (c = r.calls ∧ p.pc.unfinished = (r.pubs j).pc.unfinished) ∨
      p.pc.unfinished + 1 = (r.pubs j).pc.unfinished)
    (h3 : p.pc.rank + 1 = (r.pubs j).pc.rank) :
    ({ r.setPub j p with messages := ms, calls := c } : Room).bound + 1 ≤ r.bound := by
  have e1 := sum_update hj r.pubs p (fun p => p.pc.unwritten)
  have e2 := sum_update hj r.pubs p (fun p => p.pc.unfinished)
  have e3 := sum_update hj r.pubs p (fun p => p.pc.rank)
  have t : ({ r.setPub j p with messages := ms, calls := c } : Room).total = r.total := by
    change ms.length + ∑ k ∈ range r.npubs, (Function.update r.pubs j p k).pc.unwritten =
      r.messages.length + ∑ k ∈ range r.npubs, (r.pubs k).pc.unwritten
    omega
  have q : ({ r.setPub j p with messages := ms, calls := c } : Room).pending + (r.pubs j).pc.unfinished =
      r.pending + p.pc.unfinished := e2
  generalize ht : ({ r.setPub j p with messages := ms, calls := c } : Room).total = t' at t
  generalize hq : ({ r.setPub j p with messages := ms, calls := c } : Room).pending = q' at q
  have hs : ∑ k ∈ range r.nsubs, (6 * (t' - (r.subs k).next_event) + 6 * q' + (r.subs k).pc.rank c) ≤
      ∑ k ∈ range r.nsubs, (6 * (r.total - (r.subs k).next_event) + 6 * r.pending +
        (r.subs k).pc.rank r.calls) := by
    refine Finset.sum_le_sum fun k _ => ?_
    have := (r.subs k).pc.rank_le c r.calls
    rcases h2 with ⟨rfl, h2⟩ | h2
    · rw [t]; omega
    · rw [t]; omega
  unfold Room.bound
  rw [ht, hq]
  change ∑ k ∈ range r.nsubs, (6 * (t' - (r.subs k).next_event) + 6 * q' + (r.subs k).pc.rank c) +
    ∑ k ∈ range r.npubs, (Function.update r.pubs j p k).pc.rank + 1 ≤ _
  omega

theorem bound_step {r r' : Room} (hI : InvC r) (s : Step .fromCreation r r') : r'.bound + 1 ≤ r.bound := by
  cases s with
  | read hi hp hl => exact sub_step hi (by rw [hp]; simp only [SubPc.rank]; omega)
  | @deliver i m hi hp hm =>
    refine sub_step hi ?_
    have h1 : (r.subs i).next_event < r.messages.length := (List.getElem?_eq_some_iff.1 hm).1
    have h2 : r.messages.length ≤ r.total := Nat.le_add_right _ _
    rw [hp]
    simp only [SubPc.rank]
    omega
  | create hi hp hm => exact sub_step hi (by rw [hp]; simp only [SubPc.rank, if_true]; omega)
  | @release i v hi hp =>
    obtain ⟨e1, -⟩ := hI.created i hi v hp
    exact sub_step hi (by rw [hp]; simp only [SubPc.rank, if_true, e1]; omega)
  | @poll i hi hp => exact absurd hp (hI.awake i hi)
  | wake hi hp hv => exact sub_step hi (by rw [hp]; simp only [SubPc.rank, if_neg hv]; omega)
  | @lock j hj hp hl =>
    exact pub_step (p := { r.pubs j with pc := .locked }) (ms := r.messages) (c := r.calls) hj
      (by rw [hp]; rfl) (.inl ⟨rfl, by rw [hp]; rfl⟩) (by rw [hp]; rfl)
  | @push j hj hp =>
    exact pub_step (p := { r.pubs j with pc := .pushed }) (ms := r.messages ++ [(r.pubs j).message])
      (c := r.calls) hj
      (by rw [hp, List.length_append, List.length_singleton]; rfl)
      (.inl ⟨rfl, by rw [hp]; rfl⟩) (by rw [hp]; rfl)
  | @notify j hj hp =>
    exact pub_step (p := { r.pubs j with pc := .done }) (ms := r.messages) (c := r.calls + 1) hj
      (by rw [hp]; rfl) (.inr (by rw [hp]; rfl)) (by rw [hp]; rfl)

theorem bound_steps {r r' : Room} {k : ℕ} (h : Reachable .fromCreation r) (s : Steps .fromCreation r k r') :
    r'.bound + k ≤ r.bound := by
  induction s with
  | refl => exact le_refl _
  | step s st ih => have := bound_step (s.reachable h).invC st; omega

/-- When nothing can move, everything has been published and everybody has got everything. -/
theorem stuck {r : Room} (h : Reachable .fromCreation r) (hs : ∀ r', ¬ Step .fromCreation r r') :
    (∀ j < r.npubs, (r.pubs j).pc = .done) ∧
    ∀ i < r.nsubs, (r.subs i).pc ≠ .gone → r.messages[(r.subs i).next_event]? = none := by
  have hI := h.inv
  have hC := h.invC
  have hpubs : ∀ j < r.npubs, (r.pubs j).pc ≠ .locked ∧ (r.pubs j).pc ≠ .pushed := fun j hj =>
    ⟨fun e => hs _ (.push hj e), fun e => hs _ (.notify hj e)⟩
  have hsubs : ∀ i < r.nsubs, (r.subs i).pc = .gone ∨
      ∃ v, (r.subs i).pc = .sleeping (some v) ∧ v = r.calls := by
    intro i hi
    rcases e : (r.subs i).pc with _ | _ | v | o | _
    · exact absurd (Step.read hi e hpubs) (hs _)
    · rcases hm : r.messages[(r.subs i).next_event]? with _ | m
      · exact absurd (Step.create hi e hm) (hs _)
      · exact absurd (Step.deliver hi e hm) (hs _)
    · exact absurd (Step.release hi e) (hs _)
    · rcases o with _ | v
      · exact absurd e (hC.awake i hi)
      · refine .inr ⟨v, rfl, ?_⟩
        by_contra hv
        exact hs _ (.wake hi e hv)
    · exact .inl rfl
  refine ⟨fun j hj => ?_, fun i hi hg => ?_⟩
  · rcases e : (r.pubs j).pc with _ | _ | _ | _
    · refine absurd (Step.lock hj e ⟨hpubs, fun i hi => ?_⟩) (hs _)
      rcases hsubs i hi with e | ⟨v, e, -⟩
      · rw [e]; exact ⟨(by intro h; cases h), (by intro v h; cases h)⟩
      · rw [e]; exact ⟨(by intro h; cases h), (by intro v h; cases h)⟩
    · exact absurd e (hpubs j hj).1
    · exact absurd e (hpubs j hj).2
    · rfl
  · rcases hsubs i hi with e | ⟨v, e, hv⟩
    · exact absurd e hg
    · rcases (hC.sleeping i hi v e).2 hv with h | ⟨j, hj, h⟩
      · exact h
      · exact absurd h (hpubs j hj).2

theorem Step.pubs_eq {sem : Semantics} {r r' : Room} (s : Step sem r r') :
    r'.npubs = r.npubs ∧ ∀ j, (r'.pubs j).message = (r.pubs j).message := by
  have key : ∀ (j : ℕ) (pc : PubPc) (k : ℕ),
      (Function.update r.pubs j { r.pubs j with pc := pc } k).message = (r.pubs k).message := by
    intro j pc k
    by_cases e : k = j
    · subst e; rw [Function.update_self]
    · rw [Function.update_of_ne e]
  cases s with
  | read => exact ⟨rfl, fun _ => rfl⟩
  | deliver => exact ⟨rfl, fun _ => rfl⟩
  | create => exact ⟨rfl, fun _ => rfl⟩
  | release => exact ⟨rfl, fun _ => rfl⟩
  | poll => exact ⟨rfl, fun _ => rfl⟩
  | wake => exact ⟨rfl, fun _ => rfl⟩
  | lock => exact ⟨rfl, key _ _⟩
  | push => exact ⟨rfl, key _ _⟩
  | notify => exact ⟨rfl, key _ _⟩

end Verif.Demo.Wakeup
