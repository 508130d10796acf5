import Verif.Lemmas.Wakeup
import Verif.Spec.Wakeup
import Mathlib.Data.List.Count
import Mathlib.Algebra.BigOperators.Fin

/-!
# C103: a client waiting for messages of a room is woken when there are some

The state and the steps are those of `Verif.Demo.Wakeup`: any number of subscriptions and of calls of
`publish` in one room, suspended and resumed in any order.
-/

namespace Verif.Demo.Wakeup

/-- **C103.** In every state that can be reached, a subscription sleeps in front of a message it has not
delivered only while some `publish` has stored its message and is about to wake everybody. -/
theorem C103_no_lost_wakeup {r : Room} (h : Reachable .fromCreation r) {i : ℕ} (hc : r.Connected i)
    (hs : r.Asleep i) {m : String} (hu : r.Undelivered i m) :
    ∃ j < r.npubs, (r.pubs j).pc = .pushed := by
  rcases hs with e | e
  · exact absurd e (h.invC.awake i hc.1)
  · rcases (h.invC.sleeping i hc.1 _ e).2 rfl with h0 | h0
    · rw [Room.Undelivered, h0] at hu; cases hu
    · exact h0

/-- At every moment what a subscription has delivered are the first of the stored messages from its start on,
each once, in order and with its number. -/
theorem C103_prefix {sem : Semantics} {r : Room} (h : Reachable sem r) {i : ℕ} (hc : r.Connected i) :
    (r.subs i).got <+: r.numbered (r.subs i).start := by
  have h1 := h.inv.ids i hc.1
  have h2 := h.inv.got i hc.1
  have hz : ∀ l : List (ℕ × String), l = (l.map Prod.fst).zip (l.map Prod.snd) := by
    intro l
    induction l with
    | nil => rfl
    | cons a l ih => rw [List.map_cons, List.map_cons, List.zip_cons_cons, ← ih]
  have hlen : (r.subs i).got.length ≤ r.messages.length - (r.subs i).start := by
    have := congrArg List.length h2
    rw [List.length_map, List.length_take, List.length_drop] at this
    omega
  have e : (r.subs i).got = (r.numbered (r.subs i).start).take (r.subs i).got.length := by
    refine (hz _).trans ?_
    rw [h1, h2, Room.numbered, List.zip_eq_zipWith, List.zip_eq_zipWith, List.take_zipWith,
      List.take_range'_of_length_ge hlen]
  rw [e]
  exact List.take_prefix _ _

/-- When nothing moves any more, every connected client has got everything from its start on. -/
theorem quiet_got {r : Room} (h : Reachable .fromCreation r) (hq : r.Quiet .fromCreation) {i : ℕ}
    (hc : r.Connected i) : (r.subs i).got = r.numbered (r.subs i).start := by
  have h0 := (stuck h hq).2 i hc.1 hc.2
  refine (C103_prefix h hc).eq_of_length_le ?_
  have h1 := h.inv.pos i hc.1
  rw [List.getElem?_eq_none_iff] at h0
  rw [Room.numbered, List.length_zip, List.length_range', List.length_drop]
  omega

theorem quiet_messages {r : Room} (h : Reachable .fromCreation r) (hq : r.Quiet .fromCreation) :
    r.messages.Perm r.posted := by
  have h0 := (stuck h hq).1
  rw [List.perm_iff_count]
  intro m
  rw [h.inv.log m, Room.posted, List.count, List.countP_map, List.countP_eq_length_filter,
    ← List.countP_eq_length_filter]
  have : ∀ n ≤ r.npubs, (∑ j ∈ Finset.range n, if (r.pubs j).written ∧ (r.pubs j).message = m then 1 else 0) =
      (List.range n).countP ((fun x => x == m) ∘ fun j => (r.pubs j).message) := by
    intro n
    induction n with
    | zero => intro _; rfl
    | succ n ih =>
      intro hn
      rw [Finset.sum_range_succ, List.range_succ, List.countP_append, ih (by omega), List.countP_singleton]
      have w : (r.pubs n).written := .inr (h0 n (by omega))
      simp only [w, true_and, Function.comp, beq_iff_eq]
  exact this _ le_rfl

theorem Step.subs_eq {sem : Semantics} {r r' : Room} (s : Step sem r r') :
    r'.nsubs = r.nsubs ∧ ∀ i < r.nsubs, (r'.subs i).start = (r.subs i).start ∧
      ((r.subs i).pc ≠ .gone → (r'.subs i).pc ≠ .gone) := by
  have key : ∀ (k : ℕ) (s : Sub), s.start = (r.subs k).start → s.pc ≠ .gone → ∀ i < r.nsubs,
      (Function.update r.subs k s i).start = (r.subs i).start ∧
      ((r.subs i).pc ≠ .gone → (Function.update r.subs k s i).pc ≠ .gone) := by
    intro k s hs hp i _
    by_cases e : i = k
    · subst e; rw [Function.update_self]; exact ⟨hs, fun _ => hp⟩
    · rw [Function.update_of_ne e]; exact ⟨rfl, id⟩
  cases s with
  | read => exact ⟨rfl, key _ _ rfl (by intro h; cases h)⟩
  | deliver => exact ⟨rfl, key _ _ rfl (by intro h; cases h)⟩
  | create => exact ⟨rfl, key _ _ rfl (by intro h; cases h)⟩
  | release => exact ⟨rfl, key _ _ rfl (by intro h; cases h)⟩
  | poll => exact ⟨rfl, key _ _ rfl (by intro h; cases h)⟩
  | wake => exact ⟨rfl, key _ _ rfl (by intro h; cases h)⟩
  | lock => exact ⟨rfl, fun _ _ => ⟨rfl, id⟩⟩
  | push => exact ⟨rfl, fun _ _ => ⟨rfl, id⟩⟩
  | notify => exact ⟨rfl, fun _ _ => ⟨rfl, id⟩⟩

theorem Steps.kept {sem : Semantics} {r r' : Room} {k : ℕ} (s : Steps sem r k r') :
    r'.posted = r.posted ∧ r'.nsubs = r.nsubs ∧ ∀ i < r.nsubs, (r'.subs i).start = (r.subs i).start ∧
      ((r.subs i).pc ≠ .gone → (r'.subs i).pc ≠ .gone) := by
  induction s with
  | refl => exact ⟨rfl, rfl, fun _ _ => ⟨rfl, id⟩⟩
  | step _ st ih =>
    obtain ⟨p1, p2⟩ := st.pubs_eq
    obtain ⟨s1, s2⟩ := st.subs_eq
    obtain ⟨i1, i2, i3⟩ := ih
    refine ⟨?_, s1.trans i2, fun i hi => ?_⟩
    · rw [← i1, Room.posted, Room.posted, p1]
      exact List.map_congr_left fun j _ => p2 j
    · obtain ⟨a, b⟩ := s2 i (i2 ▸ hi)
      obtain ⟨c, d⟩ := i3 i hi
      exact ⟨a.trans c, b ∘ d⟩

/-- **C103.** From every state that can be reached, if no further request comes, the room comes to rest after
boundedly many steps in whatever order they are taken; then the stored messages are exactly those posted,
and every client that was connected has got all of them from its start on, each once, in the order in
which they are stored and with its number. -/
theorem C103_delivery {r : Room} (h : Reachable .fromCreation r) :
    ∃ N, ∀ k r', Steps .fromCreation r k r' → k ≤ N ∧
      (r'.Quiet .fromCreation → r'.messages.Perm r.posted ∧
        ∀ i, r.Connected i → (r'.subs i).got = r'.numbered (r.subs i).start) := by
  refine ⟨r.bound, fun k r' s => ⟨by have := bound_steps h s; omega, fun hq => ?_⟩⟩
  obtain ⟨e1, e2, e3⟩ := s.kept
  have h' := s.reachable h
  refine ⟨e1 ▸ quiet_messages h' hq, fun i hi => ?_⟩
  obtain ⟨a, b⟩ := e3 i hi.1
  rw [← a]
  exact quiet_got h' hq ⟨e2 ▸ hi.1, b hi.2⟩

/-! ### A concrete run: the client looks, finds nothing, a message is published while it goes to sleep -/

/-- One client, one message being posted -/
def toyR0 : Room := { Room.empty with
  nsubs := 1, subs := Function.update Room.empty.subs 0 ⟨0, 0, [], .idle⟩
  npubs := 1, pubs := Function.update Room.empty.pubs 0 ⟨"m", .idle⟩ }

def toyR1 : Room := toyR0.setSub 0 ⟨0, 0, [], .locked⟩
def toyR2 : Room := toyR1.setSub 0 ⟨0, 0, [], .created 0⟩
def toyR3 (o : Option ℕ) : Room := toyR2.setSub 0 ⟨0, 0, [], .sleeping o⟩
def toyR4 (o : Option ℕ) : Room := (toyR3 o).setPub 0 ⟨"m", .locked⟩
def toyR5 (o : Option ℕ) : Room := { (toyR4 o).setPub 0 ⟨"m", .pushed⟩ with messages := ["m"] }
def toyR6 (o : Option ℕ) : Room := { (toyR5 o).setPub 0 ⟨"m", .done⟩ with calls := 1 }

theorem toy_reachable (sem : Semantics) :
    Reachable sem (toyR6 (if sem = .fromCreation then some 0 else none)) := by
  have h0 : Reachable sem toyR0 :=
    (Reachable.empty.request (.subscribe _ 0)).request (.broadcast _ "m")
  have h1 : Reachable sem toyR1 := h0.step (.read (r := toyR0) (i := 0) (by decide) rfl (by
    intro j hj
    obtain rfl : j = 0 := by change j < 1 at hj; omega
    decide))
  have h2 : Reachable sem toyR2 := h1.step (.create (r := toyR1) (i := 0) (by decide) rfl rfl)
  have h3 : Reachable sem (toyR3 (if sem = .fromCreation then some 0 else none)) :=
    h2.step (.release (r := toyR2) (i := 0) (v := 0) (by decide) rfl)
  generalize (if sem = .fromCreation then some 0 else none) = o at h3 ⊢
  have h4 : Reachable sem (toyR4 o) := h3.step (.lock (r := toyR3 o) (j := 0) Nat.zero_lt_one rfl ⟨by
    intro j hj
    obtain rfl : j = 0 := by change j < 1 at hj; omega
    exact ⟨(by intro h; cases h), (by intro h; cases h)⟩, by
    intro i hi
    obtain rfl : i = 0 := by change i < 1 at hi; omega
    exact ⟨(by intro h; cases h), (by intro v h; cases h)⟩⟩)
  have h5 : Reachable sem (toyR5 o) := h4.step (.push (r := toyR4 o) (j := 0) Nat.zero_lt_one rfl)
  exact h5.step (.notify (r := toyR5 o) (j := 0) Nat.zero_lt_one rfl)

/-- The hypotheses of `C103_no_lost_wakeup` hold between storing the message and waking, those of
`C103_delivery` in every state; after the call of `notify_waiters` the client gets its message. -/
example : ∃ r', Steps .fromCreation (toyR6 (some 0)) 3 r' ∧ (r'.subs 0).got = [(0, "m")] := by
  refine ⟨_, ((Steps.refl.step (.wake (i := 0) (v := 0) (by decide) rfl (by decide))).step
    (.read (i := 0) (by decide) rfl ?_)).step (.deliver (i := 0) (m := "m") (by decide) rfl rfl), rfl⟩
  intro j hj
  obtain rfl : j = 0 := by change j < 1 at hj; omega
  exact ⟨(by intro h; cases h), (by intro h; cases h)⟩

example : (toyR5 (some 0)).Connected 0 ∧ (toyR5 (some 0)).Asleep 0 ∧ (toyR5 (some 0)).Undelivered 0 "m" :=
  ⟨⟨by decide, by intro h; cases h⟩, .inr rfl, rfl⟩

/-- **C103 depends on `tokio`.** If a future counted only from its first `poll`, the code would lose messages:
there is a state in which nothing moves any more, all calls of `publish` are finished and a
connected client has not got a stored message. -/
theorem C103_needs_creation_semantics : ∃ r, Reachable .fromFirstPoll r ∧ r.Quiet .fromFirstPoll ∧
    (∀ j < r.npubs, (r.pubs j).pc = .done) ∧ r.Connected 0 ∧ r.Undelivered 0 "m" := by
  refine ⟨(toyR6 none).setSub 0 ⟨0, 0, [], .sleeping (some 1)⟩,
    (toy_reachable .fromFirstPoll).step (.poll (r := toyR6 none) (i := 0) (by decide) rfl), ?_, ?_,
    ⟨by decide, by intro h; cases h⟩, rfl⟩
  · intro r' s
    have hsub : ∀ i < ((toyR6 none).setSub 0 ⟨0, 0, [], .sleeping (some 1)⟩).nsubs,
        (((toyR6 none).setSub 0 ⟨0, 0, [], .sleeping (some 1)⟩).subs i).pc = .sleeping (some 1) := by
      intro i hi
      obtain rfl : i = 0 := by change i < 1 at hi; omega
      rfl
    have hpub : ∀ j < ((toyR6 none).setSub 0 ⟨0, 0, [], .sleeping (some 1)⟩).npubs,
        (((toyR6 none).setSub 0 ⟨0, 0, [], .sleeping (some 1)⟩).pubs j).pc = .done := by
      intro j hj
      obtain rfl : j = 0 := by change j < 1 at hj; omega
      rfl
    cases s with
    | read hi hp => rw [hsub _ hi] at hp; cases hp
    | deliver hi hp => rw [hsub _ hi] at hp; cases hp
    | create hi hp => rw [hsub _ hi] at hp; cases hp
    | release hi hp => rw [hsub _ hi] at hp; cases hp
    | poll hi hp => rw [hsub _ hi] at hp; cases hp
    | wake hi hp hv => rw [hsub _ hi] at hp; cases hp; exact hv rfl
    | lock hj hp => rw [hpub _ hj] at hp; cases hp
    | push hj hp => rw [hpub _ hj] at hp; cases hp
    | notify hj hp => rw [hpub _ hj] at hp; cases hp
  · intro j hj
    obtain rfl : j = 0 := by change j < 1 at hj; omega
    rfl

end Verif.Demo.Wakeup
