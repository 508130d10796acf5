import Verif.Lemmas.Async

/-! # Runs of machines that do not try the next round -/

namespace Verif.Async

variable {P : Proto} {σ β : Type} {M : StateMachine σ β (P.St (P.K + 1)) P.Er}
  {critical : SMError P.Er → Bool} {s : σ} {me n : ℕ} {r0 : P.St 0}

section
variable (S : P.Sim M)
include S

/-- Messages do not advance a machine all of whose rounds are expensive. -/
theorem current_handle_eq (hx : ∀ k, P.expensive k = true) (x : σ) (m : Msg β) :
    M.current_round (M.handle_incoming x m).1 = M.current_round x := by
  have e := congrArg Prod.fst (S.handle x m)
  simp only at e
  rw [S.current, S.current, ← e]
  unfold Proto.handle
  split
  · rfl
  · split
    · next st' _ =>
      generalize hy : ({ S.abs x with
        stores := Function.update (S.abs x).stores (Msg.mapBody S.tagB m).body.1 (some st') } :
          P.State) = y
      have hround : y.round = (S.abs x).round := by rw [← hy]
      have hsame : (P.proceedRound false y).1 = y := by
        cases hr : y.round with
        | gone => rw [P.proceedRound_gone hr]
        | «at» k r =>
          rw [P.proceedRound_at hr, if_neg]
          unfold Proto.ready
          simp [hx]
      rw [hsame]
      show P.currentRound y = P.currentRound (S.abs x)
      unfold Proto.currentRound
      rw [hround]
    · rfl
    · rfl

/-- Without trying again, `proceed` advances by one round. -/
theorem current_proceed_le {x : σ} {u : Unit} (h : (M.proceed x).2 = .ok u)
    (ha : P.again (M.current_round x) = false) :
    M.current_round (M.proceed x).1 ≤ M.current_round x + 1 := by
  have e1 := congrArg Prod.fst (S.proceed x)
  have e2 := congrArg Prod.snd (S.proceed x)
  simp only at e1 e2
  rw [S.current] at ha
  rw [S.current, S.current, ← e1]
  rw [← e2] at h
  cases hr : (S.abs x).round with
  | gone =>
    rw [P.proceedRound_gone hr]
    exact Nat.le_succ _
  | «at» k r =>
    have hc : P.currentRound (S.abs x) = k := by unfold Proto.currentRound; rw [hr]
    have ha : P.again k = false := by rw [← hc]; exact ha
    rw [P.proceedRound_at hr] at h ⊢
    by_cases hready : P.ready true (S.abs x) k = true
    · rw [if_pos hready] at h ⊢
      cases ht : (P.take { S.abs x with round := .gone } k).2 with
      | ok ms =>
        rw [ht] at h
        simp only at h ⊢
        cases hf : P.fn k r ms with
        | ok ro =>
          simp only [ha]
          show k + 1 ≤ _
          exact Nat.succ_le_succ hc.ge
        | err e => rw [hf] at h; cases h
        | panic => rw [hf] at h; cases h
      | err e => rw [ht] at h; cases h
      | panic => rw [ht] at h; cases h
    · rw [if_neg hready]
      exact Nat.le_succ _

theorem finish_not {r : Run σ β (P.St (P.K + 1)) P.Er} (hk : M.current_round r.st ≤ P.K) :
    finishIfPossible M r = r := by
  unfold finishIfPossible
  rw [if_neg]
  intro hc
  rw [S.finished] at hc
  rw [S.current] at hk
  unfold Proto.currentRound at hk
  simp only [Proto.machine] at hc
  cases hr : (S.abs r.st).round with
  | gone => rw [hr] at hc; cases hc
  | «at» k r' =>
    rw [hr] at hc hk
    simp only [decide_eq_true_eq] at hc
    simp only at hk
    omega

theorem advance_slow {r : Run σ β (P.St (P.K + 1)) P.Er} (hn : r.result = none)
    (hp : M.wants_to_proceed r.st = true → ∃ u, (M.proceed r.st).2 = .ok u)
    (ha : P.again (M.current_round r.st) = false) (hk : M.current_round r.st < P.K) :
    (advance M critical r).result = none ∧
      M.current_round r.st ≤ M.current_round (advance M critical r).st ∧
      M.current_round (advance M critical r).st ≤ M.current_round r.st + 1 := by
  have key : ∃ r1 : Run σ β (P.St (P.K + 1)) P.Er, proceedIfNeeded M critical r = r1 ∧
      r1.result = none ∧ M.current_round r.st ≤ M.current_round r1.st ∧
      M.current_round r1.st ≤ M.current_round r.st + 1 := by
    unfold proceedIfNeeded
    by_cases hw : M.wants_to_proceed r.st = true
    · obtain ⟨u, hu⟩ := hp hw
      rw [if_pos hw]
      simp only [hu]
      exact ⟨_, rfl, hn, (current_proceed S hw).le, current_proceed_le S hu ha⟩
    · rw [if_neg hw]
      exact ⟨_, rfl, hn, le_rfl, Nat.le_succ _⟩
  obtain ⟨r1, e, h1, h2⟩ := key
  have h3 : M.current_round r.st ≤ M.current_round (sendOutgoing M r1).st ∧
      M.current_round (sendOutgoing M r1).st ≤ M.current_round r.st + 1 := by
    unfold sendOutgoing
    rw [current_clear S]
    exact h2
  unfold advance
  rw [e, andThen_none h1, andThen_none (show (sendOutgoing M r1).result = none from h1),
    finish_not S (by omega)]
  exact ⟨h1, h3⟩

/-- One pass of the loop advances such a machine by at most one round. -/
theorem receive_slow (hx : ∀ k, P.expensive k = true) {r : Run σ β (P.St (P.K + 1)) P.Er} {m : Msg β}
    (hn : r.result = none) {u : Unit} (hm : (M.handle_incoming r.st m).2 = .ok u)
    (hp : M.wants_to_proceed (M.clear_queue (M.handle_incoming r.st m).1) = true →
      ∃ u, (M.proceed (M.clear_queue (M.handle_incoming r.st m).1)).2 = .ok u)
    (ha : P.again (M.current_round r.st) = false) (hk : M.current_round r.st < P.K) :
    (receive M critical r m).result = none ∧
      M.current_round r.st ≤ M.current_round (receive M critical r m).st ∧
      M.current_round (receive M critical r m).st ≤ M.current_round r.st + 1 := by
  have hcur : M.current_round (M.clear_queue (M.handle_incoming r.st m).1) = M.current_round r.st := by
    rw [current_clear S, current_handle_eq S hx]
  have e : receive M critical r m = advance M critical (sendOutgoing M
      (⟨(M.handle_incoming r.st m).1, r.sent, r.result⟩ : Run σ β (P.St (P.K + 1)) P.Er)) := by
    unfold receive
    rw [andThen_none hn]
    unfold handleIncoming
    simp only [hm]
    rw [andThen_none (r := ⟨(M.handle_incoming r.st m).1, r.sent, r.result⟩) hn,
      andThen_none (r := sendOutgoing M ⟨(M.handle_incoming r.st m).1, r.sent, r.result⟩) hn]
  rw [e]
  have := advance_slow S (critical := critical) (r := sendOutgoing M
      (⟨(M.handle_incoming r.st m).1, r.sent, r.result⟩ : Run σ β (P.St (P.K + 1)) P.Er)) hn hp
    (by show P.again (M.current_round (M.clear_queue _)) = false; rw [hcur]; exact ha)
    (by show M.current_round (M.clear_queue _) < _; rw [hcur]; exact hk)
  refine ⟨this.1, (show M.current_round r.st ≤ M.current_round (M.clear_queue _) from hcur.ge).trans
    this.2.1, this.2.2.trans ?_⟩
  show M.current_round (M.clear_queue _) + 1 ≤ _
  rw [hcur]

omit S in
/-- If the rounds succeed on all messages, nothing fails before. -/
theorem alive {ms pre post : List (Msg β)} (he : ms = pre ++ post) {ops : List (Op β)}
    (hcl : Clean ops pre) {x : List (Msg β) × Res P.Er (P.St (P.K + 1))} {o : P.St (P.K + 1)}
    (hx : x.2 = .ok o) (t : List (Op β))
    (hobs : ∀ ops, Clean ops ms → Spec.Observes M (M.run s (ops ++ t)) x) :
    (M.run s ops).panicked = false ∧ (M.run s ops).errors = [] := by
  obtain ⟨-, -, -, h⟩ := hobs (ops ++ post.map .deliver) (he ▸ hcl.delivers post)
  rw [hx] at h
  rw [List.append_assoc] at h
  refine ⟨?_, ?_⟩
  · rw [Bool.eq_false_iff]
    intro hc
    have := panicked_mono hc (post.map .deliver ++ t)
    rw [h.1] at this
    cases this
  · have := errors_mono (M := M) (s := s) ops (post.map .deliver ++ t)
    rw [h.2.1] at this
    exact List.prefix_nil.1 this

/-- A message taken while nothing fails. -/
theorem receive_alive (hc : ∀ e : SMError P.Er, e.refuses = false → critical e = true)
    (hs : S.abs s = P.init me n r0) (h1 : 1 ≤ me) (h2 : me ≤ n) {ms pre post : List (Msg β)}
    {m : Msg β} (he : ms = pre ++ m :: post) (hf : FreshAll S me n ms)
    {r : Run σ β (P.St (P.K + 1)) P.Er} {ops : List (Op β)} (hw : Waiting M s r ops pre)
    {x : List (Msg β) × Res P.Er (P.St (P.K + 1))} {o : P.St (P.K + 1)}
    (hx : x.2 = .ok o) (t : List (Op β))
    (hobs : ∀ ops, Clean ops ms → Spec.Observes M (M.run s (ops ++ t)) x) :
    (∃ u, (M.handle_incoming r.st m).2 = .ok u) ∧
    (M.wants_to_proceed (M.clear_queue (M.handle_incoming r.st m).1) = true →
      ∃ u, (M.proceed (M.clear_queue (M.handle_incoming r.st m).1)).2 = .ok u) ∧
    ((∃ j, 1 ≤ j ∧ j ≤ P.K ∧ ¬ Has S me n (pre ++ [m]) j) →
      ∃ ops', Waiting M s (receive M critical r m) ops' (pre ++ [m])) := by
  have he' : ms = (pre ++ [m]) ++ post := by rw [he]; simp
  have hfr : S.Fresh me n pre m := by
    refine (FreshAll.init (S := S) (ms := pre) (m := m) ?_).2
    refine ⟨fun x hx => hf.addressed x (he' ▸ List.mem_append.2 (.inl hx)), ?_⟩
    have := hf.once
    rw [he', List.pairwise_append] at this
    exact this.1
  have htaken := fresh_taken S hs h1 h2 hw.toMid hfr
  have hcl := hw.clean.deliver m
  obtain ⟨a1, a2⟩ := alive he' hcl hx t hobs
  have hok : ∃ u, (M.handle_incoming r.st m).2 = .ok u := by
    rw [run_snoc, hw.run] at a1 a2
    unfold StateMachine.step StateMachine.record StateMachine.takes at a1 a2
    cases hh : (M.handle_incoming r.st m).2 with
    | ok u => exact ⟨u, rfl⟩
    | err e =>
      have := htaken e hh
      simp [hh, this] at a2
    | panic => simp [hh] at a1
  refine ⟨hok, ?_, ?_⟩
  · intro _
    obtain ⟨u, hu⟩ := hok
    have hcl' : Clean (ops ++ [.deliver m] ++ [.drain, .proceed]) (pre ++ [m]) :=
      hcl.idle (by simp)
    obtain ⟨b1, b2⟩ := alive he' hcl' hx t hobs
    have e : ops ++ [.deliver m] ++ [.drain, .proceed] =
      ops ++ [.deliver m] ++ [.drain] ++ [.proceed] := by simp
    rw [e, run_snoc, run_snoc, run_snoc, hw.run] at b1 b2
    unfold StateMachine.step StateMachine.record StateMachine.takes at b1 b2
    simp only [hu] at b1 b2
    cases hp : (M.proceed (M.clear_queue (M.handle_incoming r.st m).1)).2 with
    | ok u => exact ⟨u, rfl⟩
    | err e =>
      have := proceed_err S hp
      simp [hp, this] at b2
    | panic => simp [hp] at b1
  · rintro ⟨j, j1, j2, hj⟩
    rcases receive_taken S hc hw htaken with h | ⟨t', hcl', hend⟩
    · exact ⟨_, h⟩
    · exfalso
      obtain ⟨b1, b2⟩ := alive he' hcl' hx t hobs
      cases hend with
      | ok o' hr st hrun hqu hfin hpick =>
        have hm : Mid M s (⟨st, (receive M critical r m).sent, none⟩ :
            Run σ β (P.St (P.K + 1)) P.Er) _ (pre ++ [m]) := ⟨rfl, hrun, hcl'⟩
        obtain ⟨p1, p2, p3, p4⟩ := hm.pos S hs h1 h2
        exact hj (p4 j j1 (by rw [p2.1 hfin]; omega))
      | err e hr herr np => rw [herr] at b2; cases b2
      | panic hr hp => rw [hp] at b1; cases b1

/-- A machine for two parties whose last rounds do not try again: if the peer's message of round `k + 1` comes
in before that of round `k`, the run does not return. -/
theorem hangs (hc : ∀ e : SMError P.Er, e.refuses = false → critical e = true)
    (hs : S.abs s = P.init me 2 r0) (h1 : 1 ≤ me) (h2 : me ≤ 2) (hx : ∀ k, P.expensive k = true)
    {k : ℕ} (k1 : 1 ≤ k) (hK : P.K = k + 2) (ha : P.again k = false) (ha' : P.again (k + 1) = false)
    {pre : List (Msg β)} {mk mk' ml : Msg β}
    (hf : FreshAll S me 2 (pre ++ [mk', mk, ml]))
    (hcl : ∀ a b, pre = a ++ b → Closed S a)
    (hpre : ∀ j, 1 ≤ j → j ≤ P.K → (Has S me 2 pre j ↔ j < k))
    (hpre4 : ¬ Has S me 2 (pre ++ [mk']) k) (hpre5 : ¬ Has S me 2 (pre ++ [mk', mk]) P.K)
    (hall : ∀ j, 1 ≤ j → j ≤ P.K → Has S me 2 (pre ++ [mk', mk, ml]) j)
    {x : List (Msg β) × Res P.Er (P.St (P.K + 1))} {o : P.St (P.K + 1)}
    (hxo : x.2 = .ok o) (t : List (Op β))
    (hobs : ∀ ops, Clean ops (pre ++ [mk', mk, ml]) → Spec.Observes M (M.run s (ops ++ t)) x) :
    (run M critical s (pre ++ [mk', mk, ml])).result = none ∧
      M.wants_to_proceed (run M critical s (pre ++ [mk', mk, ml])).st = true := by
  have hfpre : FreshAll S me 2 pre := by
    refine ⟨fun m hm => hf.addressed m (List.mem_append.2 (.inl hm)), ?_⟩
    have := hf.once
    rw [List.pairwise_append] at this
    exact this.1
  -- before the two messages
  have w3 : ∃ ops, Waiting M s (run M critical s pre) ops pre ∧
      M.wants_to_proceed (run M critical s pre).st = false := by
    rcases run_spec S hc hs h1 h2 pre hfpre (.inr ⟨le_rfl, hcl⟩) with h | ⟨ops, a, b, e, hcl', hend⟩
    · exact h
    · exfalso
      obtain ⟨b1, b2⟩ := alive (ms := pre ++ [mk', mk, ml]) (post := b ++ [mk', mk, ml])
        (by rw [e, List.append_assoc]) hcl' hxo t hobs
      cases hend with
      | ok o' hr st hrun hqu hfin hpick =>
        have hm : Mid M s (⟨st, (run M critical s pre).sent, none⟩ :
            Run σ β (P.St (P.K + 1)) P.Er) _ a := ⟨rfl, hrun, hcl'⟩
        obtain ⟨p1, p2, p3, p4⟩ := hm.pos S hs h1 h2
        have := p4 P.K (by omega) (by rw [p2.1 hfin]; omega)
        have := (hpre P.K (by omega) le_rfl).1 (fun p q1 q2 q3 => by
          obtain ⟨m, hm, r⟩ := this p q1 q2 q3
          exact ⟨m, e ▸ List.mem_append.2 (.inl hm), r⟩)
        omega
      | err e hr herr np => rw [herr] at b2; cases b2
      | panic hr hp => rw [hp] at b1; cases b1
  obtain ⟨ops3, w3, q3⟩ := w3
  have c3 : M.current_round (run M critical s pre).st = k := by
    obtain ⟨p1, p2, p3, p4⟩ := w3.toMid.pos S hs h1 h2
    have hk : M.current_round (run M critical s pre).st ≤ k := by
      by_contra hc
      have := (hpre k k1 (by omega)).1 (p4 k k1 (by omega))
      omega
    rcases Nat.lt_or_ge (M.current_round (run M critical s pre).st) k with hlt | hge
    · exfalso
      have := p3.2 ⟨by omega, fun h => (hpre _ h (by omega)).2 hlt⟩
      rw [q3] at this
      cases this
    · omega
  -- the message of round `k + 1`
  obtain ⟨⟨u3, hu3⟩, hp3, hw3⟩ := receive_alive S hc hs h1 h2 (pre := pre) (m := mk') (post := [mk, ml])
    rfl hf w3 hxo t hobs
  obtain ⟨ops4, w4⟩ := hw3 ⟨k, k1, by omega, hpre4⟩
  obtain ⟨n4, l4, -⟩ := receive_slow S (critical := critical) hx w3.none hu3 hp3 (by rw [c3]; exact ha)
    (by omega)
  generalize hr4 : receive M critical (run M critical s pre) mk' = r4 at w4 n4 l4
  have c4 : M.current_round r4.st = k := by
    obtain ⟨p1, p2, p3, p4⟩ := w4.toMid.pos S hs h1 h2
    by_contra hc
    exact hpre4 (p4 k k1 (by omega))
  -- the message of round `k`
  obtain ⟨⟨u4, hu4⟩, hp4, hw4⟩ := receive_alive S hc hs h1 h2 (pre := pre ++ [mk']) (m := mk) (post := [ml])
    (by simp) hf w4 hxo t hobs
  obtain ⟨ops5, w5⟩ := hw4 ⟨P.K, by omega, le_rfl, by simpa using hpre5⟩
  obtain ⟨n5, l5, u5⟩ := receive_slow S (critical := critical) hx w4.none hu4 hp4 (by rw [c4]; exact ha)
    (by omega)
  generalize hr5 : receive M critical r4 mk = r5 at w5 n5 l5 u5
  have ha5 : P.again (M.current_round r5.st) = false := by
    have : M.current_round r5.st = k ∨ M.current_round r5.st = k + 1 := by omega
    rcases this with h | h <;> rw [h] <;> assumption
  -- the last message
  obtain ⟨⟨u6, hu6⟩, hp6, -⟩ := receive_alive S hc hs h1 h2 (pre := pre ++ [mk'] ++ [mk]) (m := ml)
    (post := []) (by simp) hf w5 hxo t hobs
  obtain ⟨n6, l6, u6⟩ := receive_slow S (critical := critical) hx w5.none hu6 hp6 ha5 (by omega)
  have e : run M critical s (pre ++ [mk', mk, ml]) = receive M critical r5 ml := by
    unfold run
    rw [List.foldl_append]
    show receive M critical (receive M critical (receive M critical (run M critical s pre) mk') mk) ml = _
    rw [hr4, hr5]
  rw [e]
  refine ⟨n6, ?_⟩
  have hfr : S.Fresh me 2 (pre ++ [mk'] ++ [mk]) ml := by
    refine (FreshAll.init (S := S) (ms := pre ++ [mk'] ++ [mk]) (m := ml) ?_).2
    simpa using hf
  rcases receive_taken S hc w5 (fresh_taken S hs h1 h2 w5.toMid hfr) with w6 | ⟨t', -, hend⟩
  · obtain ⟨p1, p2, p3, p4⟩ := w6.toMid.pos S hs h1 h2
    refine p3.2 ⟨by omega, fun h => ?_⟩
    have := hall _ h (by omega)
    simpa using this
  · obtain ⟨y, hy⟩ := hend.some
    rw [n6] at hy
    cases hy

end
end Verif.Async
