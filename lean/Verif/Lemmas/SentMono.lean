import Verif.Lemmas.Network

/-!
# What was sent stays sent

In a network in which every delivered message was sent before by the party it names, whatever a party accepted
from another one is among what that one has sent in the end.
-/

namespace Verif.Proto

variable (P : Proto)

theorem queue_proceedRound (mb : Bool) (s : P.State) : s.queue <+: (P.proceedRound mb s).1.queue := by
  induction hd : P.K + 1 - P.currentRound s using Nat.strong_induction_on generalizing s with
  | _ d ih =>
    cases hr : s.round with
    | gone => rw [P.proceedRound_gone hr]
    | «at» k r =>
      have hc : P.currentRound s = k := by unfold currentRound; rw [hr]
      rw [P.proceedRound_at hr]
      have hq : (P.take { s with round := .gone } k).1.queue = s.queue := by
        unfold take; split <;> rfl
      by_cases h : P.ready mb s k = true
      · have hk : k ≤ P.K := by
          unfold ready at h
          simp only [Bool.and_eq_true, decide_eq_true_eq] at h
          exact h.1.1
        rw [if_pos h]
        cases (P.take { s with round := .gone } k).2 with
        | ok ms =>
          simp only
          cases P.fn k r ms with
          | ok ro =>
            simp only
            by_cases ha : P.again k = true
            · rw [if_pos ha]
              refine List.IsPrefix.trans ?_ (ih (P.K + 1 - (k + 1)) (by omega)
                { (P.take { s with round := .gone } k).1 with
                  round := .at (k + 1) ro.1
                  queue := (P.take { s with round := .gone } k).1.queue ++
                    ro.2.map (P.tag (k + 1)) } (by simp only [currentRound]))
              simp only [hq]
              exact List.prefix_append _ _
            · rw [if_neg ha]
              simp only [hq]
              exact List.prefix_append _ _
          | err e => simp only; rw [hq]
          | panic => simp only; rw [hq]
        | err e => simp only; rw [hq]
        | panic => simp only; rw [hq]
      · rw [if_neg h]

theorem queue_handle (s : P.State) (m : Msg P.Body) : s.queue <+: (P.handle s m).1.queue := by
  unfold handle
  cases s.stores m.body.1 with
  | none => exact List.prefix_rfl
  | some st =>
    simp only
    cases st.push_msg ⟨m.sender, m.receiver, m.body.2⟩ with
    | ok st' => exact P.queue_proceedRound false { s with stores := Function.update s.stores m.body.1 (some st') }
    | err e => exact List.prefix_rfl
    | panic => exact List.prefix_rfl

theorem queue_pick (s : P.State) : (P.pick s).1.queue = s.queue := by
  unfold pick
  split
  · rfl
  · split <;> rfl

namespace Sim

variable {P} {σ β : Type} {M : StateMachine σ β (P.St (P.K + 1)) P.Er} (S : P.Sim M)

theorem queue_sub {s s' : σ} (h : (S.abs s).queue <+: (S.abs s').queue) {m : Msg β} (hm : m ∈ M.message_queue s) :
    m ∈ M.message_queue s' := by
  rw [S.queue, S.queue] at h
  obtain ⟨m', h1, h2⟩ := List.mem_map.1 (h.subset (List.mem_map_of_mem hm))
  rw [← S.mapBody_inj h2]
  exact h1

include S in
theorem sent_step (h : History σ β (P.St (P.K + 1)) P.Er) (o : Op β) : ∀ m ∈ M.sent h, m ∈ M.sent (M.step h o) := by
  intro m hm
  unfold StateMachine.step
  split
  · exact hm
  unfold StateMachine.sent at hm ⊢
  have rcd : ∀ r : σ × Res (SMError P.Er) Unit, (S.abs h.st).queue <+: (S.abs r.1).queue →
      m ∈ (StateMachine.record h r).drained ++ M.message_queue (StateMachine.record h r).st := by
    intro r hr
    have : (StateMachine.record h r).drained = h.drained ∧ (StateMachine.record h r).st = r.1 := by
      unfold StateMachine.record
      split <;> exact ⟨rfl, rfl⟩
    rw [this.1, this.2]
    rcases List.mem_append.1 hm with hm | hm
    · exact List.mem_append_left _ hm
    · exact List.mem_append_right _ (S.queue_sub hr hm)
  cases o with
  | deliver x =>
    simp only
    have := rcd (M.handle_incoming h.st x) (by
      have e := congrArg Prod.fst (S.handle h.st x)
      simp only at e; rw [← e]
      exact P.queue_handle _ _)
    split <;> exact this
  | proceed =>
    exact rcd _ (by
      have e := congrArg Prod.fst (S.proceed h.st)
      simp only at e; rw [← e]
      exact P.queue_proceedRound _ _)
  | drain => exact List.mem_append_left _ hm
  | pick =>
    have hq : (S.abs h.st).queue <+: (S.abs (M.pick_output h.st).1).queue := by
      have e := congrArg Prod.fst (S.pick h.st)
      simp only at e; rw [← e, P.queue_pick]
    have : m ∈ h.drained ++ M.message_queue (M.pick_output h.st).1 := by
      rcases List.mem_append.1 hm with hm | hm
      · exact List.mem_append_left _ hm
      · exact List.mem_append_right _ (S.queue_sub hq hm)
    simp only
    split <;> exact this

include S in
/-- What a party has sent, it has sent after more calls too. -/
theorem sent_mono (s : σ) (a b : List (Op β)) : ∀ m ∈ M.sent (M.run s a), m ∈ M.sent (M.run s (a ++ b)) := by
  intro m hm
  unfold StateMachine.run at hm ⊢
  rw [List.foldl_append]
  generalize a.foldl M.step _ = h at hm ⊢
  induction b generalizing h with
  | nil => exact hm
  | cons o b ih => exact ih _ (S.sent_step h o m hm)

end Sim
end Verif.Proto

namespace Verif.Spec.Network

variable {σ β ω ε : Type} {N : Network σ β ω ε}

/-- In an authentic execution, whatever was delivered to a party was sent by the party it names as its sender. -/
theorem Authentic.delivered_sent {evs : List (ℕ × Op β)} (ha : N.Authentic evs)
    (mono : ∀ j a b, ∀ m ∈ (N.machine j).sent ((N.machine j).run (N.start j) a),
      m ∈ (N.machine j).sent ((N.machine j).run (N.start j) (a ++ b)))
    {i : ℕ} {m : Msg β} (hm : .deliver m ∈ callsOf i evs) : N.Party m.sender ∧ m ∈ N.sent evs m.sender := by
  obtain ⟨pre, post, rfl⟩ := List.append_of_mem (mem_callsOf.1 hm)
  obtain ⟨hp, hs⟩ := ha pre i m post rfl
  refine ⟨hp, ?_⟩
  unfold sent hist at hs ⊢
  rw [callsOf_append]
  exact mono _ _ _ _ hs

end Verif.Spec.Network
