import Verif.Lemmas.RoundMachineSim
import Verif.Spec.Network
import Mathlib.Data.Finset.Max
import Mathlib.Order.Interval.Finset.Nat
import Mathlib.Algebra.Order.BigOperators.Group.Finset

/-! # Executions of several round machines -/

namespace Verif.Proto

variable (P : Proto)

/-! ### the current round never decreases -/

theorem currentRound_proceedRound (mb : Bool) (s : P.State) (hs : P.currentRound s ≤ P.K + 1) :
    P.currentRound s ≤ P.currentRound (P.proceedRound mb s).1 ∧
      P.currentRound (P.proceedRound mb s).1 ≤ P.K + 1 := by
  induction hd : P.K + 1 - P.currentRound s using Nat.strong_induction_on generalizing s with
  | _ d ih =>
    cases hr : s.round with
    | gone => rw [P.proceedRound_gone hr]; exact ⟨le_rfl, hs⟩
    | «at» k r =>
      have hc : P.currentRound s = k := by unfold currentRound; rw [hr]
      rw [P.proceedRound_at hr]
      by_cases h : P.ready mb s k = true
      · have hk : k ≤ P.K := by
          unfold ready at h
          simp only [Bool.and_eq_true, decide_eq_true_eq] at h
          exact h.1.1
        have hround : (P.take { s with round := .gone } k).1.round = .gone := by
          unfold take; split <;> rfl
        have hg : P.currentRound (P.take { s with round := .gone } k).1 = P.K + 1 := by
          unfold currentRound; rw [hround]
        rw [if_pos h]
        cases (P.take { s with round := .gone } k).2 with
        | ok ms =>
          simp only
          cases P.fn k r ms with
          | ok ro =>
            simp only
            by_cases ha : P.again k = true
            · rw [if_pos ha]
              obtain ⟨a, b⟩ := ih (P.K + 1 - (k + 1)) (by omega)
                { (P.take { s with round := .gone } k).1 with
                  round := .at (k + 1) ro.1
                  queue := (P.take { s with round := .gone } k).1.queue ++
                    ro.2.map (P.tag (k + 1)) }
                (by simp only [currentRound]; omega) (by simp only [currentRound])
              refine ⟨?_, b⟩
              simp only [currentRound] at a
              rw [hc]
              simp only [currentRound]
              omega
            · rw [if_neg ha]
              rw [hc]
              simp only [currentRound]
              omega
          | err e => simp only; rw [hg]; omega
          | panic => simp only; rw [hg]; omega
        | err e => simp only; rw [hg]; omega
        | panic => simp only; rw [hg]; omega
      · rw [if_neg h]; exact ⟨le_rfl, hs⟩

theorem currentRound_progress (s : P.State)
    (hw : P.machine.wants_to_proceed s = true) :
    P.currentRound s < P.currentRound (P.proceedRound true s).1 := by
  cases hr : s.round with
  | gone => simp only [machine, hr, Bool.false_eq_true] at hw
  | «at» k r =>
    have hc : P.currentRound s = k := by unfold currentRound; rw [hr]
    simp only [machine, hr] at hw
    have h : P.ready true s k = true := by
      unfold ready; rw [hw]; simp
    have hk : k ≤ P.K := by
      unfold ready at h
      simp only [Bool.and_eq_true, decide_eq_true_eq] at h
      exact h.1.1
    have hround : (P.take { s with round := .gone } k).1.round = .gone := by
      unfold take; split <;> rfl
    have hg : P.currentRound (P.take { s with round := .gone } k).1 = P.K + 1 := by
      unfold currentRound; rw [hround]
    rw [P.proceedRound_at hr, if_pos h, hc]
    cases (P.take { s with round := .gone } k).2 with
    | ok ms =>
      simp only
      cases P.fn k r ms with
      | ok ro =>
        simp only
        by_cases ha : P.again k = true
        · rw [if_pos ha]
          obtain ⟨a, b⟩ := P.currentRound_proceedRound true
            { (P.take { s with round := .gone } k).1 with
              round := .at (k + 1) ro.1
              queue := (P.take { s with round := .gone } k).1.queue ++
                ro.2.map (P.tag (k + 1)) }
            (by simp only [currentRound]; omega)
          simp only [currentRound] at a
          simp only [currentRound]
          omega
        · rw [if_neg ha]
          simp only [currentRound]
          omega
      | err e => simp only; rw [hg]; omega
      | panic => simp only; rw [hg]; omega
    | err e => simp only; rw [hg]; omega
    | panic => simp only; rw [hg]; omega

theorem currentRound_handle (s : P.State) (m : Msg P.Body) (hs : P.currentRound s ≤ P.K + 1) :
    P.currentRound s ≤ P.currentRound (P.handle s m).1 := by
  unfold handle
  cases s.stores m.body.1 with
  | none => exact le_rfl
  | some st =>
    simp only
    cases st.push_msg ⟨m.sender, m.receiver, m.body.2⟩ with
    | ok st' =>
      exact (P.currentRound_proceedRound false
        { s with stores := Function.update s.stores m.body.1 (some st') } hs).1
    | err e => exact le_rfl
    | panic => exact le_rfl

/-- One more round of the straight-line execution. -/
theorem straight_step {r0 : P.St 0} {v : (k : ℕ) → List (P.Bd k)} {k : ℕ} {r : P.St k}
    {q q' : List (Msg P.Body)} {r' : P.St (k + 1)} (out : List (Msg (P.Bd (k + 1))))
    (h : P.straight r0 v k = .ok (r, q)) (hf : P.fn k r (if k = 0 then [] else v k) = .ok (r', out))
    (hq : q ++ out.map (P.tag (k + 1)) = q') : P.straight r0 v (k + 1) = .ok (r', q') := by
  unfold straight
  rw [h, Res.bind_ok, hf, Res.bind_ok, hq]

/-- What is known of a history whose deliveries agree with an execution in which every round succeeds. -/
theorem inv_follow {me n : ℕ} {r0 : P.St 0} {h : P.Hist} {L : P.Log} {pos : ℕ}
    (hi : P.Inv me n r0 h L pos) (body : (j : ℕ) → ℕ → P.Bd j)
    (hg : ∀ m ∈ h.accepted, P.WellAddressed me n m → m.body.2 = body m.body.1 m.sender)
    (r : (k : ℕ) → P.St k) (q : ℕ → List (Msg P.Body))
    (hok : ∀ k ≤ P.K + 1, P.straight r0 (fun j => (others me n).map (body j)) k = .ok (r k, q k)) :
    h.panicked = false ∧ P.currentRound h.st = pos ∧ P.machine.sent h = q pos ∧
    (h.st.round = .at pos (r pos) ∧ h.outputs = [] ∧ h.errors = [] ∨
      h.st.round = .gone ∧ pos = P.K + 1 ∧ h.outputs = [r (P.K + 1)] ∧
        ∀ e ∈ h.errors, e = .DoublePickOutput) := by
  have key : ∀ k ≤ pos, P.straight r0 (P.vecs n L) k = .ok (r k, q k) := by
    intro k hk
    rw [← hok k (hk.trans hi.phase.pos_le)]
    refine P.straight_congr fun j j1 j2 => ?_
    exact P.vecs_eq hi body hg j1 (by have := hi.phase.pos_le; omega)
      (hi.stores.gone j j1 (by omega)).2
  cases hi.phase with
  | running r' hp hr hle hc he ho =>
    rw [key pos le_rfl] at hc
    simp only [Res.ok.injEq, Prod.mk.injEq] at hc
    refine ⟨hp, by unfold currentRound; rw [hr], hc.2.symm, .inl ⟨by rw [hr, hc.1], ho, he⟩⟩
  | failed k rk e m hp hr hpos hk hc hc' he ho =>
    rw [key (k + 1) (by omega)] at hc'
    cases hc'
  | panicked k rk hp hpos hk hc hc' he ho =>
    rw [key (k + 1) (by omega)] at hc'
    cases hc'
  | picked o m hp hr hpos hc he ho =>
    subst hpos
    rw [key _ le_rfl] at hc
    simp only [Res.ok.injEq, Prod.mk.injEq] at hc
    refine ⟨hp, by unfold currentRound; rw [hr], hc.2.symm,
      .inr ⟨hr, rfl, by rw [ho, hc.1], ?_⟩⟩
    rw [he]
    intro e hmem
    exact (List.mem_replicate.1 hmem).2

end Verif.Proto

namespace Verif

/-- Party `me` of `n`, when the messages delivered to it are `good`, follows `script`: in round `k` it
has sent `script k`, and it ends with `out`. -/
structure Follows {σ β ω ε : Type} (M : StateMachine σ β ω ε) (s : σ) (me n K : ℕ) (rd : β → ℕ)
    (p2p : ℕ → Bool) (good : Msg β → Prop) (script : ℕ → List (Msg β)) (out : ω) : Prop where
  le : ∀ ops, (∀ m, .deliver m ∈ ops → Addressed me n (p2p (rd m.body)) m.sender m.receiver →
    good m) → M.current_round (M.run s ops).st ≤ K + 1
  no_panic : ∀ ops, (∀ m, .deliver m ∈ ops → Addressed me n (p2p (rd m.body)) m.sender m.receiver →
    good m) → (M.run s ops).panicked = false
  sent : ∀ ops, (∀ m, .deliver m ∈ ops → Addressed me n (p2p (rd m.body)) m.sender m.receiver →
    good m) → M.sent (M.run s ops) = script (M.current_round (M.run s ops).st)
  early : ∀ ops, (∀ m, .deliver m ∈ ops → Addressed me n (p2p (rd m.body)) m.sender m.receiver →
    good m) → M.current_round (M.run s ops).st ≤ K →
      (M.run s ops).outputs = [] ∧ (M.run s ops).errors = []
  done : ∀ ops, (∀ m, .deliver m ∈ ops → Addressed me n (p2p (rd m.body)) m.sender m.receiver →
    good m) → M.current_round (M.run s ops).st = K + 1 →
      (M.run s ops).outputs = [] ∧ (M.run s ops).errors = [] ∧
        M.is_finished (M.run s ops).st = true ∧
        (M.pick_output (M.run s ops).st).2 = some (.ok out) ∨
      (M.run s ops).outputs = [out] ∧ ∀ e ∈ (M.run s ops).errors, e = .DoublePickOutput
  quiet : ∀ ops, (∀ m, .deliver m ∈ ops → Addressed me n (p2p (rd m.body)) m.sender m.receiver →
    good m) → M.current_round (M.run s ops).st = K + 1 →
      M.wants_to_proceed (M.run s ops).st = false
  wants : ∀ ops, (∀ m, .deliver m ∈ ops → Addressed me n (p2p (rd m.body)) m.sender m.receiver →
    good m) → M.current_round (M.run s ops).st ≤ K →
      (1 ≤ M.current_round (M.run s ops).st → ∀ p, 1 ≤ p → p ≤ n → p ≠ me → ∃ m, .deliver m ∈ ops ∧
        rd m.body = M.current_round (M.run s ops).st ∧ m.sender = p ∧
        Addressed me n (p2p (rd m.body)) m.sender m.receiver) →
      M.wants_to_proceed (M.run s ops).st = true
  mono : ∀ ops m, (∀ m, .deliver m ∈ ops → Addressed me n (p2p (rd m.body)) m.sender m.receiver →
    good m) → M.current_round (M.run s ops).st ≤ M.current_round (M.run s (ops ++ [.deliver m])).st
  progress : ∀ ops, (∀ m, .deliver m ∈ ops → Addressed me n (p2p (rd m.body)) m.sender m.receiver →
    good m) → M.wants_to_proceed (M.run s ops).st = true →
      M.current_round (M.run s ops).st < M.current_round (M.run s (ops ++ [.proceed])).st

namespace Proto.Sim

variable {P : Proto} {σ β : Type} {M : StateMachine σ β (P.St (P.K + 1)) P.Er} (S : P.Sim M)
  {s : σ} {me n : ℕ} {r0 : P.St 0}

theorem follows (hs : S.abs s = P.init me n r0) (h1 : 1 ≤ me) (h2 : me ≤ n)
    (hrd : ∀ b, 1 ≤ (S.tagB b).1 ∧ (S.tagB b).1 ≤ P.K)
    (body : (j : ℕ) → ℕ → P.Bd j) (r : (k : ℕ) → P.St k) (script : ℕ → List (Msg β))
    (hok : ∀ k ≤ P.K + 1, P.straight r0 (fun j => (others me n).map (body j)) k =
      .ok (r k, (script k).map (Msg.mapBody S.tagB))) :
    Follows M s me n P.K (fun b => (S.tagB b).1) P.p2p
      (fun m => (S.tagB m.body).2 = body (S.tagB m.body).1 m.sender) script (r (P.K + 1)) := by
  have main : ∀ ops, (∀ m, .deliver m ∈ ops →
      Addressed me n (P.p2p (S.tagB m.body).1) m.sender m.receiver →
      (S.tagB m.body).2 = body (S.tagB m.body).1 m.sender) →
      ∃ L pos, P.Inv me n r0 (S.hist (M.run s ops)) L pos ∧ pos ≤ P.K + 1 ∧
        M.current_round (M.run s ops).st = pos ∧ (M.run s ops).panicked = false ∧
        M.sent (M.run s ops) = script pos ∧
        ((S.abs (M.run s ops).st).round = .at pos (r pos) ∧ (M.run s ops).outputs = [] ∧
            (M.run s ops).errors = [] ∨
          (S.abs (M.run s ops).st).round = .gone ∧ pos = P.K + 1 ∧
            (M.run s ops).outputs = [r (P.K + 1)] ∧
            ∀ e ∈ (M.run s ops).errors, e = .DoublePickOutput) := by
    intro ops hg
    obtain ⟨L, pos, hi⟩ := S.inv hs h1 h2 ops
    obtain ⟨a1, a2, a3, a4⟩ := P.inv_follow hi body (by
      intro m hm ha
      rw [← S.run, hs] at hm
      rcases P.foldl_accepted_sub _ _ hm with hm | hm
      · simp at hm
      · obtain ⟨o, ho, e⟩ := List.mem_map.1 hm
        cases o with
        | deliver m' =>
          simp only [Sim.op, Op.deliver.injEq] at e
          subst e
          exact hg m' ho ha.2.2
        | proceed => cases e
        | drain => cases e
        | pick => cases e) r (fun k => (script k).map (Msg.mapBody S.tagB)) hok
    refine ⟨L, pos, hi, hi.phase.pos_le, ?_, a1, ?_, a4⟩
    · rw [S.current]; exact a2
    · rw [S.sent] at a3
      exact (List.map_injective_iff.2 (fun _ _ h => S.mapBody_inj h)) a3
  have hstep : ∀ ops o, M.run s (ops ++ [o]) = M.step (M.run s ops) o := by
    intro ops o
    unfold StateMachine.run; rw [List.foldl_append]; rfl
  refine ⟨?_, ?_, ?_, ?_, ?_, ?_, ?_, ?_, ?_⟩
  · intro ops hg
    obtain ⟨L, pos, hi, a0, a1, a2, a3, a4⟩ := main ops hg
    omega
  · intro ops hg
    obtain ⟨L, pos, hi, a0, a1, a2, a3, a4⟩ := main ops hg
    exact a2
  · intro ops hg
    obtain ⟨L, pos, hi, a0, a1, a2, a3, a4⟩ := main ops hg
    rw [a1]; exact a3
  · intro ops hg hc
    obtain ⟨L, pos, hi, a0, a1, a2, a3, a4⟩ := main ops hg
    rcases a4 with a4 | a4
    · exact a4.2
    · omega
  · intro ops hg hc
    obtain ⟨L, pos, hi, a0, a1, a2, a3, a4⟩ := main ops hg
    rcases a4 with ⟨b1, b2, b3⟩ | a4
    · refine .inl ⟨b2, b3, ?_, ?_⟩
      · rw [S.finished]
        simp only [Proto.machine, b1, decide_eq_true_eq]
        omega
      · have := S.pick (M.run s ops).st
        have e := congrArg Prod.snd this
        simp only at e
        rw [← e]
        have hpos : pos = P.K + 1 := by omega
        subst hpos
        unfold Proto.pick
        simp only [b1, dite_true]
    · exact .inr a4.2.2
  · intro ops hg hc
    obtain ⟨L, pos, hi, a0, a1, a2, a3, a4⟩ := main ops hg
    rw [S.wants]
    rcases a4 with ⟨b1, b2, b3⟩ | a4
    · simp only [Proto.machine, b1]
      rw [show decide (pos ≤ P.K) = false from by simp; omega]
      rfl
    · simp only [Proto.machine, a4.1]
  · intro ops hg hc hall
    obtain ⟨L, pos, hi, a0, a1, a2, a3, a4⟩ := main ops hg
    rw [S.wants]
    rcases a4 with ⟨b1, b2, b3⟩ | a4
    · have hfull : 1 ≤ pos → P.Full n L pos := by
        intro hpos i hin
        obtain ⟨m, d1, d2, d3, d4⟩ := hall (by omega) (Store.owner me i) Store.owner_pos
          (Store.owner_le hin) Store.owner_ne
        have hnp : ((ops.map S.op).foldl P.machine.step
            ⟨P.init me n r0, [], [], [], [], false⟩).panicked = false := by
          have := S.run s ops
          rw [hs] at this
          exact (congrArg History.panicked this).trans a2
        obtain ⟨m', hm', e1, e2⟩ := P.delivered_accepted h1 h2 (ops.map S.op) _
          ⟨_, _, P.inv_init me n r0⟩ hnp (m := m.mapBody S.tagB) (List.mem_map.2 ⟨_, d1, rfl⟩)
          ⟨(hrd _).1, (hrd _).2, d4⟩
        have hm' : m' ∈ (S.hist (M.run s ops)).accepted := by
          have := S.run s ops
          rw [hs] at this
          exact (congrArg History.accepted this) ▸ hm'
        obtain ⟨j, i', b, c1, c2, c3, c4, c5⟩ := (hi.log _).1 hm'
        subst c5
        have e1 : j = pos := e1.trans (d2.trans a1)
        have e2 : Store.owner me i' = Store.owner me i := e2.trans d3
        have e3 : i' = i := Store.owner_inj e2
        subst e1 e3
        rw [c4]; rfl
      have hready : P.ready true (S.abs (M.run s ops).st) pos = true :=
        (P.ready_iff (mb := true) hi.stores).2 ⟨by omega, hfull, fun _ => rfl⟩
      simp only [Proto.machine, b1]
      unfold ready at hready
      simpa using hready
    · omega
  · intro ops m hg
    obtain ⟨L, pos, hi, a0, a1, a2, a3, a4⟩ := main ops hg
    rw [hstep]
    unfold StateMachine.step
    rw [if_neg (by simp [a2])]
    have hst : ∀ (h : History σ β (P.St (P.K + 1)) P.Er) x,
        (StateMachine.record h x).st = x.1 := by
      intro h x
      unfold StateMachine.record
      cases x.2 <;> rfl
    have : M.current_round (M.run s ops).st ≤
        M.current_round (M.handle_incoming (M.run s ops).st m).1 := by
      have e := congrArg Prod.fst (S.handle (M.run s ops).st m)
      simp only at e
      rw [S.current, S.current, ← e]
      refine P.currentRound_handle _ _ ?_
      rw [← S.current]; omega
    simp only
    split
    · simp only [hst]; exact this
    · rw [hst]; exact this
  · intro ops hg hw
    obtain ⟨L, pos, hi, a0, a1, a2, a3, a4⟩ := main ops hg
    rw [hstep]
    unfold StateMachine.step
    rw [if_neg (by simp [a2])]
    have hst : ∀ (h : History σ β (P.St (P.K + 1)) P.Er) x,
        (StateMachine.record h x).st = x.1 := by
      intro h x
      unfold StateMachine.record
      cases x.2 <;> rfl
    simp only [hst]
    have e := congrArg Prod.fst (S.proceed (M.run s ops).st)
    simp only at e
    rw [S.current, S.current, ← e]
    refine P.currentRound_progress _ ?_
    rw [← S.wants]; exact hw

end Proto.Sim

namespace Spec

variable {σ β ω ε : Type}

theorem callsOf_append (i : ℕ) (a b : List (ℕ × Op β)) :
    callsOf i (a ++ b) = callsOf i a ++ callsOf i b := by
  unfold callsOf; rw [List.filterMap_append]

theorem callsOf_same (i : ℕ) (o : Op β) : callsOf i [(i, o)] = [o] := by
  simp [callsOf]

theorem callsOf_other {i j : ℕ} (h : j ≠ i) (o : Op β) : callsOf i [(j, o)] = [] := by
  simp [callsOf, h]

theorem mem_callsOf {i : ℕ} {o : Op β} {evs : List (ℕ × Op β)} :
    o ∈ callsOf i evs ↔ (i, o) ∈ evs := by
  unfold callsOf
  simp only [List.mem_filterMap]
  constructor
  · rintro ⟨⟨j, o'⟩, h1, h2⟩
    simp only at h2
    by_cases hj : j = i
    · rw [if_pos hj] at h2
      rw [← hj, ← Option.some.inj h2]
      exact h1
    · rw [if_neg hj] at h2; cases h2
  · intro h
    exact ⟨_, h, by simp⟩

namespace Network

variable (N : Network σ β ω ε)

/-- All parties follow scripts that fit together. -/
structure Fits (K : ℕ) (rd : β → ℕ) (p2p : ℕ → Bool) (good : ℕ → Msg β → Prop)
    (script : ℕ → ℕ → List (Msg β)) (out : ℕ → ω) : Prop where
  follows : ∀ i, N.Party i →
    Follows (N.machine i) (N.start i) i N.n K rd p2p (good i) (script i) (out i)
  good : ∀ i j, N.Party i → N.Party j → i ≠ j → ∀ k ≤ K + 1, ∀ m ∈ script j k, m.sender = j →
    Addressed i N.n (p2p (rd m.body)) m.sender m.receiver → good i m
  sends : ∀ i j, N.Party i → N.Party j → i ≠ j → ∀ k, 1 ≤ k → k ≤ K → ∀ k', k ≤ k' → k' ≤ K + 1 →
    ∃ m ∈ script j k', rd m.body = k ∧ m.sender = j ∧ m.receiver = if p2p k then some i else none

variable {N} {K : ℕ} {rd : β → ℕ} {p2p : ℕ → Bool} {good : ℕ → Msg β → Prop}
  {script : ℕ → ℕ → List (Msg β)} {out : ℕ → ω}

theorem Authentic.prefix {pre post : List (ℕ × Op β)} (h : N.Authentic (pre ++ post)) :
    N.Authentic pre := by
  intro a i m b hab
  refine h a i m (b ++ post) ?_
  rw [hab]; simp

/-- The messages delivered are good. -/
theorem Fits.genuine (F : N.Fits K rd p2p good script out) {evs : List (ℕ × Op β)}
    (ha : N.Authentic evs) {i : ℕ} (hi : N.Party i) : ∀ m, .deliver m ∈ callsOf i evs →
      Addressed i N.n (p2p (rd m.body)) m.sender m.receiver → good i m := by
  induction hl : evs.length using Nat.strong_induction_on generalizing evs i with
  | _ l ih =>
    intro m hm hadr
    obtain ⟨pre, post, e⟩ := List.append_of_mem (mem_callsOf.1 hm)
    obtain ⟨hs, hsent⟩ := ha pre i m post e
    have hpre : N.Authentic pre := Authentic.prefix (e ▸ ha)
    have hlen : pre.length < l := by rw [← hl, e]; simp
    have hg := ih pre.length hlen hpre hs rfl
    have f := F.follows m.sender hs
    rw [sent, hist, f.sent _ hg] at hsent
    exact F.good i m.sender hi hs (Ne.symm hadr.ne) _ (f.le _ hg) m hsent rfl hadr

theorem Fits.sound (F : N.Fits K rd p2p good script out) {evs : List (ℕ × Op β)}
    (ha : N.Authentic evs) {i : ℕ} (hi : N.Party i) : N.Sound evs i (out i) := by
  have f := F.follows i hi
  have hg := F.genuine ha hi
  have hle := f.le _ hg
  refine ⟨f.no_panic _ hg, ?_, ?_⟩
  · intro e he
    rcases Nat.lt_or_ge K ((N.machine i).current_round (N.hist evs i).st) with h | h
    · rcases f.done _ hg (le_antisymm hle h) with ⟨-, b, -⟩ | ⟨a, b⟩
      · unfold hist at he; rw [b] at he; simp at he
      · exact ⟨b e he, a⟩
    · obtain ⟨-, b⟩ := f.early _ hg h
      unfold hist at he; rw [b] at he; simp at he
  · rcases Nat.lt_or_ge K ((N.machine i).current_round (N.hist evs i).st) with h | h
    · rcases f.done _ hg (le_antisymm hle h) with ⟨b, -⟩ | ⟨a, b⟩
      · exact .inl b
      · exact .inr a
    · exact .inl (f.early _ hg h).1

/-- The round of party `i`. -/
def pos (N : Network σ β ω ε) (evs : List (ℕ × Op β)) (i : ℕ) : ℕ :=
  (N.machine i).current_round (N.hist evs i).st

theorem Fits.done (F : N.Fits K rd p2p good script out) {evs : List (ℕ × Op β)}
    (ha : N.Authentic evs) {i : ℕ} (hi : N.Party i) (h : N.pos evs i = K + 1) :
    N.Done evs i (out i) := by
  rcases (F.follows i hi).done _ (F.genuine ha hi) h with ⟨-, -, a, b⟩ | ⟨a, -⟩
  · exact .inr ⟨a, b⟩
  · exact .inl a

/-- If everything sent was delivered and not all parties are at the end, one wants to proceed. -/
theorem Fits.no_deadlock (F : N.Fits K rd p2p good script out) {evs : List (ℕ × Op β)}
    (ha : N.Authentic evs)
    (hd : ∀ i j, N.Party i → N.Party j → i ≠ j → ∀ m ∈ N.sent evs j,
      m.receiver = none ∨ m.receiver = some i → .deliver m ∈ callsOf i evs)
    {i0 : ℕ} (hi0 : N.Party i0) (h0 : N.pos evs i0 ≤ K) :
    ∃ i, N.Party i ∧ (N.machine i).wants_to_proceed (N.hist evs i).st = true := by
  obtain ⟨i, hi, hmin⟩ := Finset.exists_min_image (Finset.Icc 1 N.n) (N.pos evs)
    ⟨i0, Finset.mem_Icc.2 hi0⟩
  have hip : N.Party i := Finset.mem_Icc.1 hi
  have hile : N.pos evs i ≤ K := (hmin i0 (Finset.mem_Icc.2 hi0)).trans h0
  refine ⟨i, hip, (F.follows i hip).wants _ (F.genuine ha hip) hile ?_⟩
  intro h1 p p1 p2 hne
  have hpp : N.Party p := ⟨p1, p2⟩
  have hge : N.pos evs i ≤ N.pos evs p := hmin p (Finset.mem_Icc.2 hpp)
  have f := F.follows p hpp
  have hgp := F.genuine ha hpp
  obtain ⟨m, hm, e1, e2, e3⟩ := F.sends i p hip hpp hne.symm (N.pos evs i) h1 hile (N.pos evs p) hge
    (f.le _ hgp)
  have hsent : m ∈ N.sent evs p := by
    unfold sent hist
    rw [f.sent _ hgp]
    exact hm
  have hrec : m.receiver = none ∨ m.receiver = some i := by
    rw [e3]; split <;> simp
  refine ⟨m, hd i p hip hpp hne.symm m hsent hrec, e1, e2, ?_⟩
  refine ⟨by omega, by omega, by omega, ?_⟩
  rw [e1]; exact e3

theorem Fits.quiescent_done (F : N.Fits K rd p2p good script out) {evs : List (ℕ × Op β)}
    (ha : N.Authentic evs) (hq : N.Quiescent evs) {i : ℕ} (hi : N.Party i) :
    N.Done evs i (out i) ∧ N.sent evs i = script i (K + 1) := by
  have hpos : N.pos evs i = K + 1 := by
    refine le_antisymm ((F.follows i hi).le _ (F.genuine ha hi)) ?_
    by_contra hc
    obtain ⟨j, hj, hw⟩ := F.no_deadlock ha hq.delivered hi (by omega)
    rw [hq.idle j hj] at hw
    cases hw
  refine ⟨F.done ha hi hpos, ?_⟩
  unfold sent hist
  rw [(F.follows i hi).sent _ (F.genuine ha hi)]
  exact congrArg _ hpos

/-! ### every execution can be completed -/

theorem hist_snoc_same (evs : List (ℕ × Op β)) (i : ℕ) (o : Op β) :
    N.hist (evs ++ [(i, o)]) i = (N.machine i).run (N.start i) (callsOf i evs ++ [o]) := by
  unfold hist
  rw [callsOf_append, callsOf_same]

theorem hist_snoc_other {i j : ℕ} (h : j ≠ i) (evs : List (ℕ × Op β)) (o : Op β) :
    N.hist (evs ++ [(j, o)]) i = N.hist evs i := by
  unfold hist
  rw [callsOf_append, callsOf_other h, List.append_nil]

theorem Authentic.snoc {evs : List (ℕ × Op β)} (ha : N.Authentic evs) {e : ℕ × Op β}
    (he : ∀ m, e.2 = .deliver m → N.Party m.sender ∧ m ∈ N.sent evs m.sender) :
    N.Authentic (evs ++ [e]) := by
  intro pre i m post h
  rcases List.eq_nil_or_concat post with rfl | ⟨l, x, rfl⟩
  · obtain ⟨h1, h2⟩ := List.append_inj' h rfl
    rw [← h1]
    refine he m ?_
    rw [List.cons.inj h2 |>.1]
  · refine ha pre i m l ?_
    have h' : evs ++ [e] = (pre ++ (i, .deliver m) :: l) ++ [x] := by rw [h]; simp
    exact (List.append_inj' h' rfl).1

/-- Delivering messages that were sent is authentic and does not set anybody back. -/
theorem Fits.deliver_all (F : N.Fits K rd p2p good script out) {evs : List (ℕ × Op β)}
    (ha : N.Authentic evs) (l : List (ℕ × Msg β))
    (hl : ∀ x ∈ l, N.Party x.2.sender ∧ x.2 ∈ N.sent evs x.2.sender)
    (hpre : ∀ i, N.Party i → ∀ k k', k ≤ k' → k' ≤ K + 1 → ∀ m ∈ script i k, m ∈ script i k') :
    N.Authentic (evs ++ l.map (fun x => (x.1, .deliver x.2))) ∧
    ∀ i, N.Party i → N.pos evs i ≤ N.pos (evs ++ l.map (fun x => (x.1, .deliver x.2))) i := by
  induction l using List.reverseRecOn with
  | nil => simp only [List.map_nil, List.append_nil]; exact ⟨ha, fun _ _ => le_rfl⟩
  | append_singleton l x ih =>
    obtain ⟨iha, ihp⟩ := ih (fun y hy => hl y (by simp [hy]))
    rw [List.map_append, ← List.append_assoc]
    obtain ⟨hs, hx⟩ := hl x (by simp)
    refine ⟨iha.snoc ?_, ?_⟩
    · intro m hm
      simp only [Op.deliver.injEq] at hm
      subst hm
      refine ⟨hs, ?_⟩
      have f := F.follows _ hs
      unfold sent hist at hx ⊢
      rw [f.sent _ (F.genuine ha hs)] at hx
      rw [f.sent _ (F.genuine iha hs)]
      exact hpre _ hs _ _ (ihp _ hs) (f.le _ (F.genuine iha hs)) _ hx
    · intro i hi
      refine (ihp i hi).trans ?_
      simp only [List.map_cons, List.map_nil]
      by_cases hxi : x.1 = i
      · subst hxi
        unfold pos
        rw [hist_snoc_same]
        exact (F.follows _ hi).mono _ _ (F.genuine iha hi)
      · unfold pos
        rw [hist_snoc_other hxi]

/-- The rounds still to be made. -/
def left (N : Network σ β ω ε) (K : ℕ) (evs : List (ℕ × Op β)) : ℕ :=
  ∑ i ∈ Finset.Icc 1 N.n, (K + 1 - N.pos evs i)

/-- Every authentic execution can be continued to a quiescent one. -/
theorem Fits.completes (F : N.Fits K rd p2p good script out)
    (hpre : ∀ i, N.Party i → ∀ k k', k ≤ k' → k' ≤ K + 1 → ∀ m ∈ script i k, m ∈ script i k')
    (hsender : ∀ i, N.Party i → ∀ k ≤ K + 1, ∀ m ∈ script i k, m.sender = i)
    {evs : List (ℕ × Op β)} (ha : N.Authentic evs) :
    ∃ more, N.Authentic (evs ++ more) ∧ N.Quiescent (evs ++ more) ∧ .pick ∉ more.map Prod.snd := by
  induction hd : N.left K evs using Nat.strong_induction_on generalizing evs with
  | _ d ih =>
    -- deliver everything sent so far
    let l : List (ℕ × Msg β) := (List.range' 1 N.n).flatMap (fun i =>
      (List.range' 1 N.n).flatMap (fun j => (N.sent evs j).map (fun m => (i, m))))
    have hmem : ∀ x, x ∈ l ↔ N.Party x.1 ∧ ∃ j, N.Party j ∧ x.2 ∈ N.sent evs j := by
      intro x
      have hp : ∀ i, i ∈ List.range' 1 N.n ↔ N.Party i := by
        intro i
        rw [List.mem_range'_1]
        exact ⟨fun h => ⟨h.1, by omega⟩, fun h => ⟨h.1, by have := h.2; omega⟩⟩
      simp only [l, List.mem_flatMap, List.mem_map, hp]
      constructor
      · rintro ⟨i, hi, j, hj, m, hm, rfl⟩
        exact ⟨hi, j, hj, hm⟩
      · rintro ⟨hi, j, hj, hm⟩
        exact ⟨x.1, hi, j, hj, x.2, hm, rfl⟩
    have hsend : ∀ j, N.Party j → ∀ m ∈ N.sent evs j, m.sender = j := by
      intro j hj m hm
      have f := F.follows j hj
      unfold sent hist at hm
      rw [f.sent _ (F.genuine ha hj)] at hm
      exact hsender j hj _ (f.le _ (F.genuine ha hj)) m hm
    obtain ⟨ha1, hp1⟩ := F.deliver_all ha l (fun x hx => by
      obtain ⟨-, j, hj, hm⟩ := (hmem x).1 hx
      rw [hsend j hj _ hm]
      exact ⟨hj, hm⟩) hpre
    generalize hevs1 : l.map (fun x => ((x.1, .deliver x.2) : ℕ × Op β)) = dl at ha1 hp1
    have hnp : (.pick : Op β) ∉ dl.map Prod.snd := by
      rw [← hevs1, List.map_map]
      intro h
      obtain ⟨x, -, hx⟩ := List.mem_map.1 h
      cases hx
    by_cases hsame : ∀ i, N.Party i → N.pos (evs ++ dl) i = N.pos evs i
    · -- nobody advanced, so everything sent is delivered
      have hsent : ∀ j, N.Party j → N.sent (evs ++ dl) j = N.sent evs j := by
        intro j hj
        have f := F.follows j hj
        unfold sent hist
        rw [f.sent _ (F.genuine ha1 hj), f.sent _ (F.genuine ha hj)]
        exact congrArg _ (hsame j hj)
      have hdel : ∀ i j, N.Party i → N.Party j → i ≠ j → ∀ m ∈ N.sent (evs ++ dl) j,
          m.receiver = none ∨ m.receiver = some i → .deliver m ∈ callsOf i (evs ++ dl) := by
        intro i j hi hj _ m hm _
        rw [hsent j hj] at hm
        rw [mem_callsOf, List.mem_append]
        refine .inr ?_
        rw [← hevs1]
        exact List.mem_map.2 ⟨(i, m), (hmem _).2 ⟨hi, j, hj, hm⟩, rfl⟩
      by_cases hw : ∃ i, N.Party i ∧
          (N.machine i).wants_to_proceed (N.hist (evs ++ dl) i).st = true
      · obtain ⟨i, hi, hw⟩ := hw
        have f := F.follows i hi
        have ha2 : N.Authentic (evs ++ dl ++ [(i, .proceed)]) :=
          ha1.snoc (fun m hm => by cases hm)
        have hprog := f.progress _ (F.genuine ha1 hi) hw
        have hlt : N.left K (evs ++ dl ++ [(i, .proceed)]) < d := by
          rw [← hd]
          refine Finset.sum_lt_sum (fun j hj => ?_) ⟨i, Finset.mem_Icc.2 hi, ?_⟩
          · by_cases hji : i = j
            · subst hji
              have h2 : N.pos (evs ++ dl ++ [(i, .proceed)]) i = (N.machine i).current_round
                  ((N.machine i).run (N.start i) (callsOf i (evs ++ dl) ++ [.proceed])).st := by
                unfold pos; rw [hist_snoc_same]
              have h3 := hsame i hi
              unfold pos at h2 h3 ⊢
              unfold hist at h2 h3 ⊢
              omega
            · have h2 : N.pos (evs ++ dl ++ [(i, .proceed)]) j = N.pos (evs ++ dl) j := by
                unfold pos; rw [hist_snoc_other hji]
              rw [h2, hsame j (Finset.mem_Icc.1 hj)]
          · have h2 : N.pos (evs ++ dl ++ [(i, .proceed)]) i = (N.machine i).current_round
                ((N.machine i).run (N.start i) (callsOf i (evs ++ dl) ++ [.proceed])).st := by
              unfold pos; rw [hist_snoc_same]
            have h3 := hsame i hi
            have h4 := f.le _ (F.genuine ha2 hi)
            rw [callsOf_append, callsOf_same] at h4
            unfold pos at h2 h3 ⊢
            unfold hist at h2 h3 ⊢
            omega
        obtain ⟨more, m1, m2, m3⟩ := ih _ hlt ha2 rfl
        refine ⟨dl ++ [(i, .proceed)] ++ more, ?_, ?_, ?_⟩
        · rw [← List.append_assoc, ← List.append_assoc]; exact m1
        · rw [← List.append_assoc, ← List.append_assoc]; exact m2
        · rw [List.map_append, List.map_append]
          simp only [List.mem_append, not_or]
          exact ⟨⟨hnp, by simp⟩, m3⟩
      · refine ⟨dl, ha1, ⟨hdel, fun i hi => ?_⟩, hnp⟩
        by_contra hc
        exact hw ⟨i, hi, by simpa using hc⟩
    · -- somebody advanced
      push Not at hsame
      obtain ⟨i, hi, hne⟩ := hsame
      have hlt : N.left K (evs ++ dl) < d := by
        rw [← hd]
        refine Finset.sum_lt_sum (fun j hj => ?_) ⟨i, Finset.mem_Icc.2 hi, ?_⟩
        · have := hp1 j (Finset.mem_Icc.1 hj); omega
        · have h1 := hp1 i hi
          have h2 := (F.follows i hi).le _ (F.genuine ha1 hi)
          change N.pos (evs ++ dl) i ≤ K + 1 at h2
          omega
      obtain ⟨more, m1, m2, m3⟩ := ih _ hlt ha1 rfl
      refine ⟨dl ++ more, ?_, ?_, ?_⟩
      · rw [← List.append_assoc]; exact m1
      · rw [← List.append_assoc]; exact m2
      · rw [List.map_append]
        simp only [List.mem_append, not_or]
        exact ⟨hnp, m3⟩

end Network
end Spec
end Verif
