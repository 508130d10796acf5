import Verif.Lemmas.RoundMachine

/-! # Consequences of the invariant, and transfer to machines that behave like a round machine -/

namespace Verif.Proto

variable (P : Proto)

/-! ### straight-line execution -/

theorem script_of_straight {r0 : P.St 0} {v : (k : ℕ) → List (P.Bd k)} {k : ℕ} {r : P.St k}
    {q : List (Msg P.Body)} (h : P.straight r0 v k = .ok (r, q)) : P.script r0 v k = (q, .ok r) := by
  induction k generalizing q with
  | zero => simp only [straight, Res.ok.injEq, Prod.mk.injEq] at h
            simp only [script, ← h.1, ← h.2]
  | succ k ih =>
    unfold straight at h
    simp only [Res.bind_eq_ok] at h
    obtain ⟨⟨rk, qk⟩, h1, ⟨ro, out⟩, h2, h3⟩ := h
    simp only [Res.ok.injEq, Prod.mk.injEq] at h3
    unfold script
    rw [ih h1]
    simp only [Script.step, h2, Res.bind_ok, h3]

theorem script_of_err {r0 : P.St 0} {v : (k : ℕ) → List (P.Bd k)} {k : ℕ} {r : P.St k}
    {q : List (Msg P.Body)} {e : P.Er} (h : P.straight r0 v k = .ok (r, q))
    (h' : P.straight r0 v (k + 1) = .err e) (j : ℕ) (hj : k < j) :
    P.script r0 v j = (q, .err e) := by
  induction j with
  | zero => omega
  | succ j ih =>
    by_cases hjk : j = k
    · subst hjk
      unfold straight at h'
      rw [h] at h'
      simp only [Res.bind_ok, Res.bind_eq_err] at h'
      rcases h' with h' | ⟨_, -, h'⟩
      · unfold script
        rw [P.script_of_straight h]
        simp only [Script.step, h', Res.bind_err]
      · cases h'
    · unfold script
      rw [ih (by omega)]
      rfl

theorem script_of_panic {r0 : P.St 0} {v : (k : ℕ) → List (P.Bd k)} {k : ℕ} {r : P.St k}
    {q : List (Msg P.Body)} (h : P.straight r0 v k = .ok (r, q))
    (h' : P.straight r0 v (k + 1) = .panic) (j : ℕ) (hj : k < j) :
    P.script r0 v j = (q, .panic) := by
  induction j with
  | zero => omega
  | succ j ih =>
    by_cases hjk : j = k
    · subst hjk
      unfold straight at h'
      rw [h] at h'
      simp only [Res.bind_ok, Res.bind_eq_panic] at h'
      rcases h' with h' | ⟨_, -, h'⟩
      · unfold script
        rw [P.script_of_straight h]
        simp only [Script.step, h', Res.bind_panic]
      · cases h'
    · unfold script
      rw [ih (by omega)]
      rfl

theorem script_congr {r0 : P.St 0} {v v' : (k : ℕ) → List (P.Bd k)} {k : ℕ}
    (h : ∀ j, 1 ≤ j → j < k → v j = v' j) : P.script r0 v k = P.script r0 v' k := by
  induction k with
  | zero => rfl
  | succ k ih =>
    unfold script
    rw [ih (fun j h1 h2 => h j h1 (by omega))]
    by_cases hk : k = 0
    · simp only [hk, if_true]
    · simp only [if_neg hk, h k (by omega) (by omega)]

/-- What is sent so far is a prefix of what the whole execution sends. -/
theorem script_prefix {r0 : P.St 0} {v : (k : ℕ) → List (P.Bd k)} {k j : ℕ} (h : k ≤ j) :
    (P.script r0 v k).1 <+: (P.script r0 v j).1 := by
  induction j with
  | zero => simp only [Nat.le_zero] at h; subst h; exact List.prefix_rfl
  | succ j ih =>
    by_cases hk : k = j + 1
    · subst hk; exact List.prefix_rfl
    · refine (ih (by omega)).trans ?_
      conv_rhs => unfold script Script.step
      cases (P.script r0 v j).2 with
      | ok a =>
        simp only
        cases (P.fn j a (if j = 0 then [] else v j)) with
        | ok ro => simp
        | err e => simp
        | panic => simp
      | err e => simp
      | panic => simp

/-! ### histories -/

/-- The observable outcome of a history agrees with the straight-line execution. -/
def Outcome {ω ε σ β : Type} (M : StateMachine σ β ω ε) (h : History σ β ω ε)
    (x : List (Msg β) × Res ε ω) : Prop :=
  M.sent h = x.1 ∧ h.outputs = [] ∧ (h.panicked = false → M.wants_to_proceed h.st = false) ∧
  match x.2 with
  | .ok o => h.panicked = false ∧ h.errors = [] ∧ M.is_finished h.st = true ∧
      (M.pick_output h.st).2 = some (.ok o)
  | .err e => h.panicked = false ∧ h.errors = [.ProceedRound e] ∧ M.is_finished h.st = false ∧
      (M.pick_output h.st).2 = some (.err .DoublePickOutput)
  | .panic => h.panicked = true ∧ h.errors = []

/-- An operation other than `pick`. -/
def _root_.Verif.Op.notPick {β : Type} : Op β → Prop
  | .pick => False
  | _ => True

theorem no_pick_errors {me n : ℕ} (r0 : P.St 0) (h1 : 1 ≤ me) (h2 : me ≤ n)
    (ops : List (Op P.Body)) (hops : ∀ op ∈ ops, op.notPick) :
    (P.machine.run (P.init me n r0) ops).outputs = [] ∧
    ((P.machine.run (P.init me n r0) ops).errors = [] ∨
      ∃ e, (P.machine.run (P.init me n r0) ops).errors = [.ProceedRound e]) := by
  have key : ∀ (h : P.Hist), (∃ L pos, P.Inv me n r0 h L pos) →
      (h.outputs = [] ∧ (h.errors = [] ∨ ∃ e, h.errors = [.ProceedRound e])) →
      ((ops.foldl P.machine.step h).outputs = [] ∧
        ((ops.foldl P.machine.step h).errors = [] ∨
          ∃ e, (ops.foldl P.machine.step h).errors = [.ProceedRound e])) := by
    induction ops with
    | nil => intro h _ hh; exact hh
    | cons op ops ih =>
      rintro h ⟨L, pos, hi⟩ ⟨ho, he⟩
      refine ih (fun o ho => hops o (by simp [ho])) _ (P.step_inv h1 h2 hi op) ?_
      -- outputs and the number of errors do not grow beyond one without `pick`
      obtain ⟨L', pos', hi'⟩ := P.step_inv h1 h2 hi op
      have hout : (P.machine.step h op).outputs = h.outputs := by
        unfold StateMachine.step
        split
        · rfl
        · cases op with
          | deliver m =>
            simp only [StateMachine.record]
            split <;> split <;> rfl
          | proceed =>
            simp only [StateMachine.record]
            split <;> rfl
          | drain => rfl
          | pick => exact absurd (hops .pick (by simp)) (by simp [Op.notPick])
      refine ⟨hout.trans ho, ?_⟩
      have herr : (P.machine.step h op).errors.length ≤ h.errors.length + 1 ∧
          h.errors <+: (P.machine.step h op).errors ∧
          ∀ e, (P.machine.step h op).errors = h.errors ++ [e] → e ≠ .DoublePickOutput ∨ h.errors = [] := by
        by_cases hn : h.errors = []
        · refine ⟨?_, by rw [hn]; simp, fun e _ => Or.inr hn⟩
          rw [hn]
          unfold StateMachine.step
          split
          · simp [hn]
          · cases op with
            | deliver m =>
              simp only [StateMachine.record]
              split <;> split <;> simp [hn]
              all_goals (split <;> simp)
            | proceed =>
              simp only [StateMachine.record]
              split <;> simp [hn]
              split <;> simp
            | drain => simp [hn]
            | pick => exact absurd (hops .pick (by simp)) (by simp [Op.notPick])
        · -- a failed machine returns no further errors
          have hgone : h.panicked = false → h.st.round = .gone := by
            intro hp
            cases hi.phase with
            | running r _ _ _ _ he' => exact absurd he' hn
            | failed k rk e m _ hr => exact hr
            | panicked k rk hp' => rw [hp] at hp'; cases hp'
            | picked o m _ hr => exact hr
          have hsame : (P.machine.step h op).errors = h.errors := by
            by_cases hp : h.panicked = true
            · unfold StateMachine.step; rw [if_pos hp]
            · rw [Bool.not_eq_true] at hp
              cases op with
              | deliver m =>
                by_cases hm : P.Takes me n L m
                · obtain ⟨s', e1, e2, -⟩ := P.handle_taken h1 h2 hi.stores hm
                  unfold StateMachine.step
                  rw [if_neg (by simp [hp])]
                  simp only [machine, e1, P.proceedRound_gone (e2.trans (hgone hp)),
                    StateMachine.record, StateMachine.takes, if_true]
                · rw [P.step_refused h1 h2 hi hm]
              | proceed =>
                unfold StateMachine.step
                rw [if_neg (by simp [hp])]
                simp only [machine, P.proceedRound_gone (hgone hp), StateMachine.record]
              | drain =>
                unfold StateMachine.step
                rw [if_neg (by simp [hp])]
              | pick => exact absurd (hops .pick (by simp)) (by simp [Op.notPick])
          rw [hsame]
          exact ⟨by omega, List.prefix_rfl, fun e he => by simp at he⟩
      cases hi'.phase with
      | running r _ _ _ _ he' => exact Or.inl he'
      | failed k rk e m _ _ _ _ _ _ he' =>
        right
        refine ⟨e, ?_⟩
        rcases he with he | ⟨e0, he⟩
        · rw [he, he'] at herr
          have := herr.1
          simp only [List.length_cons, List.length_replicate, List.length_nil] at this
          have : m = 0 := by omega
          rw [he', this]; rfl
        · by_cases hm : m = 0
          · rw [he', hm]; rfl
          · exfalso
            obtain ⟨m, rfl⟩ : ∃ m', m = m' + 1 := ⟨m - 1, by omega⟩
            have hl := herr.1
            rw [he, he'] at hl
            simp only [List.length_cons, List.length_replicate, List.length_nil] at hl
            have : m = 0 := by omega
            subst this
            have hpre := herr.2.1
            rw [he, he'] at hpre
            simp only [List.replicate, List.cons_prefix_cons] at hpre
            rcases herr.2.2 .DoublePickOutput (by rw [he, he', hpre.1]; rfl) with h | h
            · exact h rfl
            · rw [he] at h; cases h
      | panicked k rk _ _ _ _ _ he' => exact Or.inl he'
      | picked o m _ _ _ _ _ ho' => rw [hout, ho] at ho'; cases ho'
  exact key _ ⟨_, _, P.inv_init me n r0⟩ ⟨rfl, Or.inl rfl⟩

/-! ### delivered and accepted messages -/

theorem accepted_mono (h : P.Hist) (op : Op P.Body) {m : Msg P.Body} (hm : m ∈ h.accepted) :
    m ∈ (P.machine.step h op).accepted := by
  unfold StateMachine.step
  split
  · exact hm
  · cases op with
    | deliver m' =>
      simp only [StateMachine.record]
      split <;> split <;> simp [hm]
    | proceed => simp only [StateMachine.record]; split <;> exact hm
    | drain => exact hm
    | pick =>
      simp only
      split <;> exact hm

theorem accepted_sub (h : P.Hist) (op : Op P.Body) {m : Msg P.Body}
    (hm : m ∈ (P.machine.step h op).accepted) : m ∈ h.accepted ∨ op = .deliver m := by
  unfold StateMachine.step at hm
  split at hm
  · exact Or.inl hm
  · cases op with
    | deliver m' =>
      simp only [StateMachine.record] at hm
      split at hm <;> split at hm <;> simp at hm <;> simp only [Op.deliver.injEq] <;> tauto
    | proceed => simp only [StateMachine.record] at hm; split at hm <;> exact Or.inl hm
    | drain => exact Or.inl hm
    | pick =>
      simp only at hm
      split at hm <;> exact Or.inl hm

theorem foldl_accepted_sub (ops : List (Op P.Body)) (h : P.Hist) {m : Msg P.Body}
    (hm : m ∈ (ops.foldl P.machine.step h).accepted) : m ∈ h.accepted ∨ .deliver m ∈ ops := by
  induction ops generalizing h with
  | nil => exact Or.inl hm
  | cons op ops ih =>
    rcases ih _ hm with h' | h'
    · rcases P.accepted_sub h op h' with h'' | h''
      · exact Or.inl h''
      · exact Or.inr (by rw [h'']; simp)
    · exact Or.inr (by simp [h'])

theorem foldl_accepted_mono (ops : List (Op P.Body)) (h : P.Hist) {m : Msg P.Body}
    (hm : m ∈ h.accepted) : m ∈ (ops.foldl P.machine.step h).accepted := by
  induction ops generalizing h with
  | nil => exact hm
  | cons op ops ih => exact ih _ (P.accepted_mono h op hm)

theorem foldl_panicked (ops : List (Op P.Body)) (h : P.Hist) (hp : h.panicked = true) :
    ops.foldl P.machine.step h = h := by
  induction ops with
  | nil => rfl
  | cons op ops ih =>
    rw [List.foldl_cons]
    have : P.machine.step h op = h := by unfold StateMachine.step; rw [if_pos hp]
    rw [this]; exact ih

/-- The message's address is as expected for its round. -/
def WellAddressed (me n : ℕ) (m : Msg P.Body) : Prop :=
  1 ≤ m.body.1 ∧ m.body.1 ≤ P.K ∧ Addressed me n (P.p2p m.body.1) m.sender m.receiver

/-- Unless a call panicked, every well-addressed delivery finds its slot filled afterwards. -/
theorem delivered_accepted {me n : ℕ} {r0 : P.St 0} (h1 : 1 ≤ me) (h2 : me ≤ n)
    (ops : List (Op P.Body)) (h : P.Hist) (hi : ∃ L pos, P.Inv me n r0 h L pos)
    (hnp : (ops.foldl P.machine.step h).panicked = false) {m : Msg P.Body}
    (hm : .deliver m ∈ ops) (ha : P.WellAddressed me n m) :
    ∃ m' ∈ (ops.foldl P.machine.step h).accepted, m'.body.1 = m.body.1 ∧ m'.sender = m.sender := by
  induction ops generalizing h with
  | nil => simp at hm
  | cons op ops ih =>
    obtain ⟨L, pos, hi⟩ := hi
    rw [List.foldl_cons] at hnp ⊢
    rcases List.mem_cons.1 hm with rfl | hm
    · have hp : h.panicked = false := by
        by_contra hc
        rw [Bool.not_eq_false] at hc
        have := P.foldl_panicked (.deliver m :: ops) h hc
        rw [List.foldl_cons] at this
        rw [this, hc] at hnp
        cases hnp
      by_cases ht : P.Takes me n L m
      · have := (P.step_taken h1 h2 hi hp ht).2
        exact ⟨m, P.foldl_accepted_mono ops _ (by rw [this]; simp), rfl, rfl⟩
      · have hs : L m.body.1 (Store.slot me m.sender) ≠ none :=
          fun hc => ht ⟨ha.1, ha.2.1, ha.2.2, hc⟩
        obtain ⟨b, hb⟩ := Option.ne_none_iff_exists'.1 hs
        have hslot := (Store.slot_lt h1 h2 ha.2.2.pos ha.2.2.ne).2 ha.2.2.le
        refine ⟨P.slotMsg me m.body.1 (Store.slot me m.sender) b,
          P.foldl_accepted_mono ops _ (P.accepted_mono _ _ ?_), rfl,
          Store.owner_slot h1 ha.2.2.pos ha.2.2.ne⟩
        exact (hi.log _).2 ⟨_, _, b, ha.1, ha.2.1, hslot, hb, rfl⟩
    · exact ih _ (P.step_inv h1 h2 hi op) hnp hm

/-- The other parties in order. -/
def _root_.Verif.others (me n : ℕ) : List ℕ := (List.range (n - 1)).map (Store.owner me)

/-- A schedule delivers each peer's message of each round (in any order, possibly repeatedly) and
possibly wrongly addressed messages, and calls `proceed` and takes messages at any time. -/
structure Schedule (me n : ℕ) (body : (j : ℕ) → ℕ → P.Bd j) (ops : List (Op P.Body)) : Prop where
  noPick : ∀ op ∈ ops, op.notPick
  genuine : ∀ m, .deliver m ∈ ops → P.WellAddressed me n m → m.body.2 = body m.body.1 m.sender
  complete : ∀ j s, 1 ≤ j → j ≤ P.K → 1 ≤ s → s ≤ n → s ≠ me →
    .deliver ⟨s, if P.p2p j then some me else none, ⟨j, body j s⟩⟩ ∈ ops

/-- In a history whose deliveries are genuine, complete rounds hold the peers' messages. -/
theorem vecs_eq {me n : ℕ} {r0 : P.St 0} {h : P.Hist} {L : P.Log} {pos : ℕ}
    (hi : P.Inv me n r0 h L pos) (body : (j : ℕ) → ℕ → P.Bd j)
    (hg : ∀ m ∈ h.accepted, P.WellAddressed me n m → m.body.2 = body m.body.1 m.sender)
    {j : ℕ} (h1 : 1 ≤ j) (h2 : j ≤ P.K) (hf : P.Full n L j) :
    P.vecs n L j = (others me n).map (body j) := by
  unfold vecs others
  rw [List.map_map]
  have key : ∀ l : List ℕ, (∀ i ∈ l, i < n - 1) →
      l.filterMap (L j) = l.map (body j ∘ Store.owner me) := by
    intro l
    induction l with
    | nil => intro _; rfl
    | cons i l ih =>
      intro hl
      have hin := hl i (by simp)
      obtain ⟨b, hb⟩ := Option.isSome_iff_exists.1 (hf i hin)
      rw [List.filterMap_cons_some hb, List.map_cons, ih (fun k hk => hl k (by simp [hk]))]
      congr 1
      have hacc : P.slotMsg me j i b ∈ h.accepted := (hi.log _).2 ⟨j, i, b, h1, h2, hin, hb, rfl⟩
      exact hg _ hacc ⟨h1, h2, Store.owner_pos, Store.owner_le hin, Store.owner_ne, rfl⟩
  exact key _ (by simp)

/-- After a schedule that did not panic, every round's messages are in. -/
theorem schedule_full {me n : ℕ} {r0 : P.St 0} (h1 : 1 ≤ me) (h2 : me ≤ n)
    {body : (j : ℕ) → ℕ → P.Bd j} {ops : List (Op P.Body)} (hs : P.Schedule me n body ops)
    (hnp : (P.machine.run (P.init me n r0) ops).panicked = false) {L : P.Log} {pos : ℕ}
    (hi : P.Inv me n r0 (P.machine.run (P.init me n r0) ops) L pos) {j : ℕ} (j1 : 1 ≤ j)
    (j2 : j ≤ P.K) : P.Full n L j := by
  intro i hin
  have hd := hs.complete j (Store.owner me i) j1 j2 Store.owner_pos (Store.owner_le hin)
    Store.owner_ne
  obtain ⟨m', hm', e1, e2⟩ := P.delivered_accepted h1 h2 ops _ ⟨_, _, P.inv_init me n r0⟩ hnp hd
    ⟨j1, j2, Store.owner_pos, Store.owner_le hin, Store.owner_ne, rfl⟩
  obtain ⟨j', i', b, _, _, _, hb, rfl⟩ := (hi.log m').1 hm'
  simp only [slotMsg] at e1 e2
  subst e1
  rw [← Store.owner_inj e2, hb]
  rfl

/-- `proceed` with all messages in goes to the output, or stops after a round that does not try the
next one. -/
theorem step_proceed_running {me n : ℕ} {r0 : P.St 0} {h : P.Hist} {L : P.Log} {pos : ℕ}
    (hi : P.Inv me n r0 h L pos) (hnp : h.panicked = false)
    (hf : ∀ j, 1 ≤ j → j ≤ P.K → P.Full n L j) :
    ∃ pos', P.Inv me n r0 (P.machine.step h .proceed) L pos' ∧
      ∀ k r', (P.machine.step h .proceed).st.round = .at k r' → k = pos' ∧
        (pos' = P.K + 1 ∨ pos < pos' ∧ P.again (pos' - 1) = false) := by
  have hrec : P.machine.step h .proceed =
      { StateMachine.record h (P.proceedRound true h.st) with accepted := h.accepted } := by
    unfold StateMachine.step
    rw [if_neg (by simp [hnp])]
    simp only [StateMachine.record, machine]
    cases (P.proceedRound true h.st).2 <;> rfl
  have hst : (P.machine.step h .proceed).st = (P.proceedRound true h.st).1 := by
    rw [hrec]; simp only [StateMachine.record]; cases (P.proceedRound true h.st).2 <;> rfl
  obtain ⟨p0, hi'⟩ := P.inv_record (mb := true) (acc := h.accepted) hi.stores hi.log rfl rfl
    hi.phase hnp
  rw [← hrec] at hi'
  cases hi.phase with
  | running r hp hr hle hc he ho =>
    obtain ⟨pos', b1, b2, b3⟩ := P.proceedRound_spec (mb := true) (D := h.drained) hr hle hi.stores hc
    have hgone : ∀ {Q : Prop}, (P.proceedRound true h.st).1.round = .gone →
        ∀ k r', (P.machine.step h .proceed).st.round = .at k r' → Q := by
      intro Q a k r' hk; rw [hst, a] at hk; cases hk
    rcases b3 with ⟨r', a1, a2, a3, a4, a5⟩ | ⟨k, rk, e, a1, a2, -⟩ | ⟨k, rk, a1, a2, -⟩
    · refine ⟨pos', ⟨by rw [hst]; exact b2, hi'.log, ?_⟩, ?_⟩
      · rw [hrec]
        simp only [StateMachine.record, a1]
        exact .running r' hp a2 a3 a4 he ho
      · intro k rk hk
        rw [hst, a2] at hk
        cases hk
        refine ⟨rfl, ?_⟩
        rcases a5 with a5 | a5
        · left
          by_contra hne
          rw [← Bool.not_eq_true, P.ready_iff b2] at a5
          exact a5 ⟨by omega, fun h1 => hf _ h1 (by omega), fun _ => rfl⟩
        · exact Or.inr a5
    · exact ⟨p0, hi', fun k r' hk => hgone a2 k r' hk⟩
    · exact ⟨p0, hi', fun k r' hk => hgone a2 k r' hk⟩
  | failed k rk e m hp hr =>
    refine ⟨p0, hi', fun k r' hk => ?_⟩
    rw [hst, P.proceedRound_gone hr, hr] at hk; cases hk
  | panicked k rk hp => rw [hnp] at hp; cases hp
  | picked o m hp hr =>
    refine ⟨p0, hi', fun k r' hk => ?_⟩
    rw [hst, P.proceedRound_gone hr, hr] at hk; cases hk

/-- A machine whose rounds are all done, or failed, agrees with the straight-line execution. -/
theorem outcome_of_inv {me n : ℕ} {r0 : P.St 0} {h : P.Hist} {L : P.Log} {pos : ℕ}
    (hi : P.Inv me n r0 h L pos) (body : (j : ℕ) → ℕ → P.Bd j)
    (hg : ∀ m ∈ h.accepted, P.WellAddressed me n m → m.body.2 = body m.body.1 m.sender)
    (ho : h.outputs = []) (he : h.errors = [] ∨ ∃ e, h.errors = [.ProceedRound e])
    (hend : ∀ k r', h.panicked = false → h.st.round = .at k r' → k = P.K + 1) :
    Outcome P.machine h (P.script r0 (fun j => (others me n).map (body j)) (P.K + 1)) := by
  have key : ∀ k ≤ pos, P.straight r0 (P.vecs n L) k =
      P.straight r0 (fun j => (others me n).map (body j)) k := by
    intro k hk
    refine P.straight_congr fun j j1 j2 => ?_
    exact P.vecs_eq hi body hg j1 (by have := hi.phase.pos_le; omega)
      (hi.stores.gone j j1 (by omega)).2
  cases hi.phase with
  | running r hp hr hle hc he' ho' =>
    have := hend _ _ hp hr
    subst this
    rw [key _ le_rfl] at hc
    rw [P.script_of_straight hc]
    refine ⟨rfl, ho, fun _ => ?_, hp, he', ?_, ?_⟩
    · simp [machine, hr]
    · simp [machine, hr]
    · simp [machine, pick, hr]
  | failed k rk e m hp hr hpos hk hc hc' he' ho' =>
    rw [key _ (by omega)] at hc hc'
    rw [P.script_of_err hc hc' _ (by omega)]
    refine ⟨rfl, ho, fun _ => ?_, hp, ?_, ?_, ?_⟩
    · simp [machine, hr]
    · rcases he with he | ⟨e0, he⟩
      · rw [he] at he'; cases he'
      · rw [he, List.cons.injEq] at he'
        rw [he, he'.1]
    · simp [machine, hr]
    · simp [machine, pick, hr]
  | panicked k rk hp hpos hk hc hc' he' ho' =>
    rw [key _ (by omega)] at hc hc'
    rw [P.script_of_panic hc hc' _ (by omega)]
    exact ⟨rfl, ho, fun h => (by rw [hp] at h; cases h), hp, he'⟩
  | picked o m hp hr hpos hc he' ho' => rw [ho] at ho'; cases ho'

/-- A whole schedule followed by enough calls of `proceed`: for machines that always try the next round
one call suffices. -/
theorem schedule_outcome {me n : ℕ} (r0 : P.St 0) (h1 : 1 ≤ me) (h2 : me ≤ n)
    (hag : ∀ k ≤ P.K, P.again k = true)
    {body : (j : ℕ) → ℕ → P.Bd j} {ops : List (Op P.Body)} (hs : P.Schedule me n body ops) :
    Outcome P.machine (P.machine.run (P.init me n r0) (ops ++ [.proceed]))
      (P.script r0 (fun j => (others me n).map (body j)) (P.K + 1)) := by
  have hfold : P.machine.run (P.init me n r0) (ops ++ [.proceed]) =
      P.machine.step (P.machine.run (P.init me n r0) ops) .proceed := by
    unfold StateMachine.run; rw [List.foldl_append]; rfl
  have hg : ∀ m ∈ (P.machine.run (P.init me n r0) (ops ++ [.proceed])).accepted,
      P.WellAddressed me n m → m.body.2 = body m.body.1 m.sender := by
    intro m hm ha
    rcases P.foldl_accepted_sub _ _ hm with h | h
    · simp at h
    · refine hs.genuine m ?_ ha
      rcases List.mem_append.1 h with h | h
      · exact h
      · simp at h
  obtain ⟨ho, he⟩ := P.no_pick_errors r0 h1 h2 (ops ++ [.proceed]) (by
    intro op hop
    rcases List.mem_append.1 hop with h | h
    · exact hs.noPick op h
    · simp only [List.mem_singleton] at h; subst h; trivial)
  obtain ⟨L, pos, hi⟩ := P.run_inv r0 h1 h2 ops
  by_cases hp : (P.machine.run (P.init me n r0) ops).panicked = true
  · have hsame : P.machine.run (P.init me n r0) (ops ++ [.proceed]) =
        P.machine.run (P.init me n r0) ops := by
      rw [hfold]; unfold StateMachine.step; rw [if_pos hp]
    rw [hsame] at hg ho he ⊢
    exact P.outcome_of_inv hi body hg ho he (fun k r' h => by rw [hp] at h; cases h)
  · rw [Bool.not_eq_true] at hp
    obtain ⟨pos', hi', hend⟩ := P.step_proceed_running hi hp
      (fun j j1 j2 => P.schedule_full h1 h2 hs hp hi j1 j2)
    rw [← hfold] at hi' hend
    refine P.outcome_of_inv hi' body hg ho he (fun k r' _ hk => ?_)
    obtain ⟨rfl, h | ⟨h3, h4⟩⟩ := hend k r' hk
    · exact h
    · have hle := hi'.phase.pos_le
      rw [hag _ (by omega)] at h4
      cases h4

/-- The number of rounds from `pos` on, before the last, after which `proceed` returns. -/
def stops (pos : ℕ) : ℕ :=
  ((List.range P.K).filter (fun k => decide (pos ≤ k) && !P.again k)).length

theorem stops_lt {pos pos' : ℕ} (h : pos < pos') (hK : pos' ≤ P.K)
    (ha : P.again (pos' - 1) = false) : P.stops pos' < P.stops pos := by
  have key : ∀ l : List ℕ, (pos' - 1) ∈ l →
      (l.filter (fun k => decide (pos' ≤ k) && !P.again k)).length <
      (l.filter (fun k => decide (pos ≤ k) && !P.again k)).length := by
    intro l
    have hle : ∀ l : List ℕ, (l.filter (fun k => decide (pos' ≤ k) && !P.again k)).length ≤
        (l.filter (fun k => decide (pos ≤ k) && !P.again k)).length := by
      intro l
      refine List.Sublist.length_le (List.monotone_filter_right l fun k hk => ?_)
      simp only [Bool.and_eq_true, decide_eq_true_eq] at hk ⊢
      exact ⟨by omega, hk.2⟩
    induction l with
    | nil => intro h; simp at h
    | cons a l ih =>
      intro hm
      by_cases e : a = pos' - 1
      · subst e
        rw [List.filter_cons_of_neg (by simp only [Bool.and_eq_true, decide_eq_true_eq]; omega),
          List.filter_cons_of_pos (by simp only [Bool.and_eq_true, decide_eq_true_eq, ha]; exact ⟨by omega, rfl⟩)]
        have := hle l
        simp only [List.length_cons]
        omega
      · have hm : pos' - 1 ∈ l := by
          rcases List.mem_cons.1 hm with h | h
          · exact (e h.symm).elim
          · exact h
        have := ih hm
        by_cases h1 : (decide (pos' ≤ a) && !P.again a) = true
        · have h2 : (decide (pos ≤ a) && !P.again a) = true := by
            simp only [Bool.and_eq_true, decide_eq_true_eq] at h1 ⊢
            exact ⟨by omega, h1.2⟩
          rw [List.filter_cons_of_pos (p := fun k => decide (pos' ≤ k) && !P.again k) h1,
            List.filter_cons_of_pos (p := fun k => decide (pos ≤ k) && !P.again k) h2]
          simp only [List.length_cons]
          omega
        · rw [List.filter_cons_of_neg (p := fun k => decide (pos' ≤ k) && !P.again k) h1]
          by_cases h2 : (decide (pos ≤ a) && !P.again a) = true
          · rw [List.filter_cons_of_pos (p := fun k => decide (pos ≤ k) && !P.again k) h2]
            simp only [List.length_cons]
            omega
          · rw [List.filter_cons_of_neg (p := fun k => decide (pos ≤ k) && !P.again k) h2]
            exact this
  exact key _ (List.mem_range.2 (by omega))

theorem stops_mono {pos pos' : ℕ} (h : pos ≤ pos') : P.stops pos' ≤ P.stops pos := by
  refine List.Sublist.length_le (List.monotone_filter_right _ fun k hk => ?_)
  simp only [Bool.and_eq_true, decide_eq_true_eq] at hk ⊢
  exact ⟨by omega, hk.2⟩

theorem stops_end : P.stops (P.K + 1) = 0 := by
  unfold stops
  rw [List.length_eq_zero_iff, List.filter_eq_nil_iff]
  intro a ha
  rw [List.mem_range] at ha
  simp only [Bool.and_eq_true, decide_eq_true_eq]
  omega

theorem step_proceed_gone {h : P.Hist} (hg : h.st.round = .gone) :
    (P.machine.step h .proceed).st.round = .gone := by
  unfold StateMachine.step
  split
  · exact hg
  · simp only [machine, P.proceedRound_gone hg, StateMachine.record, hg]

/-- Enough calls of `proceed` with all messages in lead to the end. -/
theorem proceeds_end {me n : ℕ} {r0 : P.St 0} {L : P.Log}
    (hf : ∀ j, 1 ≤ j → j ≤ P.K → P.Full n L j) (c : ℕ) {h : P.Hist} {pos : ℕ}
    (hi : P.Inv me n r0 h L pos) (hc : ∀ k r', h.st.round = .at k r' → P.stops pos ≤ c) :
    ∃ pos', P.Inv me n r0 ((List.replicate (c + 1) Op.proceed).foldl P.machine.step h) L pos' ∧
      ∀ k r', ((List.replicate (c + 1) Op.proceed).foldl P.machine.step h).panicked = false →
        ((List.replicate (c + 1) Op.proceed).foldl P.machine.step h).st.round = .at k r' →
        k = P.K + 1 := by
  induction c generalizing h pos with
  | zero =>
    rw [show List.replicate (0 + 1) (Op.proceed : Op P.Body) = [.proceed] from rfl, List.foldl_cons,
      List.foldl_nil]
    by_cases hp : h.panicked = true
    · have : P.machine.step h .proceed = h := by unfold StateMachine.step; rw [if_pos hp]
      rw [this]
      exact ⟨pos, hi, fun k r' h' => by rw [hp] at h'; cases h'⟩
    · rw [Bool.not_eq_true] at hp
      obtain ⟨pos', hi', hend⟩ := P.step_proceed_running hi hp hf
      refine ⟨pos', hi', fun k r' _ hk => ?_⟩
      cases hr : h.st.round with
      | gone => rw [P.step_proceed_gone hr] at hk; cases hk
      | «at» k0 rr =>
        have h0 := hc k0 rr hr
        obtain ⟨rfl, h3 | ⟨h3, h4⟩⟩ := hend k r' hk
        · exact h3
        · by_contra hne
          have hle := hi'.phase.pos_le
          have := P.stops_lt h3 (by omega) h4
          omega
  | succ c ih =>
    rw [List.replicate_succ, List.foldl_cons]
    by_cases hp : h.panicked = true
    · have e : P.machine.step h .proceed = h := by unfold StateMachine.step; rw [if_pos hp]
      rw [e, P.foldl_panicked _ _ hp]
      exact ⟨pos, hi, fun k r' h' => by rw [hp] at h'; cases h'⟩
    · rw [Bool.not_eq_true] at hp
      obtain ⟨pos', hi', hend⟩ := P.step_proceed_running hi hp hf
      refine ih hi' fun k r' hk => ?_
      cases hr : h.st.round with
      | gone => rw [P.step_proceed_gone hr] at hk; cases hk
      | «at» k0 rr =>
        have h0 := hc k0 rr hr
        obtain ⟨rfl, h3 | ⟨h3, h4⟩⟩ := hend k r' hk
        · rw [h3, P.stops_end]; omega
        · by_cases hK : k = P.K + 1
          · rw [hK, P.stops_end]; omega
          · have hle := hi'.phase.pos_le
            have := P.stops_lt h3 (by omega) h4
            omega

/-- A whole schedule followed by one call of `proceed` more than there are rounds after which `proceed`
returns. -/
theorem schedule_outcome_many {me n : ℕ} (r0 : P.St 0) (h1 : 1 ≤ me) (h2 : me ≤ n) {c : ℕ}
    (hc : P.stops 0 ≤ c)
    {body : (j : ℕ) → ℕ → P.Bd j} {ops : List (Op P.Body)} (hs : P.Schedule me n body ops) :
    Outcome P.machine (P.machine.run (P.init me n r0) (ops ++ List.replicate (c + 1) .proceed))
      (P.script r0 (fun j => (others me n).map (body j)) (P.K + 1)) := by
  have hfold : P.machine.run (P.init me n r0) (ops ++ List.replicate (c + 1) .proceed) =
      (List.replicate (c + 1) Op.proceed).foldl P.machine.step
        (P.machine.run (P.init me n r0) ops) := by
    unfold StateMachine.run; rw [List.foldl_append]
  have hg : ∀ m ∈ (P.machine.run (P.init me n r0) (ops ++ List.replicate (c + 1) .proceed)).accepted,
      P.WellAddressed me n m → m.body.2 = body m.body.1 m.sender := by
    intro m hm ha
    rcases P.foldl_accepted_sub _ _ hm with h | h
    · simp at h
    · refine hs.genuine m ?_ ha
      rcases List.mem_append.1 h with h | h
      · exact h
      · have := (List.mem_replicate.1 h).2; cases this
  obtain ⟨ho, he⟩ := P.no_pick_errors r0 h1 h2 (ops ++ List.replicate (c + 1) .proceed) (by
    intro op hop
    rcases List.mem_append.1 hop with h | h
    · exact hs.noPick op h
    · have := (List.mem_replicate.1 h).2; subst this; trivial)
  obtain ⟨L, pos, hi⟩ := P.run_inv r0 h1 h2 ops
  by_cases hp : (P.machine.run (P.init me n r0) ops).panicked = true
  · have hsame : P.machine.run (P.init me n r0) (ops ++ List.replicate (c + 1) .proceed) =
        P.machine.run (P.init me n r0) ops := by
      rw [hfold, P.foldl_panicked _ _ hp]
    rw [hsame] at hg ho he ⊢
    exact P.outcome_of_inv hi body hg ho he (fun k r' h => by rw [hp] at h; cases h)
  · rw [Bool.not_eq_true] at hp
    obtain ⟨pos', hi', hend⟩ := P.proceeds_end
      (fun j j1 j2 => P.schedule_full h1 h2 hs hp hi j1 j2) c hi
      (fun _ _ _ => (P.stops_mono (Nat.zero_le pos)).trans hc)
    rw [← hfold] at hi' hend
    exact P.outcome_of_inv hi' body hg ho he hend

/-- A `proceed` that is not wanted changes nothing. -/
theorem step_proceed_quiet {h : P.Hist}
    (hq : h.panicked = false → P.machine.wants_to_proceed h.st = false) :
    P.machine.step h .proceed = h := by
  unfold StateMachine.step
  by_cases hp : h.panicked = true
  · rw [if_pos hp]
  · rw [if_neg hp]
    have hq := hq (by simpa using hp)
    have : P.proceedRound true h.st = (h.st, .ok ()) := by
      cases hr : h.st.round with
      | gone => exact P.proceedRound_gone hr
      | «at» k r =>
        rw [P.proceedRound_at hr, if_neg]
        simp only [machine, hr] at hq
        simp [ready, hq]
    simp only [machine, this, StateMachine.record]

/-- Once every message is delivered and no `proceed` is wanted, the outcome is the one of the rounds
executed one after the other. -/
theorem schedule_outcome_quiet {me n : ℕ} (r0 : P.St 0) (h1 : 1 ≤ me) (h2 : me ≤ n)
    {body : (j : ℕ) → ℕ → P.Bd j} {ops : List (Op P.Body)} (hs : P.Schedule me n body ops)
    (hq : (P.machine.run (P.init me n r0) ops).panicked = false →
      P.machine.wants_to_proceed (P.machine.run (P.init me n r0) ops).st = false) :
    Outcome P.machine (P.machine.run (P.init me n r0) ops)
      (P.script r0 (fun j => (others me n).map (body j)) (P.K + 1)) := by
  have key : ∀ c, P.machine.run (P.init me n r0) (ops ++ List.replicate c .proceed) =
      P.machine.run (P.init me n r0) ops := by
    intro c
    have e : P.machine.run (P.init me n r0) (ops ++ List.replicate c .proceed) =
        (List.replicate c Op.proceed).foldl P.machine.step (P.machine.run (P.init me n r0) ops) := by
      unfold StateMachine.run; rw [List.foldl_append]
    rw [e]
    induction c with
    | zero => rfl
    | succ c ih =>
      rw [List.replicate_succ, List.foldl_cons, P.step_proceed_quiet hq]
      exact ih (by unfold StateMachine.run; rw [List.foldl_append])
  have := P.schedule_outcome_many r0 h1 h2 (le_refl _) hs
  rw [key] at this
  exact this

/-! ### machines that behave like a round machine -/

/-- `M` behaves exactly like the round machine of `P`. -/
structure Sim {σ β : Type} (M : StateMachine σ β (P.St (P.K + 1)) P.Er) where
  abs : σ → P.State
  tagB : β → P.Body
  tag_inj : Function.Injective tagB
  handle : ∀ s m, P.handle (abs s) (m.mapBody tagB) =
    (abs (M.handle_incoming s m).1, (M.handle_incoming s m).2)
  proceed : ∀ s, P.proceedRound true (abs s) = (abs (M.proceed s).1, (M.proceed s).2)
  queue : ∀ s, (abs s).queue = (M.message_queue s).map (Msg.mapBody tagB)
  clear : ∀ s, abs (M.clear_queue s) = { abs s with queue := [] }
  pick : ∀ s, P.pick (abs s) = (abs (M.pick_output s).1, (M.pick_output s).2)
  wants : ∀ s, M.wants_to_proceed s = P.machine.wants_to_proceed (abs s)
  finished : ∀ s, M.is_finished s = P.machine.is_finished (abs s)
  current : ∀ s, M.current_round s = P.currentRound (abs s)
  blame : ∀ s, M.round_blame s = P.blame (abs s)

namespace Sim

variable {P} {σ β : Type} {M : StateMachine σ β (P.St (P.K + 1)) P.Er} (S : P.Sim M)

def op : Op β → Op P.Body
  | .deliver m => .deliver (m.mapBody S.tagB)
  | .proceed => .proceed
  | .drain => .drain
  | .pick => .pick

def hist (h : History σ β (P.St (P.K + 1)) P.Er) : P.Hist :=
  ⟨S.abs h.st, h.drained.map (Msg.mapBody S.tagB), h.accepted.map (Msg.mapBody S.tagB), h.errors,
    h.outputs, h.panicked⟩

theorem mapBody_inj {m m' : Msg β} (h : m.mapBody S.tagB = m'.mapBody S.tagB) : m = m' := by
  obtain ⟨a, b, c⟩ := m
  obtain ⟨a', b', c'⟩ := m'
  simp only [Msg.mapBody, Msg.mk.injEq] at h
  obtain ⟨h1, h2, h3⟩ := h
  rw [h1, h2, S.tag_inj h3]

theorem step (h : History σ β (P.St (P.K + 1)) P.Er) (o : Op β) :
    P.machine.step (S.hist h) (S.op o) = S.hist (M.step h o) := by
  unfold StateMachine.step
  by_cases hp : h.panicked = true
  · have hp' : (S.hist h).panicked = true := hp
    rw [if_pos hp, if_pos hp']
  · have hp' : ¬ (S.hist h).panicked = true := hp
    rw [if_neg hp, if_neg hp']
    cases o with
    | deliver m =>
      have := S.handle h.st m
      simp only [op, machine, hist, this, StateMachine.record]
      cases (M.handle_incoming h.st m).2 with
      | ok a => simp [StateMachine.takes]
      | err e =>
        simp only [StateMachine.takes]
        by_cases he : e.refuses = true <;> simp [he]
      | panic => simp [StateMachine.takes]
    | proceed =>
      have := S.proceed h.st
      simp only [op, machine, hist, this, StateMachine.record]
      cases (M.proceed h.st).2 <;> rfl
    | drain =>
      simp only [op, machine, hist, S.queue, S.clear, List.map_append]
    | pick =>
      have := S.pick h.st
      simp only [op, machine, hist, this]
      cases (M.pick_output h.st).2 with
      | none => rfl
      | some r => cases r <;> rfl

theorem run (s : σ) (ops : List (Op β)) :
    P.machine.run (S.abs s) (ops.map S.op) = S.hist (M.run s ops) := by
  unfold StateMachine.run
  have key : ∀ h, (ops.map S.op).foldl P.machine.step (S.hist h) = S.hist (ops.foldl M.step h) := by
    induction ops with
    | nil => intro h; rfl
    | cons o ops ih =>
      intro h
      rw [List.map_cons, List.foldl_cons, List.foldl_cons, S.step]
      exact ih _
  exact key ⟨s, [], [], [], [], false⟩

theorem sent (h : History σ β (P.St (P.K + 1)) P.Er) :
    P.machine.sent (S.hist h) = (M.sent h).map (Msg.mapBody S.tagB) := by
  simp only [StateMachine.sent, machine, hist, S.queue, List.map_append]

theorem outcome {h : History σ β (P.St (P.K + 1)) P.Er} {x : List (Msg β) × Res P.Er (P.St (P.K + 1))}
    (ho : Outcome P.machine (S.hist h) (x.1.map (Msg.mapBody S.tagB), x.2)) : Outcome M h x := by
  obtain ⟨a1, a2, a3, a4⟩ := ho
  rw [S.sent] at a1
  have hpick : (P.machine.pick_output (S.hist h).st).2 = (M.pick_output h.st).2 := by
    have := S.pick h.st
    simp only [machine, hist, this]
  refine ⟨?_, a2, fun hp => ?_, ?_⟩
  · exact (List.map_injective_iff.2 (fun _ _ h => S.mapBody_inj h)) a1
  · rw [S.wants]; exact a3 hp
  · cases hx : x.2 with
    | ok o =>
      rw [hx] at a4
      simp only at a4
      obtain ⟨b1, b2, b3, b4⟩ := a4
      exact ⟨b1, b2, by rw [S.finished]; exact b3, by rw [← hpick]; exact b4⟩
    | err e =>
      rw [hx] at a4
      simp only at a4
      obtain ⟨b1, b2, b3, b4⟩ := a4
      exact ⟨b1, b2, by rw [S.finished]; exact b3, by rw [← hpick]; exact b4⟩
    | panic =>
      rw [hx] at a4
      exact a4

end Sim

end Verif.Proto
