import Verif.Lemmas.Network
import Verif.Spec.Driver

/-! # Runs of `AsyncProtocol` as histories of calls -/

namespace Verif.Async

variable {P : Proto} {σ β : Type} {M : StateMachine σ β (P.St (P.K + 1)) P.Er}
  {critical : SMError P.Er → Bool} {s : σ} {me n : ℕ} {r0 : P.St 0}

/-- The calls are deliveries of exactly the messages `acc`, and nothing was picked. -/
def Clean (ops : List (Op β)) (acc : List (Msg β)) : Prop :=
  .pick ∉ ops ∧ ∀ m, .deliver m ∈ ops ↔ m ∈ acc

theorem Clean.idle {ops t : List (Op β)} {acc : List (Msg β)} (h : Clean ops acc)
    (ht : ∀ o ∈ t, o = .proceed ∨ o = .drain) : Clean (ops ++ t) acc := by
  refine ⟨?_, fun m => ?_⟩
  · simp only [List.mem_append, not_or]
    refine ⟨h.1, fun hc => ?_⟩
    rcases ht _ hc with h | h <;> cases h
  · rw [List.mem_append, h.2]
    refine ⟨fun hc => ?_, .inl⟩
    rcases hc with hc | hc
    · exact hc
    · rcases ht _ hc with h | h <;> cases h

theorem Clean.deliver {ops : List (Op β)} {acc : List (Msg β)} (h : Clean ops acc) (m : Msg β) :
    Clean (ops ++ [.deliver m]) (acc ++ [m]) := by
  refine ⟨by simp [h.1], fun m' => ?_⟩
  simp only [List.mem_append, h.2, List.mem_singleton, Op.deliver.injEq]

variable (M s) in
/-- The run has not returned; `ops` are the calls it made and `acc` the messages accepted. -/
structure Mid (r : Run σ β (P.St (P.K + 1)) P.Er) (ops : List (Op β)) (acc : List (Msg β)) : Prop where
  none : r.result = none
  run : M.run s ops = ⟨r.st, r.sent, acc, [], [], false⟩
  clean : Clean ops acc

variable (M s) in
/-- The run waits for the next message. -/
structure Waiting (r : Run σ β (P.St (P.K + 1)) P.Er) (ops : List (Op β)) (acc : List (Msg β)) : Prop
    extends Mid M s r ops acc where
  queue : M.message_queue r.st = []
  unfinished : M.is_finished r.st = false

variable (M s) in
/-- The run has returned. -/
inductive Ended (r : Run σ β (P.St (P.K + 1)) P.Er) (ops : List (Op β)) (acc : List (Msg β)) : Prop
  | ok (o : P.St (P.K + 1)) (hr : r.result = some (.ok o)) (st : σ)
      (run : M.run s ops = ⟨st, r.sent, acc, [], [], false⟩) (queue : M.message_queue st = [])
      (finished : M.is_finished st = true) (pick : (M.pick_output st).2 = some (.ok o))
  | err (e : SMError P.Er)
      (hr : r.result = some (.err (.HandleIncoming e)) ∨ r.result = some (.err (.Proceed e)))
      (errors : (M.run s ops).errors = [e]) (np : (M.run s ops).panicked = false)
  | panic (hr : r.result = some .panic ∨ r.result = some (.err .ProceedPanicked))
      (panicked : (M.run s ops).panicked = true)

theorem run_snoc (ops : List (Op β)) (o : Op β) : M.run s (ops ++ [o]) = M.step (M.run s ops) o := by
  unfold StateMachine.run; rw [List.foldl_append]; rfl

theorem step_panicked {h : History σ β (P.St (P.K + 1)) P.Er} (hp : h.panicked = true) (o : Op β) :
    M.step h o = h := by
  unfold StateMachine.step
  rw [if_pos hp]

theorem andThen_none {r : Run σ β (P.St (P.K + 1)) P.Er} (h : r.result = none)
    (f : Run σ β (P.St (P.K + 1)) P.Er → Run σ β (P.St (P.K + 1)) P.Er) : r.andThen f = f r := by
  unfold Run.andThen; rw [h]; rfl

theorem andThen_some {r : Run σ β (P.St (P.K + 1)) P.Er} {x} (h : r.result = some x)
    (f : Run σ β (P.St (P.K + 1)) P.Er → Run σ β (P.St (P.K + 1)) P.Er) : r.andThen f = r := by
  unfold Run.andThen; rw [h]; rfl

section
variable (S : P.Sim M)
include S

theorem queue_clear (x : σ) : M.message_queue (M.clear_queue x) = [] := by
  have h := S.queue (M.clear_queue x)
  rw [S.clear] at h
  exact List.map_eq_nil_iff.1 h.symm

theorem wants_clear (x : σ) : M.wants_to_proceed (M.clear_queue x) = M.wants_to_proceed x := by
  rw [S.wants, S.wants, S.clear]
  rfl

theorem finished_clear (x : σ) : M.is_finished (M.clear_queue x) = M.is_finished x := by
  rw [S.finished, S.finished, S.clear]
  rfl

theorem current_clear (x : σ) : M.current_round (M.clear_queue x) = M.current_round x := by
  rw [S.current, S.current, S.clear]
  rfl

/-- A finished machine has an output. -/
theorem pick_finished {x : σ} (h : M.is_finished x = true) :
    ∃ o, (M.pick_output x).2 = some (.ok o) := by
  rw [S.finished] at h
  have hp := congrArg Prod.snd (S.pick x)
  simp only at hp
  rw [← hp]
  unfold Proto.pick
  simp only [Proto.machine] at h
  cases hr : (S.abs x).round with
  | gone => rw [hr] at h; cases h
  | «at» k r =>
    rw [hr] at h
    simp only [decide_eq_true_eq] at h
    subst h
    exact ⟨r, by simp⟩

theorem proceed_err {x : σ} {e : SMError P.Er} (h : (M.proceed x).2 = .err e) :
    e.refuses = false := by
  have hp := congrArg Prod.snd (S.proceed x)
  simp only at hp
  rw [← hp] at h
  exact P.proceedRound_not_refuses h

omit S in
theorem Mid.drain {r : Run σ β (P.St (P.K + 1)) P.Er} {ops : List (Op β)} {acc : List (Msg β)}
    (h : Mid M s r ops acc) : Mid M s (sendOutgoing M r) (ops ++ [.drain]) acc := by
  refine ⟨h.none, ?_, h.clean.idle (by simp)⟩
  rw [run_snoc, h.run]
  rfl

theorem finish_spec {r : Run σ β (P.St (P.K + 1)) P.Er} {ops : List (Op β)} {acc : List (Msg β)}
    (h : Mid M s r ops acc) (hq : M.message_queue r.st = []) :
    Waiting M s (finishIfPossible M r) ops acc ∧ finishIfPossible M r = r ∨
      M.is_finished r.st = true ∧ Ended M s (finishIfPossible M r) ops acc := by
  unfold finishIfPossible
  by_cases hf : M.is_finished r.st = true
  · obtain ⟨o, ho⟩ := pick_finished S hf
    rw [if_pos hf]
    simp only [ho]
    exact .inr ⟨hf, .ok o rfl r.st h.run hq hf ho⟩
  · rw [if_neg hf]
    exact .inl ⟨⟨h, hq, by simpa using hf⟩, rfl⟩

/-- The calls of `advance`. -/
def tail (M : StateMachine σ β (P.St (P.K + 1)) P.Er) (x : σ) : List (Op β) :=
  if M.wants_to_proceed x then [.proceed, .drain] else [.drain]

omit S in
theorem tail_idle (x : σ) : ∀ o ∈ tail M x, o = .proceed ∨ o = .drain := by
  unfold tail
  split <;> simp

theorem advance_spec (hc : ∀ e : SMError P.Er, e.refuses = false → critical e = true)
    {r : Run σ β (P.St (P.K + 1)) P.Er} {ops : List (Op β)} {acc : List (Msg β)}
    (h : Mid M s r ops acc) :
    Waiting M s (advance M critical r) (ops ++ tail M r.st) acc ∨
      ∃ t, Clean (ops ++ t) acc ∧ Ended M s (advance M critical r) (ops ++ t) acc := by
  have rest : ∀ (r' : Run σ β (P.St (P.K + 1)) P.Er) (ops' : List (Op β)), Mid M s r' ops' acc →
      Waiting M s ((r'.andThen (sendOutgoing M)).andThen (finishIfPossible M)) (ops' ++ [.drain]) acc ∨
      Clean (ops' ++ [.drain]) acc ∧
        Ended M s ((r'.andThen (sendOutgoing M)).andThen (finishIfPossible M)) (ops' ++ [.drain]) acc := by
    intro r' ops' h'
    rw [andThen_none h'.none]
    have hd := h'.drain
    rw [andThen_none hd.none]
    rcases finish_spec S hd (queue_clear S _) with h | h
    · exact .inl h.1
    · exact .inr ⟨hd.clean, h.2⟩
  unfold advance tail proceedIfNeeded
  by_cases hw : M.wants_to_proceed r.st = true
  · rw [if_pos hw, if_pos hw]
    have hcl : Clean (ops ++ [.proceed]) acc := h.clean.idle (by simp)
    cases hp : (M.proceed r.st).2 with
    | ok x =>
      simp only [hp]
      have hm : Mid M s { r with st := (M.proceed r.st).1 } (ops ++ [.proceed]) acc := by
        refine ⟨h.none, ?_, hcl⟩
        rw [run_snoc, h.run]
        simp only [StateMachine.step, StateMachine.record, hp, Bool.false_eq_true, if_false]
      rcases rest _ _ hm with h | h
      · rw [List.append_assoc] at h
        exact .inl h
      · rw [List.append_assoc] at h
        exact .inr ⟨_, h⟩
    | err e =>
      have he := proceed_err S hp
      simp only [hp, hc e he, if_true]
      rw [andThen_some rfl, andThen_some rfl]
      refine .inr ⟨[.proceed], hcl, .err e (.inr rfl) ?_ ?_⟩ <;>
      · rw [run_snoc, h.run]
        simp [StateMachine.step, StateMachine.record, hp, he]
    | panic =>
      simp only [hp]
      rw [andThen_some rfl, andThen_some rfl]
      refine .inr ⟨[.proceed], hcl, .panic (.inr rfl) ?_⟩
      rw [run_snoc, h.run]
      simp [StateMachine.step, StateMachine.record, hp]
  · rw [if_neg hw, if_neg hw]
    rcases rest _ _ h with h | h
    · exact .inl h
    · exact .inr ⟨_, h⟩

/-- A message that is taken. -/
theorem receive_taken (hc : ∀ e : SMError P.Er, e.refuses = false → critical e = true)
    {r : Run σ β (P.St (P.K + 1)) P.Er} {ops : List (Op β)} {acc : List (Msg β)}
    (h : Waiting M s r ops acc) {m : Msg β}
    (hm : ∀ e, (M.handle_incoming r.st m).2 = .err e → e.refuses = false) :
    Waiting M s (receive M critical r m) (ops ++ [.deliver m] ++ [.drain] ++
        tail M (M.run s (ops ++ [.deliver m])).st) (acc ++ [m]) ∨
      ∃ t, Clean (ops ++ [.deliver m] ++ t) (acc ++ [m]) ∧
        Ended M s (receive M critical r m) (ops ++ [.deliver m] ++ t) (acc ++ [m]) := by
  have hcl := h.clean.deliver m
  unfold receive
  rw [andThen_none h.none]
  unfold handleIncoming
  cases hp : (M.handle_incoming r.st m).2 with
  | ok x =>
    simp only [hp]
    have hrun : M.run s (ops ++ [.deliver m]) =
        ⟨(M.handle_incoming r.st m).1, r.sent, acc ++ [m], [], [], false⟩ := by
      rw [run_snoc, h.run]
      simp [StateMachine.step, StateMachine.record, StateMachine.takes, hp]
    have hmid : Mid M s { r with st := (M.handle_incoming r.st m).1 } (ops ++ [.deliver m])
        (acc ++ [m]) := ⟨h.none, hrun, hcl⟩
    rw [andThen_none hmid.none]
    have hd := hmid.drain
    rw [andThen_none hd.none]
    have ht : tail M (sendOutgoing M { r with st := (M.handle_incoming r.st m).1 }).st =
        tail M (M.run s (ops ++ [.deliver m])).st := by
      rw [hrun]
      unfold tail
      rw [show (sendOutgoing M { r with st := (M.handle_incoming r.st m).1 }).st =
        M.clear_queue (M.handle_incoming r.st m).1 from rfl, wants_clear S]
    rcases advance_spec S hc hd with h | ⟨t, h⟩
    · rw [ht] at h
      exact .inl h
    · refine .inr ⟨[.drain] ++ t, ?_⟩
      rw [← List.append_assoc]
      exact h
  | err e =>
    have he := hm e hp
    simp only [hp, hc e he, if_true]
    rw [andThen_some rfl, andThen_some rfl]
    refine .inr ⟨[], ?_, .err e (.inl rfl) ?_ ?_⟩
    · rw [List.append_nil]; exact hcl
    all_goals
    · rw [List.append_nil, run_snoc, h.run]
      simp [StateMachine.step, StateMachine.record, StateMachine.takes, hp, he]
  | panic =>
    simp only [hp]
    rw [andThen_some rfl, andThen_some rfl]
    refine .inr ⟨[], ?_, .panic (.inl rfl) ?_⟩
    · rw [List.append_nil]; exact hcl
    · rw [List.append_nil, run_snoc, h.run]
      simp [StateMachine.step, StateMachine.record, StateMachine.takes, hp]

omit S in
/-- A message that is refused, if refusals are critical: the run returns the error. -/
theorem receive_refused_critical {r : Run σ β (P.St (P.K + 1)) P.Er} (hn : r.result = none)
    {m : Msg β} {e : SMError P.Er} (hm : (M.handle_incoming r.st m).2 = .err e)
    (hc : critical e = true) :
    (receive M critical r m).result = some (.err (.HandleIncoming e)) := by
  unfold receive
  rw [andThen_none hn]
  unfold handleIncoming
  simp only [hm, hc, if_true]
  rw [andThen_some rfl, andThen_some rfl]

omit S in
/-- A message that is refused, if refusals are not critical: an empty pass of the loop. -/
theorem receive_refused {r : Run σ β (P.St (P.K + 1)) P.Er} {ops : List (Op β)} {acc : List (Msg β)}
    (h : Waiting M s r ops acc) {m : Msg β} {e : SMError P.Er}
    (hm : M.handle_incoming r.st m = (r.st, .err e)) (hc : critical e = false)
    (hcl : M.clear_queue r.st = r.st) :
    receive M critical r m = advance M critical r := by
  unfold receive
  rw [andThen_none h.none]
  unfold handleIncoming
  simp only [hm, hc, Bool.false_eq_true, if_false]
  rw [andThen_none rfl, andThen_none rfl]
  unfold sendOutgoing
  simp only [hcl, h.queue, List.append_nil]
  rw [← h.none]

omit S in
/-- An empty pass when the machine does not want to proceed. -/
theorem advance_quiet {r : Run σ β (P.St (P.K + 1)) P.Er} {ops : List (Op β)} {acc : List (Msg β)}
    (h : Waiting M s r ops acc) (hw : M.wants_to_proceed r.st = false)
    (hcl : M.clear_queue r.st = r.st) : advance M critical r = r := by
  unfold advance proceedIfNeeded
  rw [if_neg (by simp [hw]), andThen_none h.none]
  have : sendOutgoing M r = r := by
    unfold sendOutgoing
    rw [hcl, h.queue, List.append_nil]
  rw [this, andThen_none h.none]
  unfold finishIfPossible
  rw [if_neg (by simp [h.unfinished])]

theorem start_spec (hc : ∀ e : SMError P.Er, e.refuses = false → critical e = true)
    (hs : S.abs s = P.init me n r0) :
    Waiting M s (start M critical s) (tail M s) [] ∨
      ∃ t, Clean t [] ∧ Ended M s (start M critical s) t [] := by
  have hm : Mid M s (⟨s, [], none⟩ : Run σ β (P.St (P.K + 1)) P.Er) [] [] :=
    ⟨rfl, rfl, by simp, by simp⟩
  have hf : M.is_finished s = false := by
    rw [S.finished, hs]
    simp [Proto.machine, Proto.init]
  unfold start
  have : finishIfPossible M (⟨s, [], none⟩ : Run σ β (P.St (P.K + 1)) P.Er) = ⟨s, [], none⟩ := by
    unfold finishIfPossible
    rw [if_neg (by simp [hf])]
  rw [this, andThen_none rfl]
  exact advance_spec S hc hm


/-! ### when a machine wants to proceed -/

/-- Every peer's message of round `j` is among `acc`. -/
def Has (S : P.Sim M) (me n : ℕ) (acc : List (Msg β)) (j : ℕ) : Prop :=
  ∀ p, 1 ≤ p → p ≤ n → p ≠ me → ∃ m ∈ acc, S.rd m = j ∧ m.sender = p

theorem full_iff {L : P.Log} {acc : List (Msg β)} (h1 : 1 ≤ me) (h2 : me ≤ n)
    (hl : P.LogInv me n (acc.map (Msg.mapBody S.tagB)) L) {j : ℕ} (j1 : 1 ≤ j) (j2 : j ≤ P.K) :
    P.Full n L j ↔ Has S me n acc j := by
  constructor
  · intro h p p1 p2 p3
    have hslot := (Store.slot_lt h1 h2 p1 p3).2 p2
    obtain ⟨b, hb⟩ := Option.isSome_iff_exists.1 (h _ hslot)
    have := (hl _).2 ⟨j, _, b, j1, j2, hslot, hb, rfl⟩
    obtain ⟨m, hm, e⟩ := List.mem_map.1 this
    refine ⟨m, hm, ?_, ?_⟩
    · exact congrArg (fun x : Msg P.Body => x.body.1) e
    · have e2 := congrArg (fun x : Msg P.Body => x.sender) e
      simp only [Msg.mapBody] at e2
      rw [e2]
      exact Store.owner_slot h1 p1 p3
  · intro h i hi
    obtain ⟨m, hm, e1, e2⟩ := h (Store.owner me i) Store.owner_pos (Store.owner_le hi) Store.owner_ne
    obtain ⟨j', i', b, c1, c2, c3, c4, c5⟩ := (hl _).1 (List.mem_map.2 ⟨m, hm, rfl⟩)
    have e3 := congrArg (fun x : Msg P.Body => x.body.1) c5
    have e4 := congrArg (fun x : Msg P.Body => x.sender) c5
    have e3 : j' = j := by
      rw [← e1]; exact e3.symm
    have e4 : Store.owner me i' = Store.owner me i := by
      rw [← e2]; exact e4.symm
    have e5 := Store.owner_inj e4
    subst e3 e5
    rw [c4]; rfl

/-- Where a run that has not returned stands. -/
theorem Mid.pos (hs : S.abs s = P.init me n r0) (h1 : 1 ≤ me) (h2 : me ≤ n)
    {r : Run σ β (P.St (P.K + 1)) P.Er} {ops : List (Op β)} {acc : List (Msg β)}
    (h : Mid M s r ops acc) :
    M.current_round r.st ≤ P.K + 1 ∧
    (M.is_finished r.st = true ↔ M.current_round r.st = P.K + 1) ∧
    (M.wants_to_proceed r.st = true ↔
      M.current_round r.st ≤ P.K ∧
        (1 ≤ M.current_round r.st → Has S me n acc (M.current_round r.st))) ∧
    ∀ j, 1 ≤ j → j < M.current_round r.st → Has S me n acc j := by
  obtain ⟨L, pos, hi⟩ := S.inv hs h1 h2 ops
  rw [h.run] at hi
  have hlog : P.LogInv me n (acc.map (Msg.mapBody S.tagB)) L := hi.log
  have hle := hi.phase.pos_le
  cases hi.phase with
  | running x hp hr hle' hc he ho =>
    have hr : (S.abs r.st).round = .at pos x := hr
    have hcur : M.current_round r.st = pos := by
      rw [S.current]; unfold Proto.currentRound; rw [hr]
    rw [hcur]
    refine ⟨hle, ?_, ?_, ?_⟩
    · rw [S.finished]
      simp only [Proto.machine, hr, decide_eq_true_eq]
    · have hready := P.ready_iff (mb := true) (show P.StoresInv me n (S.abs r.st).stores L pos from hi.stores)
      rw [S.wants]
      simp only [Proto.machine, hr]
      unfold Proto.ready at hready
      simp only [Bool.or_true, Bool.and_true, implies_true, and_true] at hready
      rw [hready]
      refine and_congr_right fun hk => ?_
      refine imp_congr_right fun hp1 => ?_
      exact full_iff S h1 h2 hlog hp1 hk
    · intro j j1 j2
      exact (full_iff S h1 h2 hlog j1 (by omega)).1 (hi.stores.gone j j1 j2).2
  | failed k rk e m hp hr hpos hk hc hc' he ho =>
    have he : ([] : List (SMError P.Er)) = _ := he
    cases he
  | panicked k rk hp hpos hk hc hc' he ho =>
    have hp : false = true := hp
    cases hp
  | picked o m hp hr hpos hc he ho =>
    have ho : ([] : List (P.St (P.K + 1))) = _ := ho
    cases ho

/-- The messages of each sender are taken in the order of their rounds. -/
def Closed (S : P.Sim M) (acc : List (Msg β)) : Prop :=
  ∀ m ∈ acc, ∀ j, 1 ≤ j → j < S.rd m → ∃ m' ∈ acc, S.rd m' = j ∧ m'.sender = m.sender

theorem current_proceed {x : σ} (hw : M.wants_to_proceed x = true) :
    M.current_round x < M.current_round (M.proceed x).1 := by
  have e := congrArg Prod.fst (S.proceed x)
  simp only at e
  rw [S.current, S.current, ← e]
  refine P.currentRound_progress _ ?_
  rw [← S.wants]; exact hw

theorem current_handle {x : σ} (m : Msg β) (hx : M.current_round x ≤ P.K + 1) :
    M.current_round x ≤ M.current_round (M.handle_incoming x m).1 := by
  have e := congrArg Prod.fst (S.handle x m)
  simp only at e
  rw [S.current, S.current, ← e]
  refine P.currentRound_handle _ _ ?_
  rw [← S.current]; exact hx

omit S in
theorem record_st (h : History σ β (P.St (P.K + 1)) P.Er) (x) : (StateMachine.record h x).st = x.1 := by
  unfold StateMachine.record
  cases x.2 <;> rfl

/-- If each sender's messages arrive in the order of their rounds, one call of `proceed` per message is
enough. -/
theorem quiet_of_closed (hs : S.abs s = P.init me n r0) (h1 : 1 ≤ me) (h2 : me ≤ n)
    {r r' : Run σ β (P.St (P.K + 1)) P.Er} {ops : List (Op β)} {acc : List (Msg β)} {m : Msg β}
    (h : Waiting M s r ops acc) (hq : M.wants_to_proceed r.st = false)
    (h' : Waiting M s r' (ops ++ [.deliver m] ++ [.drain] ++
        tail M (M.run s (ops ++ [.deliver m])).st) (acc ++ [m]))
    (hcl : Closed S acc) (hcl' : Closed S (acc ++ [m])) : M.wants_to_proceed r'.st = false := by
  obtain ⟨a1, a2, a3, a4⟩ := h.toMid.pos S hs h1 h2
  obtain ⟨b1, b2, b3, b4⟩ := h'.toMid.pos S hs h1 h2
  have hk : M.current_round r.st ≤ P.K := by
    have := h.unfinished
    by_contra hc
    rw [a2.2 (by omega)] at this
    cases this
  -- some peer's message of the current round is missing
  have hmiss : 1 ≤ M.current_round r.st ∧ ¬ Has S me n acc (M.current_round r.st) := by
    have : ¬ (M.current_round r.st ≤ P.K ∧
        (1 ≤ M.current_round r.st → Has S me n acc (M.current_round r.st))) := by
      rw [← a3, hq]; simp
    by_contra hc
    refine this ⟨hk, fun hp => ?_⟩
    by_contra hn
    exact hc ⟨hp, hn⟩
  obtain ⟨hpos, hmiss⟩ := hmiss
  unfold Has at hmiss
  push Not at hmiss
  obtain ⟨p, p1, p2, p3, hmiss⟩ := hmiss
  -- so its messages belong to rounds up to the current one
  have hall : ∀ x ∈ acc ++ [m], x.sender = p → S.rd x ≤ M.current_round r.st := by
    intro x hx hxp
    rcases List.mem_append.1 hx with hx | hx
    · by_contra hc
      obtain ⟨y, hy, e1, e2⟩ := hcl x hx _ hpos (by omega)
      exact hmiss y hy e1 (e2.trans hxp)
    · by_contra hc
      obtain ⟨y, hy, e1, e2⟩ := hcl' x (by simpa using .inr (List.mem_singleton.1 hx)) _ hpos (by omega)
      rcases List.mem_append.1 hy with hy | hy
      · exact hmiss y hy e1 (e2.trans hxp)
      · rw [List.mem_singleton.1 hy] at e1
        rw [List.mem_singleton.1 hx] at hc
        omega
  have hrun1 : M.run s (ops ++ [.deliver m] ++ [.drain]) =
      M.step (M.step ⟨r.st, r.sent, acc, [], [], false⟩ (.deliver m)) .drain := by
    rw [run_snoc, run_snoc, h.run]
  generalize hx : M.run s (ops ++ [.deliver m]) = x at h'
  have hx0 : x = M.step ⟨r.st, r.sent, acc, [], [], false⟩ (.deliver m) := by
    rw [← hx, run_snoc, h.run]
  have hxst : x.st = (M.handle_incoming r.st m).1 := by
    rw [hx0]
    simp only [StateMachine.step, Bool.false_eq_true, if_false]
    split
    · simp only [record_st]
    · rw [record_st]
  have hxp : x.panicked = false := by
    -- otherwise the later history has panicked
    by_contra hc
    have hc : x.panicked = true := by simpa using hc
    have hstay : ∀ l : List (Op β), (l.foldl M.step x).panicked = true := by
      intro l
      induction l using List.reverseRecOn with
      | nil => exact hc
      | append_singleton l o ih =>
        rw [List.foldl_append]
        simp only [List.foldl_cons, List.foldl_nil]
        rw [step_panicked ih]
        exact ih
    have := h'.run
    unfold StateMachine.run at this
    rw [List.append_assoc, List.foldl_append] at this
    have e : List.foldl M.step ⟨s, [], [], [], [], false⟩ (ops ++ [.deliver m]) = x := hx
    rw [e] at this
    have h3 := hstay ([.drain] ++ tail M x.st)
    rw [this] at h3
    cases h3
  have hge : M.current_round r.st ≤ M.current_round x.st := by
    rw [hxst]; exact current_handle S m a1
  by_contra hc
  have hc : M.wants_to_proceed r'.st = true := by simpa using hc
  obtain ⟨c1, c2⟩ := b3.1 hc
  -- the run made a round and more
  have hend : r'.st = if M.wants_to_proceed x.st then
      M.clear_queue (M.proceed (M.clear_queue x.st)).1 else M.clear_queue (M.clear_queue x.st) := by
    have e := congrArg History.st h'.run
    simp only at e
    rw [← e]
    unfold StateMachine.run
    rw [List.append_assoc, List.foldl_append]
    have e2 : List.foldl M.step ⟨s, [], [], [], [], false⟩ (ops ++ [.deliver m]) = x := hx
    rw [e2]
    have e' := h'.run
    unfold StateMachine.run at e'
    rw [List.append_assoc, List.foldl_append, e2] at e'
    unfold tail at e' ⊢
    by_cases hw : M.wants_to_proceed x.st = true
    · rw [if_pos hw] at e' ⊢
      rw [if_pos hw]
      simp only [List.cons_append, List.nil_append, List.foldl_cons, List.foldl_nil] at e' ⊢
      have s1 : M.step x .drain =
          { x with drained := x.drained ++ M.message_queue x.st, st := M.clear_queue x.st } := by
        unfold StateMachine.step
        rw [if_neg (by simp [hxp])]
      rw [s1] at e' ⊢
      generalize hy : M.step { x with
        drained := x.drained ++ M.message_queue x.st, st := M.clear_queue x.st } .proceed = y at e' ⊢
      have hyst : y.st = (M.proceed (M.clear_queue x.st)).1 := by
        rw [← hy]
        simp only [StateMachine.step, hxp, Bool.false_eq_true, if_false, record_st]
      have hyp : y.panicked = false := by
        by_contra hn
        have hn : y.panicked = true := by simpa using hn
        rw [step_panicked hn] at e'
        rw [e'] at hn
        cases hn
      unfold StateMachine.step
      rw [if_neg (by simp [hyp])]
      simp only [hyst]
    · rw [if_neg hw] at e' ⊢
      rw [if_neg hw]
      simp only [List.cons_append, List.nil_append, List.foldl_cons, List.foldl_nil] at e' ⊢
      simp only [StateMachine.step, hxp, Bool.false_eq_true, if_false]
  by_cases hw : M.wants_to_proceed x.st = true
  · rw [if_pos hw] at hend
    have hlt : M.current_round x.st < M.current_round r'.st := by
      rw [hend, current_clear S]
      have := current_proceed S (x := M.clear_queue x.st) (by rw [wants_clear S]; exact hw)
      rw [current_clear S] at this
      exact this
    obtain ⟨y, hy, e1, e2⟩ := c2 (by omega) p p1 p2 p3
    have := hall y hy e2
    omega
  · rw [if_neg hw] at hend
    rw [hend, wants_clear S, wants_clear S] at hc
    exact hw hc

/-- If a machine always tries the next round, one call of `proceed` is enough. -/
theorem quiet_of_again (ha : ∀ k, P.again k = true) {x : σ} {u : Unit} (h : (M.proceed x).2 = .ok u) :
    M.wants_to_proceed (M.proceed x).1 = false := by
  have key : ∀ d (y : P.State), (match y.round with | .at k _ => P.K + 1 - k | .gone => 0) = d →
      (P.proceedRound true y).2 = .ok u →
      P.machine.wants_to_proceed (P.proceedRound true y).1 = false := by
    intro d
    induction d using Nat.strong_induction_on with
    | _ d ih =>
      intro y hd hok
      cases hr : y.round with
      | gone =>
        rw [P.proceedRound_gone hr]
        simp only [Proto.machine, hr]
      | «at» k r =>
        rw [P.proceedRound_at hr] at hok ⊢
        by_cases hready : P.ready true y k = true
        · rw [if_pos hready] at hok ⊢
          have hk : k ≤ P.K := by
            unfold Proto.ready at hready
            simp only [Bool.and_eq_true, decide_eq_true_eq] at hready
            exact hready.1.1
          cases ht : (P.take { y with round := .gone } k).2 with
          | ok ms =>
            rw [ht] at hok
            simp only at hok ⊢
            cases hf : P.fn k r ms with
            | ok ro =>
              rw [hf] at hok
              simp only [ha k, if_true] at hok ⊢
              refine ih _ ?_ _ rfl hok
              rw [hr] at hd
              simp only at hd ⊢
              omega
            | err e => rw [hf] at hok; cases hok
            | panic => rw [hf] at hok; cases hok
          | err e => rw [ht] at hok; cases hok
          | panic => rw [ht] at hok; cases hok
        · rw [if_neg hready]
          simp only [Proto.machine, hr]
          unfold Proto.ready at hready
          simpa using hready
  have e := S.proceed x
  have e1 := congrArg Prod.fst e
  have e2 := congrArg Prod.snd e
  simp only at e1 e2
  rw [S.wants, ← e1]
  exact key _ _ rfl (by rw [e2]; exact h)

/-! ### a whole run -/

omit S in
theorem finish_none {r : Run σ β (P.St (P.K + 1)) P.Er} (h : (finishIfPossible M r).result = none) :
    finishIfPossible M r = r := by
  unfold finishIfPossible at h ⊢
  by_cases hf : M.is_finished r.st = true
  · rw [if_pos hf] at h
    dsimp only at h
    split at h <;> cases h
  · rw [if_neg hf]

theorem advance_st (hc : ∀ e : SMError P.Er, e.refuses = false → critical e = true)
    {r : Run σ β (P.St (P.K + 1)) P.Er} (hw : M.wants_to_proceed r.st = true)
    (h0 : r.result = none) (h : (advance M critical r).result = none) :
    ∃ u, (M.proceed r.st).2 = .ok u ∧
      (advance M critical r).st = M.clear_queue (M.proceed r.st).1 := by
  unfold advance proceedIfNeeded at h ⊢
  rw [if_pos hw] at h ⊢
  cases hp : (M.proceed r.st).2 with
  | ok u =>
    refine ⟨u, rfl, ?_⟩
    simp only [hp] at h ⊢
    rw [andThen_none (r := ⟨(M.proceed r.st).1, r.sent, r.result⟩) h0] at h ⊢
    rw [andThen_none (r := sendOutgoing M ⟨(M.proceed r.st).1, r.sent, r.result⟩) h0] at h ⊢
    rw [finish_none h]
    rfl
  | err e =>
    simp only [hp, hc e (proceed_err S hp), if_true] at h
    rw [andThen_some rfl, andThen_some rfl] at h
    cases h
  | panic =>
    simp only [hp] at h
    rw [andThen_some rfl, andThen_some rfl] at h
    cases h

theorem advance_again (hc : ∀ e : SMError P.Er, e.refuses = false → critical e = true)
    (ha : ∀ k, P.again k = true) {r : Run σ β (P.St (P.K + 1)) P.Er}
    (h0 : r.result = none) (h : (advance M critical r).result = none) :
    M.wants_to_proceed (advance M critical r).st = false := by
  by_cases hw : M.wants_to_proceed r.st = true
  · obtain ⟨u, hu, hst⟩ := advance_st S hc hw h0 h
    rw [hst, wants_clear S]
    exact quiet_of_again S ha hu
  · unfold advance proceedIfNeeded at h ⊢
    rw [if_neg hw] at h ⊢
    rw [andThen_none h0] at h ⊢
    rw [andThen_none (show (sendOutgoing M r).result = none from h0)] at h ⊢
    rw [finish_none h]
    unfold sendOutgoing
    rw [wants_clear S]
    simpa using hw

omit S in
theorem receive_none {r : Run σ β (P.St (P.K + 1)) P.Er} {m : Msg β}
    (h : (receive M critical r m).result = none) :
    ∃ r1 : Run σ β (P.St (P.K + 1)) P.Er, r1.result = none ∧
      receive M critical r m = advance M critical r1 := by
  unfold receive at h ⊢
  generalize (r.andThen fun r => handleIncoming M critical r m) = r2 at h ⊢
  cases h2 : r2.result with
  | some x =>
    rw [andThen_some h2, andThen_some h2, h2] at h
    cases h
  | none =>
    rw [andThen_none h2]
    rw [andThen_none (show (sendOutgoing M r2).result = none from h2)]
    exact ⟨sendOutgoing M r2, h2, rfl⟩

/-- All the messages are ones to be accepted. -/
structure FreshAll (S : P.Sim M) (me n : ℕ) (ms : List (Msg β)) : Prop where
  addressed : ∀ m ∈ ms, 1 ≤ S.rd m ∧ S.rd m ≤ P.K ∧
    Addressed me n (P.p2p (S.rd m)) m.sender m.receiver
  once : ms.Pairwise (fun a b => S.rd a = S.rd b → a.sender ≠ b.sender)

omit S in
theorem FreshAll.init {S : P.Sim M} {ms : List (Msg β)} {m : Msg β} (h : FreshAll S me n (ms ++ [m])) :
    FreshAll S me n ms ∧ S.Fresh me n ms m := by
  obtain ⟨h1, h2⟩ := h
  rw [List.pairwise_append] at h2
  refine ⟨⟨fun x hx => h1 x (by simp [hx]), h2.1⟩, ?_⟩
  obtain ⟨a, b, c⟩ := h1 m (by simp)
  exact ⟨a, b, c, fun m' hm' => h2.2.2 m' hm' m (by simp)⟩

omit S in
theorem FreshAll.append_left {S : P.Sim M} {a b : List (Msg β)} (h : FreshAll S me n (a ++ b)) :
    FreshAll S me n a :=
  ⟨fun m hm => h.addressed m (by simp [hm]), (List.pairwise_append.1 h.once).1⟩

omit S in
theorem receive_some {r : Run σ β (P.St (P.K + 1)) P.Er} {x} (h : r.result = some x) (m : Msg β) :
    receive M critical r m = r := by
  unfold receive
  rw [andThen_some h, andThen_some h, andThen_some h]

omit S in
theorem Ended.some {r : Run σ β (P.St (P.K + 1)) P.Er} {ops : List (Op β)} {acc : List (Msg β)}
    (h : Ended M s r ops acc) : ∃ x, r.result = .some x := by
  cases h with
  | ok o hr => exact ⟨_, hr⟩
  | err e hr => exact hr.elim (fun h => ⟨_, h⟩) (fun h => ⟨_, h⟩)
  | panic hr => exact hr.elim (fun h => ⟨_, h⟩) (fun h => ⟨_, h⟩)

theorem fresh_taken (hs : S.abs s = P.init me n r0) (h1 : 1 ≤ me) (h2 : me ≤ n)
    {r : Run σ β (P.St (P.K + 1)) P.Er} {ops : List (Op β)} {acc : List (Msg β)}
    (h : Mid M s r ops acc) {m : Msg β} (hm : S.Fresh me n acc m) :
    ∀ e, (M.handle_incoming r.st m).2 = .err e → e.refuses = false := by
  have := (S.deliver_fresh hs h1 h2 ops (by rw [h.run]) (m := m) (by rw [h.run]; exact hm)).2
  rw [h.run] at this
  exact this

/-- The machine is quiet whenever the run waits. -/
def Quiet (S : P.Sim M) (n : ℕ) (ms : List (Msg β)) : Prop :=
  (∀ k, P.again k = true) ∨ 2 ≤ n ∧ ∀ pre post, ms = pre ++ post → Closed S pre

omit S in
theorem Quiet.init {S : P.Sim M} {ms ms' : List (Msg β)} (h : Quiet S n (ms ++ ms')) :
    Quiet S n ms := by
  rcases h with h | ⟨h, h'⟩
  · exact .inl h
  · refine .inr ⟨h, fun pre post e => h' pre (post ++ ms') ?_⟩
    rw [e, List.append_assoc]

theorem start_quiet (hc : ∀ e : SMError P.Er, e.refuses = false → critical e = true)
    (hs : S.abs s = P.init me n r0) (h1 : 1 ≤ me) (h2 : me ≤ n) (hn : 2 ≤ n)
    (h : Waiting M s (start M critical s) (tail M s) []) :
    M.wants_to_proceed (start M critical s).st = false := by
  have hf : M.is_finished s = false := by
    rw [S.finished, hs]
    simp [Proto.machine, Proto.init]
  have hst : start M critical s = advance M critical (⟨s, [], none⟩ : Run σ β (P.St (P.K + 1)) P.Er) := by
    unfold start
    have : finishIfPossible M (⟨s, [], none⟩ : Run σ β (P.St (P.K + 1)) P.Er) = ⟨s, [], none⟩ := by
      unfold finishIfPossible
      rw [if_neg (by simp [hf])]
    rw [this, andThen_none rfl]
  have hm : Mid M s (⟨s, [], none⟩ : Run σ β (P.St (P.K + 1)) P.Er) [] [] :=
    ⟨rfl, rfl, by simp, by simp⟩
  have hcur : M.current_round s = 0 := by
    rw [S.current, hs]; rfl
  have hw : M.wants_to_proceed s = true := by
    refine (hm.pos S hs h1 h2).2.2.1.2 ?_
    simp only [hcur]
    exact ⟨by omega, fun h => by omega⟩
  obtain ⟨u, hu, e⟩ := advance_st S hc (r := ⟨s, [], none⟩) hw rfl (hst ▸ h.none)
  have hlt := current_proceed S hw
  obtain ⟨-, -, b3, -⟩ := h.toMid.pos S hs h1 h2
  by_contra hcon
  obtain ⟨-, c⟩ := b3.1 (by simpa using hcon)
  have hge : 1 ≤ M.current_round (start M critical s).st := by
    rw [hst, e, current_clear S]
    exact Nat.one_le_of_lt hlt
  obtain ⟨m, hm, -⟩ := c hge (if me = 1 then 2 else 1) (by split <;> omega) (by split <;> omega)
    (by split <;> omega)
  cases hm

/-- A run that gets messages to be accepted, one after the other. -/
theorem run_spec (hc : ∀ e : SMError P.Er, e.refuses = false → critical e = true)
    (hs : S.abs s = P.init me n r0) (h1 : 1 ≤ me) (h2 : me ≤ n) (ms : List (Msg β))
    (hf : FreshAll S me n ms) (hq : Quiet S n ms) :
    (∃ ops, Waiting M s (run M critical s ms) ops ms ∧
        M.wants_to_proceed (run M critical s ms).st = false) ∨
      ∃ ops pre post, ms = pre ++ post ∧ Clean ops pre ∧ Ended M s (run M critical s ms) ops pre := by
  induction ms using List.reverseRecOn with
  | nil =>
    rcases start_spec S hc hs with h | ⟨t, h⟩
    · refine .inl ⟨_, h, ?_⟩
      rcases hq with hq | hq
      · have hst : start M critical s =
            advance M critical (⟨s, [], none⟩ : Run σ β (P.St (P.K + 1)) P.Er) := by
          unfold start
          have : finishIfPossible M (⟨s, [], none⟩ : Run σ β (P.St (P.K + 1)) P.Er) = ⟨s, [], none⟩ := by
            have hf : M.is_finished s = false := by
              rw [S.finished, hs]
              simp [Proto.machine, Proto.init]
            unfold finishIfPossible
            rw [if_neg (by simp [hf])]
          rw [this, andThen_none rfl]
        have hn := h.none
        change M.wants_to_proceed (start M critical s).st = false
        rw [hst] at hn ⊢
        exact advance_again S hc hq rfl hn
      · exact start_quiet S hc hs h1 h2 hq.1 h
    · exact .inr ⟨t, [], [], rfl, h⟩
  | append_singleton ms m ih =>
    obtain ⟨hf', hfr⟩ := hf.init
    have e : run M critical s (ms ++ [m]) = receive M critical (run M critical s ms) m := by
      unfold run; rw [List.foldl_append]; rfl
    rw [e]
    rcases ih hf' hq.init with ⟨ops, hw, hqt⟩ | ⟨ops, pre, post, he, hcl, hend⟩
    · rcases receive_taken S hc hw (fresh_taken S hs h1 h2 hw.toMid hfr) with h | ⟨t, h⟩
      · refine .inl ⟨_, h, ?_⟩
        rcases hq with hq | hq
        · obtain ⟨r1, a, b⟩ := receive_none h.none
          have hn := h.none
          rw [b] at hn ⊢
          exact advance_again S hc hq a hn
        · exact quiet_of_closed S hs h1 h2 hw hqt h (hq.2 ms [m] rfl)
            (hq.2 (ms ++ [m]) [] (by simp))
      · exact .inr ⟨_, ms ++ [m], [], by simp, h⟩
    · obtain ⟨x, hx⟩ := hend.some
      rw [receive_some hx]
      exact .inr ⟨ops, pre, post ++ [m], by rw [he, List.append_assoc], hcl, hend⟩

/-- A message that is not to be accepted. -/
theorem stray_refused (hk : Proto.Sim.KeepsOnRefusal M) (hs : S.abs s = P.init me n r0) (h1 : 1 ≤ me)
    (h2 : me ≤ n) {r : Run σ β (P.St (P.K + 1)) P.Er} {ops : List (Op β)} {acc : List (Msg β)}
    (h : Mid M s r ops acc) {m : Msg β} (hm : ¬ S.Fresh me n acc m) :
    ∃ e, M.handle_incoming r.st m = (r.st, .err e) ∧ e.refuses = true := by
  have := (S.deliver_refused hk hs h1 h2 ops (m := m) (by rw [h.run]; exact hm)).1
  rw [h.run] at this
  exact this

omit S in
theorem run_snoc' (critical : SMError P.Er → Bool) (ms : List (Msg β)) (m : Msg β) :
    run M critical s (ms ++ [m]) = receive M critical (run M critical s ms) m := by
  unfold run; rw [List.foldl_append]; rfl

/-- If all errors are critical, a run that waits got only messages to be accepted. -/
theorem waits (hc : ∀ e : SMError P.Er, critical e = true) (hk : Proto.Sim.KeepsOnRefusal M)
    (hs : S.abs s = P.init me n r0) (h1 : 1 ≤ me) (h2 : me ≤ n) (ms : List (Msg β))
    (hw : (run M critical s ms).result = none) :
    ∃ ops, Waiting M s (run M critical s ms) ops ms := by
  induction ms using List.reverseRecOn with
  | nil =>
    rcases start_spec S (critical := critical) (fun e _ => hc e) hs with h | ⟨_, -, h⟩
    · exact ⟨_, h⟩
    · obtain ⟨x, hx⟩ := h.some
      exact absurd (hw.symm.trans hx) (by simp)
  | append_singleton ms m ih =>
    have e := run_snoc' (M := M) (s := s) critical ms m
    have hn : (run M critical s ms).result = none := by
      cases hr : (run M critical s ms).result with
      | none => rfl
      | some x =>
        rw [e, receive_some hr, hr] at hw
        cases hw
    obtain ⟨ops, h⟩ := ih hn
    rw [e] at hw ⊢
    by_cases hf : S.Fresh me n ms m
    · rcases receive_taken S (critical := critical) (fun e _ => hc e) h
        (fresh_taken S hs h1 h2 h.toMid hf) with h' | ⟨_, -, h'⟩
      · exact ⟨_, h'⟩
      · obtain ⟨x, hx⟩ := h'.some
        exact absurd (hw.symm.trans hx) (by simp)
    · obtain ⟨er, he, -⟩ := stray_refused S hk hs h1 h2 h.toMid hf
      have := receive_refused_critical (critical := critical) hn (congrArg Prod.snd he) (hc er)
      exact absurd (hw.symm.trans this) (by simp)

/-- If all errors are critical, a single message that is not to be accepted ends the run. -/
theorem stray_ends (hc : ∀ e : SMError P.Er, critical e = true) (hk : Proto.Sim.KeepsOnRefusal M)
    (hs : S.abs s = P.init me n r0) (h1 : 1 ≤ me) (h2 : me ≤ n) (ms : List (Msg β))
    (hw : (run M critical s ms).result = none) {m : Msg β} (hm : ¬ S.Fresh me n ms m) :
    ∃ e, (run M critical s (ms ++ [m])).result = some (.err (.HandleIncoming e)) ∧
      e.refuses = true := by
  obtain ⟨ops, h⟩ := waits S hc hk hs h1 h2 ms hw
  obtain ⟨er, he, hr⟩ := stray_refused S hk hs h1 h2 h.toMid hm
  rw [run_snoc']
  exact ⟨er, receive_refused_critical hw (congrArg Prod.snd he) (hc er), hr⟩

/-- If refusals are not critical, a message that is not to be accepted changes nothing. -/
theorem stray_ignored (hc : ∀ e : SMError P.Er, e.refuses = false → critical e = true)
    (hc' : ∀ e : SMError P.Er, e.refuses = true → critical e = false)
    (hk : Proto.Sim.KeepsOnRefusal M)
    (hq' : ∀ s, M.message_queue s = [] → M.clear_queue s = s)
    (hs : S.abs s = P.init me n r0) (h1 : 1 ≤ me) (h2 : me ≤ n) (ms : List (Msg β))
    (hf : FreshAll S me n ms) (hq : Quiet S n ms) {m : Msg β} (hm : ¬ S.Fresh me n ms m)
    (later : List (Msg β)) :
    run M critical s (ms ++ m :: later) = run M critical s (ms ++ later) := by
  have key : receive M critical (run M critical s ms) m = run M critical s ms := by
    rcases run_spec S hc hs h1 h2 ms hf hq with ⟨ops, hw, hqt⟩ | ⟨ops, pre, post, -, -, hend⟩
    · obtain ⟨er, he, hr⟩ := stray_refused S hk hs h1 h2 hw.toMid hm
      have hcl := hq' _ hw.queue
      rw [receive_refused hw he (hc' er hr) hcl, advance_quiet hw hqt hcl]
    · obtain ⟨x, hx⟩ := hend.some
      exact receive_some hx m
  unfold run at key ⊢
  rw [List.foldl_append, List.foldl_append, List.foldl_cons, key]

omit S in
theorem FreshAll.of_fresh {S : P.Sim M} {ms : List (Msg β)}
    (h : ∀ pre m post, ms = pre ++ m :: post → S.Fresh me n pre m) : FreshAll S me n ms := by
  constructor
  · intro x hx
    obtain ⟨a, b, e⟩ := List.append_of_mem hx
    obtain ⟨c1, c2, c3, -⟩ := h a x b e
    exact ⟨c1, c2, c3⟩
  · induction ms using List.reverseRecOn with
    | nil => exact List.Pairwise.nil
    | append_singleton ms x ih =>
      rw [List.pairwise_append]
      refine ⟨ih fun pre m' post e => h pre m' (post ++ [x]) (by rw [e]; simp),
        List.pairwise_singleton _ _, ?_⟩
      intro a ha y hy
      rw [List.mem_singleton] at hy
      subst hy
      obtain ⟨-, -, -, c4⟩ := h ms y [] rfl
      exact c4 a ha

omit S in
theorem run_append (a b : List (Op β)) : M.run s (a ++ b) = b.foldl M.step (M.run s a) := by
  unfold StateMachine.run; rw [List.foldl_append]

omit S in
theorem panicked_mono {a : List (Op β)} (h : (M.run s a).panicked = true) (b : List (Op β)) :
    (M.run s (a ++ b)).panicked = true := by
  induction b using List.reverseRecOn with
  | nil => rwa [List.append_nil]
  | append_singleton b o ih => rw [← List.append_assoc, run_snoc, step_panicked ih, ih]

omit S in
theorem record_errors (h : History σ β (P.St (P.K + 1)) P.Er) (x) :
    h.errors <+: (StateMachine.record h x).errors := by
  unfold StateMachine.record
  split
  · exact List.prefix_rfl
  · dsimp only
    split
    · exact List.prefix_rfl
    · exact List.prefix_append _ _
  · exact List.prefix_rfl

omit S in
theorem step_errors (h : History σ β (P.St (P.K + 1)) P.Er) (o : Op β) :
    h.errors <+: (M.step h o).errors := by
  unfold StateMachine.step
  split
  · exact List.prefix_rfl
  · cases o with
    | deliver m =>
      dsimp only
      split
      · exact record_errors h _
      · exact record_errors h _
    | proceed => exact record_errors h _
    | drain => exact List.prefix_rfl
    | pick =>
      dsimp only
      split
      · exact List.prefix_rfl
      · exact List.prefix_rfl
      · exact List.prefix_append _ _
      · exact List.prefix_rfl

omit S in
theorem errors_mono (a b : List (Op β)) : (M.run s a).errors <+: (M.run s (a ++ b)).errors := by
  induction b using List.reverseRecOn with
  | nil => rw [List.append_nil]
  | append_singleton b o ih =>
    rw [← List.append_assoc, run_snoc]
    exact ih.trans (step_errors _ o)

omit S in
theorem Clean.delivers {ops : List (Op β)} {acc : List (Msg β)} (h : Clean ops acc)
    (ms : List (Msg β)) : Clean (ops ++ ms.map .deliver) (acc ++ ms) := by
  induction ms using List.reverseRecOn with
  | nil => simpa using h
  | append_singleton ms m ih =>
    rw [List.map_append, ← List.append_assoc, ← List.append_assoc]
    exact ih.deliver m

/-- A run that got all the messages of its peers has returned, with what the rounds lead to. -/
theorem returns (hc : ∀ e : SMError P.Er, e.refuses = false → critical e = true)
    (hs : S.abs s = P.init me n r0) (h1 : 1 ≤ me) (h2 : me ≤ n) (ms : List (Msg β))
    (hf : FreshAll S me n ms) (hq : Quiet S n ms) {x : List (Msg β) × Res P.Er (P.St (P.K + 1))}
    (t : List (Op β)) (hobs : ∀ ops, Clean ops ms → Spec.Observes M (M.run s (ops ++ t)) x)
    (hobsq : ∀ ops, Clean ops ms →
      ((M.run s ops).panicked = false → M.wants_to_proceed (M.run s ops).st = false) →
      Spec.Observes M (M.run s ops) x) :
    Spec.Returns (run M critical s ms) x := by
  rcases run_spec S hc hs h1 h2 ms hf hq with ⟨ops, hw, hqt⟩ | ⟨ops, pre, post, he, hcl, hend⟩
  · obtain ⟨-, -, -, h⟩ := hobsq ops hw.clean (fun _ => by rw [hw.run]; exact hqt)
    rw [hw.run] at h
    cases hx : x.2 with
    | ok o =>
      rw [hx] at h
      have := h.2.2.1
      rw [show M.is_finished (run M critical s ms).st = false from hw.unfinished] at this
      cases this
    | err e =>
      rw [hx] at h
      cases h.2.1
    | panic =>
      rw [hx] at h
      cases h.1
  · have hcl' : Clean (ops ++ post.map .deliver) ms := he ▸ hcl.delivers post
    obtain ⟨-, -, -, h⟩ := hobs _ hcl'
    cases hend with
    | ok o hr st hrun hqu hfin hpick =>
      have hm : Mid M s (⟨st, (run M critical s ms).sent, none⟩ : Run σ β (P.St (P.K + 1)) P.Er) ops pre :=
        ⟨rfl, hrun, hcl⟩
      obtain ⟨p1, p2, p3, p4⟩ := hm.pos S hs h1 h2
      have hk := p2.1 hfin
      have hpost : post = [] := by
        rw [List.eq_nil_iff_forall_not_mem]
        intro m hm
        obtain ⟨a, b, c⟩ := hf.addressed m (he ▸ List.mem_append.2 (.inr hm))
        obtain ⟨m', hm', e1, e2⟩ := p4 (S.rd m) a (by rw [hk]; omega) m.sender c.pos c.le c.ne
        have := hf.once
        rw [he, List.pairwise_append] at this
        exact this.2.2 m' hm' m hm e1 e2
      subst hpost
      rw [List.append_nil] at he
      subst he
      obtain ⟨hsent, -, -, h⟩ := hobsq ops hcl (fun _ => by
        rw [hrun]
        rw [Bool.eq_false_iff]
        intro hc
        have := (p3.1 hc).1
        dsimp only at this hk
        omega)
      rw [hrun] at h hsent
      unfold Spec.Returns
      cases hx : x.2 with
      | ok o' =>
        rw [hx] at h
        have e := h.2.2.2.symm.trans hpick
        cases e
        refine ⟨hr, ?_⟩
        rw [← hsent]
        unfold StateMachine.sent
        dsimp only
        rw [hqu, List.append_nil]
      | err e =>
        rw [hx] at h
        cases h.2.1
      | panic =>
        rw [hx] at h
        cases h.1
    | err e hr herr np =>
      have hmono := errors_mono (M := M) (s := s) ops (post.map .deliver ++ t)
      rw [herr, ← List.append_assoc] at hmono
      unfold Spec.Returns
      cases hx : x.2 with
      | ok o =>
        rw [hx] at h
        rw [h.2.1] at hmono
        exact absurd (List.prefix_nil.1 hmono) (by simp)
      | err e' =>
        rw [hx] at h
        rw [h.2.1] at hmono
        have := (List.cons_prefix_cons.1 hmono).1
        subst this
        exact hr
      | panic =>
        rw [hx] at h
        rw [h.2] at hmono
        exact absurd (List.prefix_nil.1 hmono) (by simp)
    | panic hr hp =>
      have hmono := panicked_mono hp (post.map .deliver ++ t)
      rw [← List.append_assoc] at hmono
      unfold Spec.Returns
      cases hx : x.2 with
      | ok o =>
        rw [hx] at h
        rw [h.1] at hmono
        cases hmono
      | err e' =>
        rw [hx] at h
        rw [h.1] at hmono
        cases hmono
      | panic => exact hr

end
end Verif.Async
