import Verif.Lemmas.SignSMSpec
import Verif.Props.Sign
import Verif.Lemmas.RoundMachineSim

/-!
# The offline signing state machine (C37, C44, C50 and the offline parts of C21, C23, C24)

`s` is the machine `OfflineStage::new` returned; `ops` is any list of calls on it; `run` is the history of
those calls.
-/

namespace Verif.Props

open EC Crypto GG20 GG20.Sign Spec

section

variable [Crypto]

/-! ### C37: `OfflineStage::new` -/

/-- C37: what `OfflineStage::new(i, s_l, key)` checks: it succeeds exactly if `s_l` lists at least two and
less than 2^16 distinct parties of the key and `i` is a position in `s_l`.  Missing: that `s_l` lists
`t + 1` parties and that the key belongs to the party at position `i` (both are not checked, see
`C37_too_few_signers_accepted` and `C37_foreign_key_accepted`). -/
theorem C37_new_accepts_partial (i : ℕ) (s_l : List ℕ) (key : LocalKey) :
    (∃ s, Sign.new i s_l key = .ok s) ↔
      (2 ≤ s_l.length ∧ s_l.length < 2 ^ 16) ∧ (1 ≤ i ∧ i ≤ s_l.length) ∧
      (∀ j ∈ s_l, 1 ≤ j ∧ j ≤ key.n) ∧ s_l.Nodup := by
  have hany : s_l.any (fun j => decide (j = 0 ∨ j > key.n)) = false ↔
      ∀ j ∈ s_l, 1 ≤ j ∧ j ≤ key.n := by
    rw [List.any_eq_false]
    refine forall₂_congr fun j _ => ?_
    rw [decide_eq_true_eq]
    omega
  unfold Sign.new
  rw [← hany, ← nodup_sorted_iff]
  constructor
  · rintro ⟨s, h⟩
    split_ifs at h with c1 c2 c3 c4 c5
    exact ⟨⟨by omega, by omega⟩, ⟨by omega, by omega⟩, Bool.eq_false_iff.2 c3, not_not.1 c4⟩
  · rintro ⟨⟨h1, h2⟩, ⟨h3, h4⟩, h5, h6⟩
    rw [if_neg (by omega), if_neg (by omega), if_neg (by rw [h5]; exact Bool.false_ne_true), if_neg (not_not.2 h6),
      if_neg (by omega)]
    exact ⟨_, rfl⟩

/-- C37: otherwise it reports, in this priority, too few parties, an invalid index or an invalid list. -/
theorem C37_new_errors (i : ℕ) (s_l : List ℕ) (key : LocalKey) :
    (Sign.new i s_l key = .error .TooFewParties ↔ s_l.length < 2) ∧
    (Sign.new i s_l key = .error .InvalidPartyIndex ↔
      2 ≤ s_l.length ∧ ¬ (1 ≤ i ∧ i ≤ s_l.length)) ∧
    (Sign.new i s_l key = .error .InvalidSl ↔ 2 ≤ s_l.length ∧ (1 ≤ i ∧ i ≤ s_l.length) ∧
      ¬ ((∀ j ∈ s_l, 1 ≤ j ∧ j ≤ key.n) ∧ s_l.Nodup)) := by
  have hany : s_l.any (fun j => decide (j = 0 ∨ j > key.n)) = false ↔
      ∀ j ∈ s_l, 1 ≤ j ∧ j ≤ key.n := by
    rw [List.any_eq_false]
    refine forall₂_congr fun j _ => ?_
    rw [decide_eq_true_eq]
    omega
  unfold Sign.new
  rw [← hany, ← nodup_sorted_iff]
  split_ifs with c1 c2 c3 c4 c5
  · simp only [Except.error.injEq, reduceCtorEq, false_iff, true_iff]
    exact ⟨c1, fun h => by omega, fun h => by omega⟩
  · simp only [Except.error.injEq, reduceCtorEq, false_iff, true_iff]
    exact ⟨by omega, ⟨by omega, by omega⟩, fun h => by omega⟩
  · simp only [Except.error.injEq, reduceCtorEq, false_iff, true_iff]
    exact ⟨by omega, fun h => by omega, by omega, by omega, fun h => by rw [h.1] at c3; cases c3⟩
  · simp only [Except.error.injEq, reduceCtorEq, false_iff, true_iff]
    exact ⟨by omega, fun h => by omega, by omega, by omega, fun h => c4 h.2⟩
  · simp only [Except.error.injEq, reduceCtorEq, false_iff]
    exact ⟨by omega, fun h => by omega,
      fun h => h.2.2 ⟨Bool.eq_false_iff.2 c3, not_not.1 c4⟩⟩
  · simp only [false_iff]
    exact ⟨by omega, fun h => by omega,
      fun h => h.2.2 ⟨Bool.eq_false_iff.2 c3, not_not.1 c4⟩⟩

/-- C37: `TooManyParties` is never reported for a key of at most `2^16 - 1` parties (the type of `n`). -/
theorem C37_never_too_many (i : ℕ) (s_l : List ℕ) (key : LocalKey) (hn : key.n < 2 ^ 16) (m : ℕ) :
    Sign.new i s_l key ≠ .error (.TooManyParties m) := by
  intro h
  unfold Sign.new at h
  split_ifs at h with c1 c2 c3 c4 c5 <;>
    simp only [Except.error.injEq, reduceCtorEq, NewError.TooManyParties.injEq] at h
  have hnd := (nodup_sorted_iff s_l).1 (not_not.1 c4)
  have hmem : s_l ⊆ (List.range' 1 key.n) := by
    intro j hj
    have : ¬ (j = 0 ∨ j > key.n) := fun hc => c3 (List.any_eq_true.2 ⟨j, hj, by simpa using hc⟩)
    rw [List.mem_range'_1]
    omega
  have := (hnd.subperm hmem).length_le
  rw [List.length_range'] at this
  omega

/-- C37: a new machine is in round 0, has sent nothing and wants to proceed. -/
theorem C37_new_state {rnd : SignRandomness} {i : ℕ} {s_l : List ℕ} {key : LocalKey} {s : State}
    (h : Sign.new i s_l key = .ok s) :
    (machine rnd).current_round s = 0 ∧ (machine rnd).message_queue s = [] ∧
    (machine rnd).wants_to_proceed s = true ∧ (machine rnd).is_finished s = false ∧
    (machine rnd).pick_output s = (s, none) := by
  unfold Sign.new at h
  split_ifs at h with c1 c2 c3 c4 c5
  simp only [Except.ok.injEq] at h
  subst h
  exact ⟨rfl, rfl, rfl, rfl, rfl⟩

/-- C37, violated: a signer set below the threshold is accepted whenever it has two members. -/
theorem C37_too_few_signers_accepted (key : LocalKey) (hn : 3 ≤ key.n) (_ht : key.t = 2) :
    ∃ s, Sign.new 1 [1, 2] key = .ok s := by
  refine (C37_new_accepts_partial 1 [1, 2] key).2 ⟨by decide, by decide, ?_, by decide⟩
  intro j hj
  simp only [List.mem_cons, List.not_mem_nil, or_false] at hj
  omega

/-- C37, violated: a key of party 3 is accepted at a position that lists party 1. -/
theorem C37_foreign_key_accepted (key : LocalKey) (hn : 3 ≤ key.n) (_hi : key.i = 3) :
    ∃ s, Sign.new 1 [1, 2] key = .ok s := by
  refine (C37_new_accepts_partial 1 [1, 2] key).2 ⟨by decide, by decide, ?_, by decide⟩
  intro j hj
  simp only [List.mem_cons, List.not_mem_nil, or_false] at hj
  omega

/-! ### C44: any order of delivery -/

/-- C44: whatever the order in which the peers' messages arrive and however `proceed` is called in
between, after all messages and three more calls of `proceed` (it returns after each of the rounds 4, 5
and 6) the signer has sent the same messages and has the same completed offline stage, error or panic as
if the rounds were executed one after the other. -/
theorem C44_any_schedule {rnd : SignRandomness} {i : ℕ} {s_l : List ℕ} {key : LocalKey} {s : State}
    (hnew : Sign.new i s_l key = .ok s) {b : SignerMsgs} {ops : List (Op M)}
    (hs : OfflineSchedule i s_l.length b ops) :
    Observes (machine rnd) ((machine rnd).run s (ops ++ [.proceed, .proceed, .proceed]))
      (offlineLine rnd i s_l key b) := by
  obtain ⟨habs, h1, h2, -⟩ := new_ok (rnd := rnd) hnew
  have hsch := schedule_map (rnd := rnd) hs
  have ho := (proto rnd).schedule_outcome_many (c := 2) (⟨i, s_l, key⟩ : Round0) h1 h2
    (show (proto rnd).stops 0 ≤ 2 from (show (proto rnd).stops 0 = 2 from rfl).le) hsch
  refine (sim rnd).outcome (x := offlineLine rnd i s_l key b) ?_
  have e := (sim rnd).run s (ops ++ [.proceed, .proceed, .proceed])
  rw [List.map_append, show (sim rnd).abs s = _ from habs] at e
  have hsc := script_eq rnd (key := key) h1 h2 (bodies b)
  change Proto.Outcome _ _ ((proto rnd).script _ _ 7) at ho
  rw [hsc] at ho
  exact e ▸ ho

/-- C44: the same as soon as every message is delivered and `wants_to_proceed` is false. -/
theorem C44_when_quiet {rnd : SignRandomness} {i : ℕ} {s_l : List ℕ} {key : LocalKey} {s : State}
    (hnew : Sign.new i s_l key = .ok s) {b : SignerMsgs} {ops : List (Op M)}
    (hs : OfflineSchedule i s_l.length b ops)
    (hq : ((machine rnd).run s ops).panicked = false →
      (machine rnd).wants_to_proceed ((machine rnd).run s ops).st = false) :
    Observes (machine rnd) ((machine rnd).run s ops) (offlineLine rnd i s_l key b) := by
  obtain ⟨habs, h1, h2, -⟩ := new_ok (rnd := rnd) hnew
  have hsch := schedule_map (rnd := rnd) hs
  have e := (sim rnd).run s ops
  rw [show (sim rnd).abs s = _ from habs] at e
  have ho := (proto rnd).schedule_outcome_quiet (⟨i, s_l, key⟩ : Round0) h1 h2 hsch (by
    have key : ((sim rnd).hist ((machine rnd).run s ops)).panicked = false →
        (proto rnd).machine.wants_to_proceed ((sim rnd).hist ((machine rnd).run s ops)).st = false := by
      intro hp
      exact ((sim rnd).wants _).symm.trans (hq hp)
    exact e ▸ key)
  refine (sim rnd).outcome (x := offlineLine rnd i s_l key b) ?_
  have hsc := script_eq rnd (key := key) h1 h2 (bodies b)
  change Proto.Outcome _ _ ((proto rnd).script _ _ 7) at ho
  rw [hsc] at ho
  exact e ▸ ho

/-- C44: two schedules with the same messages cannot be told apart at the end. -/
theorem C44_schedule_independent {rnd : SignRandomness} {i : ℕ} {s_l : List ℕ} {key : LocalKey}
    {s : State} (hnew : Sign.new i s_l key = .ok s) {b : SignerMsgs} {ops ops' : List (Op M)}
    (hs : OfflineSchedule i s_l.length b ops) (hs' : OfflineSchedule i s_l.length b ops') :
    let h := (machine rnd).run s (ops ++ [.proceed, .proceed, .proceed])
    let h' := (machine rnd).run s (ops' ++ [.proceed, .proceed, .proceed])
    (machine rnd).sent h = (machine rnd).sent h' ∧ h.errors = h'.errors ∧
    h.panicked = h'.panicked ∧
    (h.panicked = false → (machine rnd).wants_to_proceed h.st = false ∧
      ((machine rnd).pick_output h.st).2 = ((machine rnd).pick_output h'.st).2) := by
  obtain ⟨a1, -, a3, a4⟩ := C44_any_schedule (rnd := rnd) hnew hs
  obtain ⟨c1, -, -, c4⟩ := C44_any_schedule (rnd := rnd) hnew hs'
  refine ⟨a1.trans c1.symm, ?_⟩
  cases hx : (offlineLine rnd i s_l key b).2 with
  | ok k =>
    rw [hx] at a4 c4
    exact ⟨a4.2.1.trans c4.2.1.symm, a4.1.trans c4.1.symm,
      fun h => ⟨a3 h, a4.2.2.2.trans c4.2.2.2.symm⟩⟩
  | err e =>
    rw [hx] at a4 c4
    exact ⟨a4.2.1.trans c4.2.1.symm, a4.1.trans c4.1.symm,
      fun h => ⟨a3 h, a4.2.2.2.trans c4.2.2.2.symm⟩⟩
  | panic =>
    rw [hx] at a4 c4
    exact ⟨a4.2.trans c4.2.symm, a4.1.trans c4.1.symm, fun h => by rw [a4.1] at h; cases h⟩

/-! ### C21, offline: messages that are not expected -/

/-- C21 (offline): in every history, a message that is not expected or a duplicate is answered with an
error, the machine's state is the same, and whatever follows is as if it had never been delivered. -/
theorem C21_offline_refused {rnd : SignRandomness} {i : ℕ} {s_l : List ℕ} {key : LocalKey} {s : State}
    (hnew : Sign.new i s_l key = .ok s) (ops : List (Op M))
    {m : Msg M} (hm : ¬ SignMsg.Fresh i s_l.length ((machine rnd).run s ops).accepted m) :
    (∃ e, (machine rnd).handle_incoming ((machine rnd).run s ops).st m =
        (((machine rnd).run s ops).st, .err e) ∧
      ((∃ c, e = .HandleMessage c) ∨ ∃ a b, e = .ReceivedOutOfOrderMessage a b)) ∧
    ∀ later, (machine rnd).run s (ops ++ .deliver m :: later) =
      (machine rnd).run s (ops ++ later) := by
  obtain ⟨habs, h1, h2, -⟩ := new_ok (rnd := rnd) hnew
  obtain ⟨⟨e, he, hr⟩, hsame⟩ := (sim rnd).deliver_refused (keeps rnd) habs h1 h2 ops
    (fun h => hm (fresh_iff.2 h))
  refine ⟨⟨e, he, ?_⟩, fun later => ?_⟩
  · cases e with
    | HandleMessage c => exact .inl ⟨c, rfl⟩
    | ReceivedOutOfOrderMessage a b => exact .inr ⟨a, b, rfl⟩
    | ProceedRound e => cases hr
    | DoublePickOutput => cases hr
    | InternalError e => cases hr
  · have e1 : ∀ xs ys, (machine rnd).run s (xs ++ ys) =
        ys.foldl (machine rnd).step ((machine rnd).run s xs) := by
      intro xs ys
      unfold StateMachine.run; rw [List.foldl_append]
    have e2 : ops ++ .deliver m :: later = (ops ++ [.deliver m]) ++ later := by simp
    rw [e2, e1, e1 ops later]
    exact congrArg (fun h => later.foldl (machine rnd).step h) hsame

/-- C21 (offline): a fresh message is accepted. -/
theorem C21_offline_accepted {rnd : SignRandomness} {i : ℕ} {s_l : List ℕ} {key : LocalKey} {s : State}
    (hnew : Sign.new i s_l key = .ok s) (ops : List (Op M))
    (hp : ((machine rnd).run s ops).panicked = false)
    {m : Msg M} (hm : SignMsg.Fresh i s_l.length ((machine rnd).run s ops).accepted m) :
    ((machine rnd).run s (ops ++ [.deliver m])).accepted =
      ((machine rnd).run s ops).accepted ++ [m] ∧
    ∀ e, ((machine rnd).handle_incoming ((machine rnd).run s ops).st m).2 ≠ .err (.HandleMessage e)
      := by
  obtain ⟨habs, h1, h2, -⟩ := new_ok (rnd := rnd) hnew
  obtain ⟨a, b⟩ := (sim rnd).deliver_fresh habs h1 h2 ops hp (fresh_iff.1 hm)
  refine ⟨a, fun e h => ?_⟩
  have := b _ h
  cases this

/-! ### C50: the result -/

/-- C50: over any history at most one completed offline stage is handed out; none if a round function
failed. -/
theorem C50_at_most_one {rnd : SignRandomness} {i : ℕ} {s_l : List ℕ} {key : LocalKey} {s : State}
    (hnew : Sign.new i s_l key = .ok s) (ops : List (Op M)) :
    ((machine rnd).run s ops).outputs.length ≤ 1 ∧
    ((∃ e, .ProceedRound e ∈ ((machine rnd).run s ops).errors) →
      ((machine rnd).run s ops).outputs = []) := by
  obtain ⟨habs, h1, h2, -⟩ := new_ok (rnd := rnd) hnew
  obtain ⟨a, b⟩ := (sim rnd).outputs_spec habs h1 h2 ops
  refine ⟨a, ?_⟩
  rintro ⟨e, he⟩
  by_contra hc
  have := b hc _ he
  cases this

/-- C50: a completed offline stage is handed out only if every peer's six messages were accepted and all
rounds succeeded on them; it is the one those rounds produce. -/
theorem C50_output_correct {rnd : SignRandomness} {i : ℕ} {s_l : List ℕ} {key : LocalKey} {s : State}
    (hnew : Sign.new i s_l key = .ok s) (ops : List (Op M))
    {c : CompletedOfflineStage} (ho : c ∈ ((machine rnd).run s ops).outputs) :
    ∃ b : SignerMsgs, (∀ p ∈ peers i s_l.length,
        ⟨p, none, .M1 (b.b1 p)⟩ ∈ ((machine rnd).run s ops).accepted ∧
        ⟨p, some i, .M2 (b.b2 p)⟩ ∈ ((machine rnd).run s ops).accepted ∧
        ⟨p, none, .M3 (b.b3 p)⟩ ∈ ((machine rnd).run s ops).accepted ∧
        ⟨p, none, .M4 (b.b4 p)⟩ ∈ ((machine rnd).run s ops).accepted ∧
        ⟨p, none, .M5 (b.b5 p)⟩ ∈ ((machine rnd).run s ops).accepted ∧
        ⟨p, none, .M6 (b.b6 p)⟩ ∈ ((machine rnd).run s ops).accepted) ∧
      offlineLine rnd i s_l key b = ((machine rnd).sent ((machine rnd).run s ops), .ok c) := by
  obtain ⟨habs, h1, h2, hn⟩ := new_ok (rnd := rnd) hnew
  obtain ⟨body, hb, hsc⟩ := (sim rnd).output_spec habs h1 h2 hn (by
    intro j hj
    have hj : j = 0 ∨ 6 < j := hj
    match j with
    | 0 => exact ⟨()⟩
    | 1 | 2 | 3 | 4 | 5 | 6 => omega
    | _ + 7 => exact ⟨()⟩) ops ho
  refine ⟨⟨body 1, body 2, body 3, body 4, body 5, body 6⟩, ?_, ?_⟩
  · intro p hp
    rw [← others_eq_peers h1 h2] at hp
    have get : ∀ (j : ℕ) (m : Msg M), 1 ≤ j → j ≤ 6 →
        m.mapBody (tagM rnd) = ⟨p, if (proto rnd).p2p j then some i else none, ⟨j, body j p⟩⟩ →
        m ∈ ((machine rnd).run s ops).accepted := by
      intro j m j1 j2 e
      have := hb j j1 j2 p hp
      obtain ⟨m', hm', e'⟩ := List.mem_map.1 this
      rw [← (sim rnd).mapBody_inj (e'.trans e.symm)]
      exact hm'
    exact ⟨get 1 _ (by decide) (by decide) rfl, get 2 _ (by decide) (by decide) rfl,
      get 3 _ (by decide) (by decide) rfl, get 4 _ (by decide) (by decide) rfl,
      get 5 _ (by decide) (by decide) rfl, get 6 _ (by decide) (by decide) rfl⟩
  · have e := script_eq rnd (key := key) h1 h2 body
    have hsc : (proto rnd).script (⟨i, s_l, key⟩ : Round0)
      (fun j => (others i s_l.length).map (body j)) 7 = _ := hsc
    have e := hsc.symm.trans e
    have e1 := congrArg Prod.fst e
    have e2 : Res.ok c =
        (offlineLine rnd i s_l key ⟨body 1, body 2, body 3, body 4, body 5, body 6⟩).2 :=
      congrArg Prod.snd e
    have := (List.map_injective_iff.2 (fun _ _ h => (sim rnd).mapBody_inj h)) e1
    exact Prod.ext this.symm e2.symm

/-- C50: picking again after an output, or after a failure, reports `DoublePickOutput`. -/
theorem C50_second_pick {rnd : SignRandomness} {i : ℕ} {s_l : List ℕ} {key : LocalKey} {s : State}
    (hnew : Sign.new i s_l key = .ok s) (ops : List (Op M))
    (hp : ((machine rnd).run s ops).panicked = false)
    (hne : ((machine rnd).run s ops).outputs ≠ [] ∨ ((machine rnd).run s ops).errors ≠ []) :
    ((machine rnd).pick_output ((machine rnd).run s ops).st).2 = some (.err .DoublePickOutput) := by
  obtain ⟨habs, h1, h2, -⟩ := new_ok (rnd := rnd) hnew
  exact (sim rnd).pick_again habs h1 h2 ops hp hne

/-! ### C23, offline: blame -/

/-- C23 (offline): while a round waits for messages, `round_blame` lists each other signer whose message
of that round was not accepted yet, once, and nobody else, and their number. -/
theorem C23_offline_blame {rnd : SignRandomness} {i : ℕ} {s_l : List ℕ} {key : LocalKey} {s : State}
    (hnew : Sign.new i s_l key = .ok s) (ops : List (Op M))
    (hp : ((machine rnd).run s ops).panicked = false)
    (hc : 1 ≤ (machine rnd).current_round ((machine rnd).run s ops).st ∧
      (machine rnd).current_round ((machine rnd).run s ops).st ≤ 6) :
    let h := (machine rnd).run s ops
    let blame := (machine rnd).round_blame h.st
    (∀ p, p ∈ blame.2 ↔ p ∈ peers i s_l.length ∧ ∀ m ∈ h.accepted,
      SignMsg.round m.body = (machine rnd).current_round h.st → m.sender ≠ p) ∧
    blame.2.Nodup ∧ blame.1 = blame.2.length := by
  obtain ⟨habs, h1, h2, -⟩ := new_ok (rnd := rnd) hnew
  obtain ⟨a, b, c⟩ := (sim rnd).blame_spec habs h1 h2 ops hp hc.1 hc.2
  refine ⟨fun p => ?_, b, c⟩
  rw [mem_peers]
  have a := a p
  simp only [rd_eq] at a
  exact a.trans (by tauto)

/-- C23 (offline): before the first round, after the end and after a failure nobody is blamed. -/
theorem C23_offline_blame_none {rnd : SignRandomness} {i : ℕ} {s_l : List ℕ} {key : LocalKey} {s : State}
    (hnew : Sign.new i s_l key = .ok s) (ops : List (Op M))
    (hp : ((machine rnd).run s ops).panicked = false)
    (hc : (machine rnd).current_round ((machine rnd).run s ops).st = 0 ∨
      6 < (machine rnd).current_round ((machine rnd).run s ops).st) :
    (machine rnd).round_blame ((machine rnd).run s ops).st = (0, []) := by
  obtain ⟨habs, h1, h2, -⟩ := new_ok (rnd := rnd) hnew
  exact (sim rnd).blame_none habs h1 h2 ops hp hc

/-! ### C24, offline: late messages -/

/-- C24 (offline): `ReceivedOutOfOrderMessage` carries the current round and is returned only if every
peer's message of the round of the message has been accepted; the reported message round is right for
rounds 1 and 2.  Missing: it is 2 for the rounds 3 to 6. -/
theorem C24_offline_late_partial {rnd : SignRandomness} {i : ℕ} {s_l : List ℕ} {key : LocalKey}
    {s : State} (hnew : Sign.new i s_l key = .ok s) (ops : List (Op M)) {m : Msg M} {a b : ℕ}
    (h : ((machine rnd).handle_incoming ((machine rnd).run s ops).st m).2 =
      .err (.ReceivedOutOfOrderMessage a b)) :
    a = (machine rnd).current_round ((machine rnd).run s ops).st ∧
    (SignMsg.round m.body ≤ 2 → b = SignMsg.round m.body) ∧
    (3 ≤ SignMsg.round m.body → b = 2) ∧
    ∀ p ∈ peers i s_l.length, ∃ m' ∈ ((machine rnd).run s ops).accepted,
      SignMsg.round m'.body = SignMsg.round m.body ∧ m'.sender = p := by
  obtain ⟨habs, h1, h2, -⟩ := new_ok (rnd := rnd) hnew
  have hr := round_pos m.body
  rw [← rd_eq rnd m] at hr
  obtain ⟨x, y, z⟩ := (sim rnd).late_spec habs h1 h2 ops hr h
  have y : b = min (SignMsg.round m.body) 2 := by rw [y, rd_eq]; rfl
  refine ⟨x, by omega, by omega, fun p hp => ?_⟩
  obtain ⟨p1, p2, p3⟩ := mem_peers.1 hp
  obtain ⟨m', hm', e1, e2⟩ := z p p1 p2 p3
  rw [rd_eq, rd_eq] at e1
  exact ⟨m', hm', e1, e2⟩

/-- C24 (offline): a message of a round before the current one is refused as late; for the rounds 3 to 6
the error names round 2 instead of the message's round. -/
theorem C24_offline_late_reported {rnd : SignRandomness} {i : ℕ} {s_l : List ℕ} {key : LocalKey}
    {s : State} (hnew : Sign.new i s_l key = .ok s) (ops : List (Op M))
    (hp : ((machine rnd).run s ops).panicked = false)
    (hne : ((machine rnd).run s ops).errors = []) (hno : ((machine rnd).run s ops).outputs = [])
    {m : Msg M}
    (hlt : SignMsg.round m.body < (machine rnd).current_round ((machine rnd).run s ops).st) :
    (machine rnd).handle_incoming ((machine rnd).run s ops).st m =
      (((machine rnd).run s ops).st, .err (.ReceivedOutOfOrderMessage
        ((machine rnd).current_round ((machine rnd).run s ops).st)
        (if SignMsg.round m.body = 1 then 1 else 2))) := by
  obtain ⟨habs, h1, h2, -⟩ := new_ok (rnd := rnd) hnew
  have hr := round_pos m.body
  have := (sim rnd).late_of_before habs h1 h2 ops hp hne hno (m := m) (by rw [rd_eq]; exact hr.1)
    (by rw [rd_eq]; exact hlt)
  rw [rd_eq] at this
  have e : (proto rnd).lateRound (SignMsg.round m.body) = if SignMsg.round m.body = 1 then 1 else 2 := by
    show min (SignMsg.round m.body) 2 = _
    split_ifs <;> omega
  rw [e] at this
  exact Prod.ext (keeps rnd _ _ _ this rfl) this

end

/-! ### A two-signer run on the toy curve -/

section

attribute [local instance] Toy.crypto

/-- Signer `k` (0 or 1) of parties 3 and 1 starts. -/
def toyR0 (k : ℕ) : Sign.Round0 := ⟨k + 1, [3, 1], toyLocal ([3, 1].getD k 0)⟩

def toyX1 (k : ℕ) := (toyR0 k).proceed (toySign k)

/-- What the signer sends, if the round succeeded. -/
def bodyOr {ε R β : Type} (d : β) (x : Res ε (R × List (Msg β))) : β :=
  match x with
  | .ok (_, m :: _) => m.body
  | _ => d

def toyB1 (k : ℕ) : MessageA × SignBroadcastPhase1 := bodyOr (⟨0, []⟩, ⟨0⟩) (toyX1 k)
def toyX2 (k : ℕ) := toyX1 k >>= fun r => r.1.proceed [toyB1 (1 - k)] (toySign k)
def toyB2 (k : ℕ) : MessageB × MessageB :=
  bodyOr (⟨0, toyPf, toyPf⟩, ⟨0, toyPf, toyPf⟩) (toyX2 k)
def toyX3 (k : ℕ) := toyX2 k >>= fun r => r.1.proceed [toyB2 (1 - k)] (toySign k)
def toyPed : PedersenProof := PedersenProof.prove (0 : ZMod 31) (0 : ZMod 31) (0 : ZMod 31) (0 : ZMod 31)
def toyB3 (k : ℕ) : TMsg := bodyOr ⟨(0 : ZMod 31), (0 : ZMod 31), toyPed⟩ (toyX3 k)
def toyX4 (k : ℕ) := toyX3 k >>= fun r => r.1.proceed [toyB3 (1 - k)]
def toyB4 (k : ℕ) : SignDecommitPhase1 := bodyOr ⟨0, (0 : ZMod 31)⟩ (toyX4 k)
def toyX5 (k : ℕ) := toyX4 k >>= fun r => r.1.proceed [toyB4 (1 - k)] (toySign k)
def toyB5 (k : ℕ) : Pt × List PDLwSlackProof := bodyOr ((0 : ZMod 31), []) (toyX5 k)
def toyX6 (k : ℕ) := toyX5 k >>= fun r => r.1.proceed [toyB5 (1 - k)] (toySign k)
def toyHeg : HomoElGamalProof := ⟨(0 : ZMod 31), (0 : ZMod 31), (0 : ZMod 31), (0 : ZMod 31)⟩
def toyB6 (k : ℕ) : Pt × HomoElGamalProof := bodyOr ((0 : ZMod 31), toyHeg) (toyX6 k)


/-- What the signer at position 2 says when both are honest. -/
def toyMsgs : SignerMsgs :=
  { b1 := fun _ => toyB1 1, b2 := fun _ => toyB2 1, b3 := fun _ => toyB3 1, b4 := fun _ => toyB4 1
    b5 := fun _ => toyB5 1, b6 := fun _ => toyB6 1 }

/-- The honest signer at position 1 completes. -/
theorem toy_line_ok : ∃ c, (offlineLine (toySign 0) 1 [3, 1] (toyLocal 3) toyMsgs).2 = .ok c := by
  have h : (match (offlineLine (toySign 0) 1 [3, 1] (toyLocal 3) toyMsgs).2 with
    | .ok _ => true | _ => false) = true := by decide +kernel
  cases hx : (offlineLine (toySign 0) 1 [3, 1] (toyLocal 3) toyMsgs).2 with
  | ok c => exact ⟨c, rfl⟩
  | err e => rw [hx] at h; cases h
  | panic => rw [hx] at h; cases h

theorem toy_new : ∃ s, Sign.new 1 [3, 1] (toyLocal 3) = .ok s :=
  (C37_new_accepts_partial _ _ _).2 ⟨by decide, by decide, by decide, by decide⟩

/-- A schedule with early messages, a duplicate, one addressed to somebody else and one from nobody. -/
def toyOps : List (Op M) :=
  [.deliver ⟨2, none, .M6 (toyB6 1)⟩, .deliver ⟨2, none, .M3 (toyB3 1)⟩, .proceed, .drain,
   .deliver ⟨2, none, .M1 (toyB1 1)⟩, .deliver ⟨2, none, .M1 (toyB1 1)⟩,
   .deliver ⟨2, some 2, .M2 (toyB2 1)⟩, .deliver ⟨5, none, .M4 (toyB4 1)⟩, .proceed,
   .deliver ⟨2, none, .M5 (toyB5 1)⟩, .deliver ⟨2, none, .M4 (toyB4 1)⟩,
   .deliver ⟨2, some 1, .M2 (toyB2 1)⟩]

attribute [local irreducible] toyB1 toyB2 toyB3 toyB4 toyB5 toyB6

theorem toySchedule : OfflineSchedule 1 2 toyMsgs toyOps where
  noPick := by simp [toyOps]
  genuine := by
    intro m hm he
    simp only [toyOps, List.mem_cons, Op.deliver.injEq, reduceCtorEq, List.not_mem_nil, or_false,
      false_or] at hm
    rcases hm with rfl | rfl | rfl | rfl | rfl | rfl | rfl | rfl | rfl
    case inr.inr.inr.inr.inl => exact absurd he.2 (by simp [SignMsg.round])
    case inr.inr.inr.inr.inr.inl => exact absurd he.1 (by simp [peers, List.range'])
    all_goals exact rfl
  complete := by
    intro p hp
    have : peers 1 2 = [2] := by decide
    rw [this] at hp
    simp only [List.mem_cons, List.not_mem_nil, or_false] at hp
    subst hp
    simp [toyOps, toyMsgs]

/-- C44, C50: on that schedule the signer completes; the first pick returns the result. -/
theorem toy_completes {s : State} (hnew : Sign.new 1 [3, 1] (toyLocal 3) = .ok s) :
    let h := (machine (toySign 0)).run s (toyOps ++ [.proceed, .proceed, .proceed])
    h.panicked = false ∧ h.errors = [] ∧ h.outputs = [] ∧
    (machine (toySign 0)).current_round h.st = 7 ∧
    ∃ c, ((machine (toySign 0)).pick_output h.st).2 = some (.ok c) := by
  obtain ⟨c, hc⟩ := toy_line_ok
  obtain ⟨-, h2, -, h4⟩ := C44_any_schedule (rnd := toySign 0) hnew toySchedule
  rw [hc] at h4
  obtain ⟨h5, h6, h7, h8⟩ := h4
  refine ⟨h5, h6, h2, ?_, c, h8⟩
  change is_finished _ = true at h7
  change Sign.current_round _ = 7
  revert h7
  generalize ((machine (toySign 0)).run s (toyOps ++ [.proceed, .proceed, .proceed])).st = st
  unfold is_finished Sign.current_round
  cases st.round <;> simp

/-- C50: a history with an output. -/
theorem toy_outputs : ∃ s c, Sign.new 1 [3, 1] (toyLocal 3) = .ok s ∧
    ((machine (toySign 0)).run s ((toyOps ++ [.proceed, .proceed, .proceed]) ++ [.pick])).outputs = [c]
    := by
  obtain ⟨s, hs⟩ := toy_new
  obtain ⟨h1, -, h3, -, c, h4⟩ := toy_completes hs
  refine ⟨s, c, hs, ?_⟩
  have e : (machine (toySign 0)).run s ((toyOps ++ [.proceed, .proceed, .proceed]) ++ [.pick]) =
      (machine (toySign 0)).step
        ((machine (toySign 0)).run s (toyOps ++ [.proceed, .proceed, .proceed])) .pick := by
    unfold StateMachine.run; rw [List.foldl_append]; rfl
  rw [e]
  revert h1 h3 h4
  generalize (machine (toySign 0)).run s (toyOps ++ [.proceed, .proceed, .proceed]) = h
  intro h1 h3 h4
  unfold StateMachine.step
  rw [if_neg (by simp [h1])]
  revert h4
  generalize (machine (toySign 0)).pick_output h.st = xy
  obtain ⟨x, y⟩ := xy
  intro h4
  simp only at h4
  subst h4
  simp [h3]

/-- C24 (offline), violated: a duplicate of a round 4 message, delivered when the stage is complete, is
reported as a message of round 2. -/
theorem C24_offline_violated : ∃ (s : State) (ops : List (Op M)) (m : Msg M) (a b : ℕ),
    Sign.new 1 [3, 1] (toyLocal 3) = .ok s ∧
    ((machine (toySign 0)).handle_incoming ((machine (toySign 0)).run s ops).st m).2 =
      .err (.ReceivedOutOfOrderMessage a b) ∧ SignMsg.round m.body = 4 ∧ b = 2 := by
  obtain ⟨s, hs⟩ := toy_new
  obtain ⟨h1, h2, h3, h4, -⟩ := toy_completes hs
  have := C24_offline_late_reported (rnd := toySign 0) hs _ h1 h2 h3
    (m := ⟨2, none, .M4 (toyB4 1)⟩) (h4 ▸ (by decide : SignMsg.round (.M4 (toyB4 1)) < 7))
  exact ⟨s, _, _, _, _, hs, congrArg Prod.snd this, rfl, rfl⟩

/-- C37 -/
example (key : LocalKey) : Sign.new 1 [4] key = .error .TooFewParties ∧
    Sign.new 3 [1, 2] key = .error .InvalidPartyIndex := ⟨rfl, rfl⟩
example : Sign.new 1 [3, 3] (toyLocal 3) = .error .InvalidSl :=
  (C37_new_errors 1 [3, 3] (toyLocal 3)).2.2.2 ⟨by decide, by decide, by decide⟩
example : Sign.new 1 [3, 4] (toyLocal 3) = .error .InvalidSl :=
  (C37_new_errors 1 [3, 4] (toyLocal 3)).2.2.2 ⟨by decide, by decide, by decide⟩

/-- C21 (offline): a message of the peer is fresh at the start; one addressed to another signer is not. -/
example : SignMsg.Fresh 1 2 [] ⟨2, some 1, .M2 (toyB2 1)⟩ ∧
    ¬ SignMsg.Fresh 1 2 [] ⟨2, some 2, .M2 (toyB2 1)⟩ :=
  ⟨⟨⟨by decide, rfl⟩, by simp⟩, fun h => absurd h.1.2 (by simp [SignMsg.round])⟩

/-- C23 (offline): after the first `proceed` the signer waits for round 1. -/
theorem toy_round1 {s : State} (hnew : Sign.new 1 [3, 1] (toyLocal 3) = .ok s) :
    let h := (machine (toySign 0)).run s [.proceed]
    h.panicked = false ∧ h.accepted = [] ∧ (machine (toySign 0)).current_round h.st = 1 ∧
    (machine (toySign 0)).round_blame h.st = (1, [2]) := by
  have hr : ∃ no, (toyR0 0).proceed (toySign 0) = .ok no := by
    have h : (match (toyR0 0).proceed (toySign 0) with | .ok _ => true | _ => false) = true := by
      decide +kernel
    cases hx : (toyR0 0).proceed (toySign 0) with
    | ok c => exact ⟨c, rfl⟩
    | err e => rw [hx] at h; cases h
    | panic => rw [hx] at h; cases h
  obtain ⟨no, hno⟩ := hr
  unfold Sign.new at hnew
  split_ifs at hnew
  simp only [Except.ok.injEq] at hnew
  subst hnew
  simp only [StateMachine.run, List.foldl_cons, List.foldl_nil, StateMachine.step, machine,
    Bool.false_eq_true, if_false]
  rw [proceed_round_0 rfl, if_pos (by simp)]
  rw [show Round0.proceed ⟨1, [3, 1], toyLocal 3⟩ (toySign 0) = .ok no from hno]
  simp only
  rw [proceed_round_1_lit rfl, if_neg (by simp [wantsMore, Store.new, Store.wants_more])]
  exact ⟨rfl, rfl, rfl, rfl⟩

end

end Verif.Props
