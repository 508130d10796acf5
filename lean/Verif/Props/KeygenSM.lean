import Verif.Lemmas.KeygenSMSpec

/-!
# The key generation state machine (C19 to C25)

`s` is the machine `Keygen::new` returned; `ops` is any list of calls on it; `run` is the history of
those calls.
-/

namespace Verif.Props

open EC Crypto GG20 GG20.Keygen Spec

section

variable [Crypto]

/-! ### C19: `Keygen::new` -/

/-- C19: `Keygen::new(i, t, n)` succeeds exactly for `n ≥ 2`, `1 ≤ t < n` and `1 ≤ i ≤ n`. -/
theorem C19_new_accepts (rnd : KeygenRandomness) (i t n : ℕ) :
    (∃ s, Keygen.new rnd i t n = .ok (s, .ok ())) ↔ 2 ≤ n ∧ (1 ≤ t ∧ t < n) ∧ 1 ≤ i ∧ i ≤ n := by
  constructor
  · rintro ⟨s, h⟩
    obtain ⟨-, -, a, b, c, d, e⟩ := new_ok h
    exact ⟨c, ⟨d, e⟩, a, b⟩
  · rintro ⟨h1, ⟨h2, h3⟩, h4, h5⟩
    unfold Keygen.new
    rw [if_neg (by omega), if_neg (by omega), if_neg (by omega), proceed_round_0 rfl,
      if_neg (by simp [Round0.is_expensive])]
    exact ⟨_, rfl⟩

/-- C19: otherwise it reports, in this priority, too few parties, an invalid threshold or an invalid
party index. -/
theorem C19_new_errors (rnd : KeygenRandomness) (i t n : ℕ) :
    (Keygen.new rnd i t n = .error .TooFewParties ↔ n < 2) ∧
    (Keygen.new rnd i t n = .error .InvalidThreshold ↔ 2 ≤ n ∧ (t = 0 ∨ n ≤ t)) ∧
    (Keygen.new rnd i t n = .error .InvalidPartyIndex ↔
      2 ≤ n ∧ (1 ≤ t ∧ t < n) ∧ (i = 0 ∨ n < i)) := by
  unfold Keygen.new
  split_ifs with c1 c2 c3 <;> refine ⟨?_, ?_, ?_⟩ <;>
    simp only [reduceCtorEq, false_iff, true_iff, Except.error.injEq] <;> omega

/-- C19: a new machine is in round 0, has sent nothing and wants to proceed. -/
theorem C19_new_state {rnd : KeygenRandomness} {i t n : ℕ} {s : State} {r : Res Keygen.Error Unit}
    (h : Keygen.new rnd i t n = .ok (s, r)) :
    r = .ok () ∧ (machine rnd).current_round s = 0 ∧ (machine rnd).message_queue s = [] ∧
    (machine rnd).wants_to_proceed s = true ∧ (machine rnd).is_finished s = false ∧
    (machine rnd).pick_output s = (s, none) := by
  unfold Keygen.new at h
  split_ifs at h with c1 c2 c3
  rw [proceed_round_0 rfl, if_neg (by simp [Round0.is_expensive])] at h
  simp only [Except.ok.injEq, Prod.mk.injEq] at h
  obtain ⟨rfl, rfl⟩ := h
  exact ⟨rfl, rfl, rfl, rfl, rfl, rfl⟩

/-! ### C20, C25: any order of delivery -/

/-- C20: whatever the order in which the peers' messages arrive and however `proceed` is called in
between, after all messages and one more `proceed` the party has sent the same messages and has the
same key, error or panic as if the rounds were executed one after the other. -/
theorem C20_any_schedule {rnd : KeygenRandomness} {i t n : ℕ} {s : State}
    {r : Res Keygen.Error Unit} (hnew : Keygen.new rnd i t n = .ok (s, r))
    {b1 : ℕ → KeyGenBroadcastMessage1} {b2 : ℕ → KeyGenDecommitMessage1} {b3 : ℕ → Vss × Sc}
    {b4 : ℕ → DLogProof} {ops : List (Op M)} (hs : KeygenSchedule i n b1 b2 b3 b4 ops) :
    Observes (machine rnd) ((machine rnd).run s (ops ++ [.proceed]))
      (keygenLine rnd i t n b1 b2 b3 b4) := by
  obtain ⟨-, habs, h1, h2, -⟩ := new_ok hnew
  have hsch := schedule_map (rnd := rnd) hs
  have ho := (proto rnd).schedule_outcome (⟨i, t, n⟩ : Round0) h1 h2 (fun _ _ => rfl) hsch
  refine (sim rnd).outcome (x := keygenLine rnd i t n b1 b2 b3 b4) ?_
  have e := (sim rnd).run s (ops ++ [.proceed])
  rw [List.map_append, show (sim rnd).abs s = _ from habs] at e
  have hsc := script_eq rnd (t := t) h1 h2 (bodies b1 b2 b3 b4)
  change Proto.Outcome _ _ ((proto rnd).script _ _ 5) at ho
  rw [hsc] at ho
  exact e ▸ ho

/-- C20: the same without the additional `proceed`, as soon as `wants_to_proceed` is false. -/
theorem C20_when_quiet {rnd : KeygenRandomness} {i t n : ℕ} {s : State}
    {r : Res Keygen.Error Unit} (hnew : Keygen.new rnd i t n = .ok (s, r))
    {b1 : ℕ → KeyGenBroadcastMessage1} {b2 : ℕ → KeyGenDecommitMessage1} {b3 : ℕ → Vss × Sc}
    {b4 : ℕ → DLogProof} {ops : List (Op M)} (hs : KeygenSchedule i n b1 b2 b3 b4 ops)
    (hq : ((machine rnd).run s ops).panicked = false →
      (machine rnd).wants_to_proceed ((machine rnd).run s ops).st = false) :
    Observes (machine rnd) ((machine rnd).run s ops) (keygenLine rnd i t n b1 b2 b3 b4) := by
  obtain ⟨-, habs, h1, h2, -⟩ := new_ok hnew
  have hsch := schedule_map (rnd := rnd) hs
  have e := (sim rnd).run s ops
  rw [show (sim rnd).abs s = _ from habs] at e
  have ho := (proto rnd).schedule_outcome_quiet (⟨i, t, n⟩ : Round0) h1 h2 hsch (by
    have key : ((sim rnd).hist ((machine rnd).run s ops)).panicked = false →
        (proto rnd).machine.wants_to_proceed ((sim rnd).hist ((machine rnd).run s ops)).st = false := by
      intro hp
      exact ((sim rnd).wants _).symm.trans (hq hp)
    exact e ▸ key)
  refine (sim rnd).outcome (x := keygenLine rnd i t n b1 b2 b3 b4) ?_
  have hsc := script_eq rnd (t := t) h1 h2 (bodies b1 b2 b3 b4)
  change Proto.Outcome _ _ ((proto rnd).script _ _ 5) at ho
  rw [hsc] at ho
  exact e ▸ ho

/-- C20: two schedules with the same messages cannot be told apart at the end. -/
theorem C20_schedule_independent {rnd : KeygenRandomness} {i t n : ℕ} {s : State}
    {r : Res Keygen.Error Unit} (hnew : Keygen.new rnd i t n = .ok (s, r))
    {b1 : ℕ → KeyGenBroadcastMessage1} {b2 : ℕ → KeyGenDecommitMessage1} {b3 : ℕ → Vss × Sc}
    {b4 : ℕ → DLogProof} {ops ops' : List (Op M)} (hs : KeygenSchedule i n b1 b2 b3 b4 ops)
    (hs' : KeygenSchedule i n b1 b2 b3 b4 ops') :
    let h := (machine rnd).run s (ops ++ [.proceed])
    let h' := (machine rnd).run s (ops' ++ [.proceed])
    (machine rnd).sent h = (machine rnd).sent h' ∧ h.errors = h'.errors ∧
    h.panicked = h'.panicked ∧
    (h.panicked = false →
      ((machine rnd).pick_output h.st).2 = ((machine rnd).pick_output h'.st).2) := by
  have o := C20_any_schedule hnew hs
  have o' := C20_any_schedule hnew hs'
  obtain ⟨a1, -, -, a4⟩ := o
  obtain ⟨c1, -, -, c4⟩ := o'
  refine ⟨a1.trans c1.symm, ?_⟩
  cases hx : (keygenLine rnd i t n b1 b2 b3 b4).2 with
  | ok k =>
    rw [hx] at a4 c4
    exact ⟨a4.2.1.trans c4.2.1.symm, a4.1.trans c4.1.symm,
      fun _ => a4.2.2.2.trans c4.2.2.2.symm⟩
  | err e =>
    rw [hx] at a4 c4
    exact ⟨a4.2.1.trans c4.2.1.symm, a4.1.trans c4.1.symm,
      fun _ => a4.2.2.2.trans c4.2.2.2.symm⟩
  | panic =>
    rw [hx] at a4 c4
    exact ⟨a4.2.trans c4.2.symm, a4.1.trans c4.1.symm, fun h => by rw [a4.1] at h; cases h⟩

/-- C25: after all messages, one `proceed` leads to the output or to an error (or the round function
panicked), and the machine does not ask to proceed again. -/
theorem C25_terminates {rnd : KeygenRandomness} {i t n : ℕ} {s : State}
    {r : Res Keygen.Error Unit} (hnew : Keygen.new rnd i t n = .ok (s, r))
    {b1 : ℕ → KeyGenBroadcastMessage1} {b2 : ℕ → KeyGenDecommitMessage1} {b3 : ℕ → Vss × Sc}
    {b4 : ℕ → DLogProof} {ops : List (Op M)} (hs : KeygenSchedule i n b1 b2 b3 b4 ops) :
    let h := (machine rnd).run s (ops ++ [.proceed])
    (h.panicked = true ∧ (keygenLine rnd i t n b1 b2 b3 b4).2 = .panic) ∨
    (h.panicked = false ∧ (machine rnd).wants_to_proceed h.st = false ∧
      ((machine rnd).is_finished h.st = true ∧ h.errors = [] ∨
        (machine rnd).is_finished h.st = false ∧ ∃ e, h.errors = [.ProceedRound e])) := by
  obtain ⟨-, -, a3, a4⟩ := C20_any_schedule hnew hs
  cases hx : (keygenLine rnd i t n b1 b2 b3 b4).2 with
  | ok k =>
    rw [hx] at a4
    exact .inr ⟨a4.1, a3 a4.1, .inl ⟨a4.2.2.1, a4.2.1⟩⟩
  | err e =>
    rw [hx] at a4
    exact .inr ⟨a4.1, a3 a4.1, .inr ⟨a4.2.2.1, e, a4.2.1⟩⟩
  | panic =>
    rw [hx] at a4
    exact .inl ⟨a4.1, rfl⟩

/-! ### C21: messages that are not expected -/

/-- Party `i` has to accept this message after having accepted `acc`: it is expected, and none of the
same round from the same sender was accepted. -/
def Fresh (i n : ℕ) (acc : List (Msg M)) (m : Msg M) : Prop :=
  KeygenMsg.Expected i n m ∧
    ∀ m' ∈ acc, KeygenMsg.round m'.body = KeygenMsg.round m.body → m'.sender ≠ m.sender

theorem fresh_iff {rnd : KeygenRandomness} {i n : ℕ} {acc : List (Msg M)} {m : Msg M} :
    Fresh i n acc m ↔ (sim rnd).Fresh i n acc m := by
  have h := round_pos m.body
  unfold Fresh Proto.Sim.Fresh
  rw [expected_iff (rnd := rnd)]
  simp only [rd_eq]
  exact ⟨fun x => ⟨h.1, h.2, x.1, x.2⟩, fun x => ⟨x.2.2.1, x.2.2.2⟩⟩

/-- C21: in every history, any other message (unknown sender, the party itself, wrong receiver,
duplicate, or of a completed round) is answered with an error, the machine's state is the same, and
whatever follows is as if it had never been delivered. -/
theorem C21_refused {rnd : KeygenRandomness} {i t n : ℕ} {s : State}
    {r : Res Keygen.Error Unit} (hnew : Keygen.new rnd i t n = .ok (s, r)) (ops : List (Op M))
    {m : Msg M} (hm : ¬ Fresh i n ((machine rnd).run s ops).accepted m) :
    (∃ e, (machine rnd).handle_incoming ((machine rnd).run s ops).st m =
        (((machine rnd).run s ops).st, .err e) ∧
      ((∃ c, e = .HandleMessage c) ∨ ∃ a b, e = .ReceivedOutOfOrderMessage a b)) ∧
    ∀ later, (machine rnd).run s (ops ++ .deliver m :: later) =
      (machine rnd).run s (ops ++ later) := by
  obtain ⟨-, habs, h1, h2, -⟩ := new_ok hnew
  obtain ⟨⟨e, he, hr⟩, hsame⟩ := (sim rnd).deliver_refused (keeps rnd) habs h1 h2 ops
    (fun h => hm (fresh_iff.2 h))
  refine ⟨⟨e, he, ?_⟩, fun later => ?_⟩
  · cases e with
    | HandleMessage c => exact .inl ⟨c, rfl⟩
    | ReceivedOutOfOrderMessage a b => exact .inr ⟨a, b, rfl⟩
    | ProceedRound e => cases hr
    | DoublePickOutput => cases hr
    | InternalError e => cases hr
  · have e1 : ∀ xs ys, (machine rnd).run s (xs ++ ys) =
        ys.foldl (machine rnd).step ((machine rnd).run s xs) := by
      intro xs ys
      unfold StateMachine.run; rw [List.foldl_append]
    have e2 : ops ++ .deliver m :: later = (ops ++ [.deliver m]) ++ later := by simp
    rw [e2, e1, e1 ops later]
    exact congrArg (fun h => later.foldl (machine rnd).step h) hsame

/-- C21: a fresh message is accepted. -/
theorem C21_accepted {rnd : KeygenRandomness} {i t n : ℕ} {s : State}
    {r : Res Keygen.Error Unit} (hnew : Keygen.new rnd i t n = .ok (s, r)) (ops : List (Op M))
    (hp : ((machine rnd).run s ops).panicked = false)
    {m : Msg M} (hm : Fresh i n ((machine rnd).run s ops).accepted m) :
    ((machine rnd).run s (ops ++ [.deliver m])).accepted =
      ((machine rnd).run s ops).accepted ++ [m] ∧
    ∀ e, ((machine rnd).handle_incoming ((machine rnd).run s ops).st m).2 ≠ .err (.HandleMessage e)
      := by
  obtain ⟨-, habs, h1, h2, -⟩ := new_ok hnew
  obtain ⟨a, b⟩ := (sim rnd).deliver_fresh habs h1 h2 ops hp (fresh_iff.1 hm)
  refine ⟨a, fun e h => ?_⟩
  have := b _ h
  cases this

/-! ### C22: the output -/

/-- C22: over any history at most one key is handed out; none if a round function failed. -/
theorem C22_at_most_one_output {rnd : KeygenRandomness} {i t n : ℕ} {s : State}
    {r : Res Keygen.Error Unit} (hnew : Keygen.new rnd i t n = .ok (s, r)) (ops : List (Op M)) :
    ((machine rnd).run s ops).outputs.length ≤ 1 ∧
    ((∃ e, .ProceedRound e ∈ ((machine rnd).run s ops).errors) →
      ((machine rnd).run s ops).outputs = []) := by
  obtain ⟨-, habs, h1, h2, -⟩ := new_ok hnew
  obtain ⟨a, b⟩ := (sim rnd).outputs_spec habs h1 h2 ops
  refine ⟨a, ?_⟩
  rintro ⟨e, he⟩
  by_contra hc
  have := b hc _ he
  cases this

/-- C22: a key is handed out only if every peer's four messages were accepted and all rounds
succeeded on them; it is the key those rounds produce. -/
theorem C22_output_correct {rnd : KeygenRandomness} {i t n : ℕ} {s : State}
    {r : Res Keygen.Error Unit} (hnew : Keygen.new rnd i t n = .ok (s, r)) (ops : List (Op M))
    {key : LocalKey} (ho : key ∈ ((machine rnd).run s ops).outputs) :
    ∃ b1 b2 b3 b4, (∀ p ∈ peers i n,
        ⟨p, none, .Round1 (b1 p)⟩ ∈ ((machine rnd).run s ops).accepted ∧
        ⟨p, none, .Round2 (b2 p)⟩ ∈ ((machine rnd).run s ops).accepted ∧
        ⟨p, some i, .Round3 (b3 p)⟩ ∈ ((machine rnd).run s ops).accepted ∧
        ⟨p, none, .Round4 (b4 p)⟩ ∈ ((machine rnd).run s ops).accepted) ∧
      keygenLine rnd i t n b1 b2 b3 b4 = ((machine rnd).sent ((machine rnd).run s ops), .ok key) := by
  obtain ⟨-, habs, h1, h2, hn, -⟩ := new_ok hnew
  obtain ⟨body, hb, hsc⟩ := (sim rnd).output_spec habs h1 h2 hn (by
    intro j hj
    have hj : j = 0 ∨ 4 < j := hj
    match j with
    | 0 => exact ⟨()⟩
    | 1 | 2 | 3 | 4 => omega
    | _ + 5 => exact ⟨()⟩) ops ho
  refine ⟨body 1, body 2, body 3, body 4, ?_, ?_⟩
  · intro p hp
    rw [← others_eq_peers h1 h2] at hp
    have get : ∀ (j : ℕ) (m : Msg M), 1 ≤ j → j ≤ 4 →
        m.mapBody (tagM rnd) = ⟨p, if (proto rnd).p2p j then some i else none, ⟨j, body j p⟩⟩ →
        m ∈ ((machine rnd).run s ops).accepted := by
      intro j m j1 j2 e
      have := hb j j1 j2 p hp
      obtain ⟨m', hm', e'⟩ := List.mem_map.1 this
      rw [← (sim rnd).mapBody_inj (e'.trans e.symm)]
      exact hm'
    exact ⟨get 1 _ (by decide) (by decide) rfl, get 2 _ (by decide) (by decide) rfl,
      get 3 _ (by decide) (by decide) rfl, get 4 _ (by decide) (by decide) rfl⟩
  · have e := script_eq rnd (t := t) h1 h2 body
    have hsc : (proto rnd).script (⟨i, t, n⟩ : Round0) (fun j => (others i n).map (body j)) 5 = _ :=
      hsc
    have e := hsc.symm.trans e
    have e1 := congrArg Prod.fst e
    have e2 : Res.ok key = (keygenLine rnd i t n (body 1) (body 2) (body 3) (body 4)).2 :=
      congrArg Prod.snd e
    have := (List.map_injective_iff.2 (fun _ _ h => (sim rnd).mapBody_inj h)) e1
    exact Prod.ext this.symm e2.symm

/-- C22: picking again after an output, or after a failure, reports `DoublePickOutput`. -/
theorem C22_second_pick {rnd : KeygenRandomness} {i t n : ℕ} {s : State}
    {r : Res Keygen.Error Unit} (hnew : Keygen.new rnd i t n = .ok (s, r)) (ops : List (Op M))
    (hp : ((machine rnd).run s ops).panicked = false)
    (hne : ((machine rnd).run s ops).outputs ≠ [] ∨ ((machine rnd).run s ops).errors ≠ []) :
    ((machine rnd).pick_output ((machine rnd).run s ops).st).2 = some (.err .DoublePickOutput) := by
  obtain ⟨-, habs, h1, h2, -⟩ := new_ok hnew
  exact (sim rnd).pick_again habs h1 h2 ops hp hne

/-! ### C23: blame -/

/-- C23: while a round waits for messages, `round_blame` lists each other party whose message of that
round was not accepted yet, once, and nobody else, and their number. -/
theorem C23_keygen_blame {rnd : KeygenRandomness} {i t n : ℕ} {s : State}
    {r : Res Keygen.Error Unit} (hnew : Keygen.new rnd i t n = .ok (s, r)) (ops : List (Op M))
    (hp : ((machine rnd).run s ops).panicked = false)
    (hc : 1 ≤ (machine rnd).current_round ((machine rnd).run s ops).st ∧
      (machine rnd).current_round ((machine rnd).run s ops).st ≤ 4) :
    let h := (machine rnd).run s ops
    let blame := (machine rnd).round_blame h.st
    (∀ p, p ∈ blame.2 ↔ p ∈ peers i n ∧ ∀ m ∈ h.accepted,
      KeygenMsg.round m.body = (machine rnd).current_round h.st → m.sender ≠ p) ∧
    blame.2.Nodup ∧ blame.1 = blame.2.length := by
  obtain ⟨-, habs, h1, h2, -⟩ := new_ok hnew
  obtain ⟨a, b, c⟩ := (sim rnd).blame_spec habs h1 h2 ops hp hc.1 hc.2
  refine ⟨fun p => ?_, b, c⟩
  rw [mem_peers]
  have a := a p
  simp only [rd_eq] at a
  exact a.trans (by tauto)

/-- C23: before the first round, after the end and after a failure nobody is blamed. -/
theorem C23_keygen_blame_none {rnd : KeygenRandomness} {i t n : ℕ} {s : State}
    {r : Res Keygen.Error Unit} (hnew : Keygen.new rnd i t n = .ok (s, r)) (ops : List (Op M))
    (hp : ((machine rnd).run s ops).panicked = false)
    (hc : (machine rnd).current_round ((machine rnd).run s ops).st = 0 ∨
      4 < (machine rnd).current_round ((machine rnd).run s ops).st) :
    (machine rnd).round_blame ((machine rnd).run s ops).st = (0, []) := by
  obtain ⟨-, habs, h1, h2, -⟩ := new_ok hnew
  exact (sim rnd).blame_none habs h1 h2 ops hp hc

/-! ### C24: late messages -/

/-- C24 (key generation): `ReceivedOutOfOrderMessage` carries the current round and the round of the
message, and is returned only if every peer's message of that round has been accepted. -/
theorem C24_keygen_late {rnd : KeygenRandomness} {i t n : ℕ} {s : State}
    {r : Res Keygen.Error Unit} (hnew : Keygen.new rnd i t n = .ok (s, r)) (ops : List (Op M))
    {m : Msg M} {a b : ℕ}
    (h : ((machine rnd).handle_incoming ((machine rnd).run s ops).st m).2 =
      .err (.ReceivedOutOfOrderMessage a b)) :
    a = (machine rnd).current_round ((machine rnd).run s ops).st ∧ b = KeygenMsg.round m.body ∧
    ∀ p ∈ peers i n, ∃ m' ∈ ((machine rnd).run s ops).accepted,
      KeygenMsg.round m'.body = KeygenMsg.round m.body ∧ m'.sender = p := by
  obtain ⟨-, habs, h1, h2, -⟩ := new_ok hnew
  have hr := round_pos m.body
  rw [← rd_eq rnd m] at hr
  obtain ⟨x, y, z⟩ := (sim rnd).late_spec habs h1 h2 ops hr h
  refine ⟨x, by rw [y, rd_eq]; rfl, fun p hp => ?_⟩
  obtain ⟨p1, p2, p3⟩ := mem_peers.1 hp
  obtain ⟨m', hm', e1, e2⟩ := z p p1 p2 p3
  rw [rd_eq, rd_eq] at e1
  exact ⟨m', hm', e1, e2⟩

/-- C24 (key generation): a message of a round before the current one is reported like that. -/
theorem C24_keygen_late_reported {rnd : KeygenRandomness} {i t n : ℕ} {s : State}
    {r : Res Keygen.Error Unit} (hnew : Keygen.new rnd i t n = .ok (s, r)) (ops : List (Op M))
    (hp : ((machine rnd).run s ops).panicked = false)
    (hne : ((machine rnd).run s ops).errors = []) (hno : ((machine rnd).run s ops).outputs = [])
    {m : Msg M}
    (hlt : KeygenMsg.round m.body < (machine rnd).current_round ((machine rnd).run s ops).st) :
    (machine rnd).handle_incoming ((machine rnd).run s ops).st m =
      (((machine rnd).run s ops).st, .err (.ReceivedOutOfOrderMessage
        ((machine rnd).current_round ((machine rnd).run s ops).st) (KeygenMsg.round m.body))) := by
  obtain ⟨-, habs, h1, h2, -⟩ := new_ok hnew
  have hr := round_pos m.body
  have := (sim rnd).late_of_before habs h1 h2 ops hp hne hno (m := m) (by rw [rd_eq]; exact hr.1)
    (by rw [rd_eq]; exact hlt)
  rw [rd_eq] at this
  exact Prod.ext (keeps rnd _ _ _ this rfl) this

/-! ### The hypotheses above are met

Party 2 of 3, threshold 1, and arbitrary messages `b1`, ..., `b4` of the peers 1 and 3. -/

section Examples

variable (rnd : KeygenRandomness) (b1 : ℕ → KeyGenBroadcastMessage1)
  (b2 : ℕ → KeyGenDecommitMessage1) (b3 : ℕ → Vss × Sc) (b4 : ℕ → DLogProof)

/-- C19 -/
theorem new_213 : ∃ s, Keygen.new rnd 2 1 3 = .ok (s, .ok ()) :=
  (C19_new_accepts rnd 2 1 3).2 ⟨by decide, by decide, by decide, by decide⟩

example : Keygen.new rnd 2 0 1 = .error .TooFewParties ∧
    Keygen.new rnd 9 3 3 = .error .InvalidThreshold ∧
    Keygen.new rnd 4 2 3 = .error .InvalidPartyIndex := ⟨rfl, rfl, rfl⟩

/-- C20, C25: a schedule with early and late messages, a duplicate, a message for somebody else and
one from nobody. -/
theorem schedule_213 : KeygenSchedule 2 3 b1 b2 b3 b4
    [.deliver ⟨3, none, .Round4 (b4 3)⟩, .deliver ⟨3, some 2, .Round3 (b3 3)⟩, .proceed, .drain,
     .deliver ⟨1, none, .Round2 (b2 1)⟩, .deliver ⟨3, none, .Round1 (b1 3)⟩,
     .deliver ⟨3, none, .Round1 (b1 3)⟩, .deliver ⟨3, some 1, .Round3 (b3 2)⟩, .proceed,
     .deliver ⟨1, none, .Round1 (b1 1)⟩, .deliver ⟨7, none, .Round1 (b1 1)⟩,
     .deliver ⟨1, some 2, .Round3 (b3 1)⟩, .deliver ⟨3, none, .Round2 (b2 3)⟩, .proceed,
     .deliver ⟨1, none, .Round4 (b4 1)⟩] where
  noPick := by simp
  genuine := by
    intro m hm he
    simp only [List.mem_cons, Op.deliver.injEq, reduceCtorEq, List.not_mem_nil, or_false,
      false_or] at hm
    rcases hm with rfl | rfl | rfl | rfl | rfl | rfl | rfl | rfl | rfl | rfl | rfl
    case inr.inr.inr.inr.inr.inl => exact absurd he.2 (by simp [KeygenMsg.round])
    case inr.inr.inr.inr.inr.inr.inr.inl => exact absurd he.1 (by simp [peers, List.range'])
    all_goals exact rfl
  complete := by
    intro p hp
    have : peers 2 3 = [1, 3] := by decide
    rw [this] at hp
    simp only [List.mem_cons, List.not_mem_nil, or_false] at hp
    rcases hp with rfl | rfl <;> simp

/-- Party 2's state after its first `proceed` and party 1's first message. -/
theorem run_213 {s : State} (hnew : Keygen.new rnd 2 1 3 = .ok (s, .ok ())) :
    let h := (machine rnd).run s [.proceed, .deliver ⟨1, none, .Round1 (b1 1)⟩]
    h.panicked = false ∧ h.errors = [] ∧ h.outputs = [] ∧
    h.accepted = [⟨1, none, .Round1 (b1 1)⟩] ∧
    (machine rnd).current_round h.st = 1 ∧ (machine rnd).round_blame h.st = (1, [3]) := by
  unfold Keygen.new at hnew
  rw [if_neg (by decide), if_neg (by decide), if_neg (by decide), proceed_round_0 rfl,
    if_neg (by simp [Round0.is_expensive])] at hnew
  simp only [Except.ok.injEq, Prod.mk.injEq, and_true] at hnew
  subst hnew
  have e1 : ∃ r1 q, proceed_round rnd true
      { round := .Round0 ⟨2, 1, 3⟩
        msgs1 := some (Store.new _ false 2 3)
        msgs2 := some (Store.new _ false 2 3)
        msgs3 := some (Store.new _ true 2 3)
        msgs4 := some (Store.new _ false 2 3)
        msgs_queue := []
        party_i := 2
        party_n := 3 } = (
      { round := .Round1 r1
        msgs1 := some (Store.new _ false 2 3)
        msgs2 := some (Store.new _ false 2 3)
        msgs3 := some (Store.new _ true 2 3)
        msgs4 := some (Store.new _ false 2 3)
        msgs_queue := q
        party_i := 2
        party_n := 3 }, .ok ()) := by
    rw [proceed_round_0 rfl, if_pos (by simp)]
    simp only [Round0.proceed]
    rw [proceed_round_1_lit rfl, if_neg (by simp [wantsMore, Store.new, Store.wants_more])]
    exact ⟨_, _, rfl⟩
  obtain ⟨r1, q, e1⟩ := e1
  have e2 : ∀ st : Store KeyGenBroadcastMessage1, st.wants_more = true →
      proceed_round rnd false
      { round := .Round1 r1
        msgs1 := some st
        msgs2 := some (Store.new _ false 2 3)
        msgs3 := some (Store.new _ true 2 3)
        msgs4 := some (Store.new _ false 2 3)
        msgs_queue := q
        party_i := 2
        party_n := 3 } = (
      { round := .Round1 r1
        msgs1 := some st
        msgs2 := some (Store.new _ false 2 3)
        msgs3 := some (Store.new _ true 2 3)
        msgs4 := some (Store.new _ false 2 3)
        msgs_queue := q
        party_i := 2
        party_n := 3 }, .ok ()) := by
    intro st hst
    rw [proceed_round_1_lit rfl, if_neg (by simp [wantsMore, hst])]
  simp only [StateMachine.run, List.foldl_cons, List.foldl_nil, StateMachine.step, machine, e1,
    StateMachine.record, Bool.false_eq_true, if_false, handle_incoming]
  have e3 : (Store.new KeyGenBroadcastMessage1 false 2 3).push_msg ⟨1, none, b1 1⟩ =
      .ok ⟨2, false, [some (b1 1), none], 1⟩ := rfl
  rw [e3]
  simp only
  rw [e2 _ rfl]
  exact ⟨rfl, rfl, rfl, rfl, rfl, rfl⟩

/-- C21: in that state a message of party 3 is fresh, a second one of party 1 is not. -/
example {s : State} (hnew : Keygen.new rnd 2 1 3 = .ok (s, .ok ())) :
    let h := (machine rnd).run s [.proceed, .deliver ⟨1, none, .Round1 (b1 1)⟩]
    Fresh 2 3 h.accepted ⟨3, none, .Round1 (b1 3)⟩ ∧
    ¬ Fresh 2 3 h.accepted ⟨1, none, .Round1 (b1 3)⟩ := by
  obtain ⟨-, -, -, ha, -⟩ := run_213 rnd b1 hnew
  intro h
  simp only [Fresh, h, ha]
  refine ⟨⟨⟨by simp [peers, List.range'], by simp [KeygenMsg.round]⟩, by simp⟩, fun hc => ?_⟩
  exact hc.2 _ (List.mem_singleton.2 rfl) rfl rfl

/-- C23: the round waits for party 3 only. -/
example {s : State} (hnew : Keygen.new rnd 2 1 3 = .ok (s, .ok ())) :
    let h := (machine rnd).run s [.proceed, .deliver ⟨1, none, .Round1 (b1 1)⟩]
    h.panicked = false ∧ 1 ≤ (machine rnd).current_round h.st ∧
    (machine rnd).current_round h.st ≤ 4 := by
  obtain ⟨hp, -, -, -, hc, -⟩ := run_213 rnd b1 hnew
  intro h
  refine ⟨hp, ?_⟩
  show 1 ≤ (machine rnd).current_round _ ∧ (machine rnd).current_round _ ≤ 4
  rw [hc]; decide

end Examples

end

end Verif.Props
