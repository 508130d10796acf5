import Verif.Lemmas.RoundMachineProps
import Mathlib.Data.List.Nodup

/-! # What holds in every history of a machine that behaves like a round machine -/

namespace Verif.Proto

variable {P : Proto}

theorem finishStore_not_refuses {β ε : Type} {o : Option (Store β)} {e : SMError ε}
    (h : finishStore o = .err e) : e.refuses = false := by
  unfold finishStore at h
  cases o with
  | none => cases h; rfl
  | some s =>
    simp only at h
    cases hs : s.finish with
    | ok a => rw [hs] at h; cases h
    | err a => rw [hs] at h; cases h; rfl
    | panic => rw [hs] at h; cases h

/-- `proceed_round` never refuses anything. -/
theorem proceedRound_not_refuses {mb : Bool} {s : P.State} {e : SMError P.Er}
    (h : (P.proceedRound mb s).2 = .err e) : e.refuses = false := by
  have key : ∀ d (s : P.State), (match s.round with | .at k _ => P.K + 1 - k | .gone => 0) = d →
      (P.proceedRound mb s).2 = .err e → e.refuses = false := by
    intro d
    induction d using Nat.strong_induction_on with
    | _ d ih =>
      intro s hd h
      cases hs : s.round with
      | gone => rw [P.proceedRound_gone hs] at h; cases h
      | «at» k r =>
        rw [P.proceedRound_at hs] at h
        by_cases hr : P.ready mb s k = true
        · rw [if_pos hr] at h
          have hk : k ≤ P.K := by
            unfold ready at hr
            simp only [Bool.and_eq_true, decide_eq_true_eq] at hr
            exact hr.1.1
          cases ht : (P.take { s with round := .gone } k).2 with
          | ok ms =>
            simp only [ht] at h
            cases hf : P.fn k r ms with
            | ok ro =>
              simp only [hf] at h
              by_cases ha : P.again k = true
              · rw [if_pos ha] at h
                refine ih _ ?_ _ rfl h
                subst hd
                simp only [hs]
                omega
              · rw [if_neg ha] at h; cases h
            | err e' => simp only [hf] at h; cases h; rfl
            | panic => simp only [hf] at h; cases h
          | err e' =>
            simp only [ht] at h
            unfold take at ht
            by_cases h0 : k = 0
            · rw [if_pos h0] at ht; cases ht
            · rw [if_neg h0] at ht
              cases h
              exact finishStore_not_refuses ht
          | panic => simp only [ht] at h; cases h
        · rw [if_neg hr] at h; cases h
  exact key _ s rfl h

/-- The error of a refused message tells the current round and the message's round, exactly if the
store of that round was consumed. -/
theorem handle_late {s : P.State} {m : Msg P.Body} :
    s.stores m.body.1 = none ↔ P.handle s m =
      (s, .err (.ReceivedOutOfOrderMessage (P.currentRound s) (P.lateRound m.body.1))) := by
  constructor
  · intro h
    unfold handle
    rw [h]
  · intro h
    by_contra hc
    obtain ⟨st, hst⟩ := Option.ne_none_iff_exists'.1 hc
    unfold handle at h
    rw [hst] at h
    simp only at h
    cases hp : st.push_msg ⟨m.sender, m.receiver, m.body.2⟩ with
    | ok st' =>
      simp only [hp] at h
      have := proceedRound_not_refuses (P := P) (mb := false) (congrArg Prod.snd h)
      cases this
    | err e => simp only [hp] at h; cases h
    | panic => simp only [hp] at h; cases h

theorem handle_late_eq {s : P.State} {m : Msg P.Body} {a b : ℕ}
    (h : (P.handle s m).2 = .err (.ReceivedOutOfOrderMessage a b)) :
    s.stores m.body.1 = none ∧ a = P.currentRound s ∧ b = P.lateRound m.body.1 := by
  by_cases hs : s.stores m.body.1 = none
  · refine ⟨hs, ?_⟩
    rw [handle_late.1 hs] at h
    simp only [Res.err.injEq, SMError.ReceivedOutOfOrderMessage.injEq] at h
    exact ⟨h.1.symm, h.2.symm⟩
  · obtain ⟨st, hst⟩ := Option.ne_none_iff_exists'.1 hs
    unfold handle at h
    rw [hst] at h
    simp only at h
    cases hp : st.push_msg ⟨m.sender, m.receiver, m.body.2⟩ with
    | ok st' =>
      simp only [hp] at h
      have := proceedRound_not_refuses (P := P) (mb := false) h
      cases this
    | err e => simp only [hp] at h; cases h
    | panic => simp only [hp] at h; cases h

namespace Sim

variable {σ β : Type} {M : StateMachine σ β (P.St (P.K + 1)) P.Er} (S : P.Sim M)

/-- A machine's `handle_incoming` leaves the state alone when it refuses. -/
def KeepsOnRefusal (M : StateMachine σ β (P.St (P.K + 1)) P.Er) : Prop :=
  ∀ s m e, (M.handle_incoming s m).2 = .err e → e.refuses = true → (M.handle_incoming s m).1 = s

variable {s : σ} {me n : ℕ} {r0 : P.St 0}

/-- In every history there is a log with the invariant. -/
theorem inv (hs : S.abs s = P.init me n r0) (h1 : 1 ≤ me) (h2 : me ≤ n) (ops : List (Op β)) :
    ∃ L pos, P.Inv me n r0 (S.hist (M.run s ops)) L pos := by
  rw [← S.run, hs]
  exact P.run_inv r0 h1 h2 _

/-- The round of a message. -/
def rd (m : Msg β) : ℕ := (S.tagB m.body).1

/-- A message that is to be accepted after the messages `acc`. -/
def Fresh (me n : ℕ) (acc : List (Msg β)) (m : Msg β) : Prop :=
  1 ≤ S.rd m ∧ S.rd m ≤ P.K ∧ Addressed me n (P.p2p (S.rd m)) m.sender m.receiver ∧
    ∀ m' ∈ acc, S.rd m' = S.rd m → m'.sender ≠ m.sender

theorem fresh_iff_takes {L : P.Log} {acc : List (Msg β)} (h1 : 1 ≤ me) (h2 : me ≤ n)
    (hl : P.LogInv me n (acc.map (Msg.mapBody S.tagB)) L) (m : Msg β) :
    S.Fresh me n acc m ↔ P.Takes me n L (m.mapBody S.tagB) := by
  unfold Fresh Takes
  refine and_congr_right fun b1 => and_congr_right fun b2 => and_congr_right fun ha => ?_
  have hslot := (Store.slot_lt h1 h2 ha.pos ha.ne).2 ha.le
  constructor
  · intro h
    by_contra hc
    obtain ⟨b, hb⟩ := Option.ne_none_iff_exists'.1 hc
    have hm := (hl _).2 ⟨_, _, b, b1, b2, hslot, hb, rfl⟩
    obtain ⟨m', hm', e⟩ := List.mem_map.1 hm
    have e1 : S.rd m' = S.rd m := congrArg (fun x => x.body.1) e
    have e2 : m'.sender = m.sender := by
      have := congrArg Msg.sender e
      simp only [slotMsg, Msg.mapBody] at this
      rw [this, Store.owner_slot h1 ha.pos ha.ne]
    exact h m' hm' e1 e2
  · intro h m' hm' e1 e2
    obtain ⟨j, i, b, c1, c2, c3, c4, c5⟩ := (hl _).1 (List.mem_map.2 ⟨m', hm', rfl⟩)
    have f1 : S.rd m' = j := congrArg (fun x => x.body.1) c5
    have f2 : m'.sender = Store.owner me i := congrArg Msg.sender c5
    subst f1
    have h : L (S.rd m) (Store.slot me m.sender) = none := h
    rw [← e2, f2, Store.slot_owner] at h
    have : L (S.rd m') i = none := by rw [e1]; exact h
    rw [c4] at this
    cases this

theorem handle_hist (h : History σ β (P.St (P.K + 1)) P.Er) (m : Msg β) :
    (P.handle (S.hist h).st (m.mapBody S.tagB)).2 = (M.handle_incoming h.st m).2 := by
  have := S.handle h.st m
  rw [show (S.hist h).st = S.abs h.st from rfl, this]

/-- A fresh message is taken. -/
theorem deliver_fresh (hs : S.abs s = P.init me n r0) (h1 : 1 ≤ me) (h2 : me ≤ n) (ops : List (Op β))
    (hp : (M.run s ops).panicked = false) {m : Msg β} (hm : S.Fresh me n (M.run s ops).accepted m) :
    (M.run s (ops ++ [.deliver m])).accepted = (M.run s ops).accepted ++ [m] ∧
    (∀ e, (M.handle_incoming (M.run s ops).st m).2 = .err e → e.refuses = false) := by
  obtain ⟨L, pos, hi⟩ := S.inv hs h1 h2 ops
  have ht := (S.fresh_iff_takes h1 h2 hi.log m).1 hm
  constructor
  · have := (P.step_taken h1 h2 hi hp ht).2
    have e : M.run s (ops ++ [.deliver m]) = M.step (M.run s ops) (.deliver m) := by
      unfold StateMachine.run; rw [List.foldl_append]; rfl
    rw [e]
    have e2 := S.step (M.run s ops) (.deliver m)
    rw [show S.op (.deliver m) = .deliver (m.mapBody S.tagB) from rfl] at e2
    rw [e2] at this
    have e3 : ((M.step (M.run s ops) (.deliver m)).accepted.map (Msg.mapBody S.tagB)) =
        ((M.run s ops).accepted ++ [m]).map (Msg.mapBody S.tagB) := by
      rw [List.map_append]; exact this
    exact (List.map_injective_iff.2 (fun _ _ h => S.mapBody_inj h)) e3
  · intro e he
    rw [← S.handle_hist] at he
    obtain ⟨s', e1, -⟩ := P.handle_taken h1 h2 hi.stores ht
    rw [e1] at he
    exact proceedRound_not_refuses he

/-- Any other message is refused and changes nothing. -/
theorem deliver_refused (hk : KeepsOnRefusal M) (hs : S.abs s = P.init me n r0) (h1 : 1 ≤ me)
    (h2 : me ≤ n) (ops : List (Op β)) {m : Msg β} (hm : ¬ S.Fresh me n (M.run s ops).accepted m) :
    (∃ e, M.handle_incoming (M.run s ops).st m = ((M.run s ops).st, .err e) ∧ e.refuses = true) ∧
    M.run s (ops ++ [.deliver m]) = M.run s ops := by
  obtain ⟨L, pos, hi⟩ := S.inv hs h1 h2 ops
  have ht : ¬ P.Takes me n L (m.mapBody S.tagB) :=
    fun h => hm ((S.fresh_iff_takes h1 h2 hi.log m).2 h)
  obtain ⟨e, he, hh⟩ := P.handle_refused h1 h2 hi.stores ht
  have hres : (M.handle_incoming (M.run s ops).st m).2 = .err e := by
    rw [← S.handle_hist, hh]
  have hst := hk _ _ _ hres he
  have hcall : M.handle_incoming (M.run s ops).st m = ((M.run s ops).st, .err e) :=
    Prod.ext hst hres
  refine ⟨⟨e, hcall, he⟩, ?_⟩
  have e : M.run s (ops ++ [.deliver m]) = M.step (M.run s ops) (.deliver m) := by
    unfold StateMachine.run; rw [List.foldl_append]; rfl
  rw [e]
  unfold StateMachine.step
  split
  · rfl
  · simp only [hcall, StateMachine.record, StateMachine.takes, he]
    simp

/-- The accepted messages are well addressed, at most one for each round and sender. -/
theorem accepted_spec (hs : S.abs s = P.init me n r0) (h1 : 1 ≤ me) (h2 : me ≤ n)
    (ops : List (Op β)) :
    (∀ m ∈ (M.run s ops).accepted, 1 ≤ S.rd m ∧ S.rd m ≤ P.K ∧
      Addressed me n (P.p2p (S.rd m)) m.sender m.receiver) ∧
    (∀ m ∈ (M.run s ops).accepted, ∀ m' ∈ (M.run s ops).accepted,
      S.rd m = S.rd m' → m.sender = m'.sender → m = m') := by
  obtain ⟨L, pos, hi⟩ := S.inv hs h1 h2 ops
  constructor
  · intro m hm
    obtain ⟨j, i, b, c1, c2, c3, c4, c5⟩ := (hi.log _).1 (List.mem_map.2 ⟨m, hm, rfl⟩)
    have f1 : S.rd m = j := congrArg (fun x => x.body.1) c5
    have f2 : m.sender = Store.owner me i := congrArg Msg.sender c5
    have f3 : m.receiver = if P.p2p j then some me else none := congrArg Msg.receiver c5
    rw [f1]
    exact ⟨c1, c2, by rw [f2]; exact Store.owner_pos, by rw [f2]; exact Store.owner_le c3,
      by rw [f2]; exact Store.owner_ne, f3⟩
  · intro m hm m' hm' e1 e2
    obtain ⟨j, i, b, c1, c2, c3, c4, c5⟩ := (hi.log _).1 (List.mem_map.2 ⟨m, hm, rfl⟩)
    obtain ⟨j', i', b', d1, d2, d3, d4, d5⟩ := (hi.log _).1 (List.mem_map.2 ⟨m', hm', rfl⟩)
    have f1 : S.rd m = j := congrArg (fun x => x.body.1) c5
    have f2 : m.sender = Store.owner me i := congrArg Msg.sender c5
    have f1' : S.rd m' = j' := congrArg (fun x => x.body.1) d5
    have f2' : m'.sender = Store.owner me i' := congrArg Msg.sender d5
    have ej : j = j' := by rw [← f1, ← f1', e1]
    have ei : i = i' := Store.owner_inj (by rw [← f2, ← f2', e2])
    subst ej ei
    rw [c4, Option.some.injEq] at d4
    subst d4
    exact S.mapBody_inj (c5.trans d5.symm)

/-- At most one output is ever handed out, and none after a failure. -/
theorem outputs_spec (hs : S.abs s = P.init me n r0) (h1 : 1 ≤ me) (h2 : me ≤ n)
    (ops : List (Op β)) :
    (M.run s ops).outputs.length ≤ 1 ∧
    ((M.run s ops).outputs ≠ [] → ∀ e ∈ (M.run s ops).errors, e = .DoublePickOutput) := by
  obtain ⟨L, pos, hi⟩ := S.inv hs h1 h2 ops
  cases hi.phase with
  | running r hp hr hle hc he ho =>
    have ho : (M.run s ops).outputs = [] := ho
    rw [ho]
    simp
  | failed k rk e m hp hr hpos hk hc hc' he ho =>
    have ho : (M.run s ops).outputs = [] := ho
    rw [ho]
    simp
  | panicked k rk hp hpos hk hc hc' he ho =>
    have ho : (M.run s ops).outputs = [] := ho
    rw [ho]
    simp
  | picked o m hp hr hpos hc he ho =>
    have ho : (M.run s ops).outputs = [o] := ho
    have he : (M.run s ops).errors = List.replicate m .DoublePickOutput := he
    rw [ho, he]
    exact ⟨by simp, fun _ e he => (List.mem_replicate.1 he).2⟩

/-- `pick_output` after an output or a failure. -/
theorem pick_again (hs : S.abs s = P.init me n r0) (h1 : 1 ≤ me) (h2 : me ≤ n)
    (ops : List (Op β)) (hp : (M.run s ops).panicked = false)
    (hne : (M.run s ops).outputs ≠ [] ∨ (M.run s ops).errors ≠ []) :
    (M.pick_output (M.run s ops).st).2 = some (.err .DoublePickOutput) := by
  obtain ⟨L, pos, hi⟩ := S.inv hs h1 h2 ops
  have hpick : (P.pick (S.abs (M.run s ops).st)).2 = (M.pick_output (M.run s ops).st).2 := by
    rw [S.pick]
  have hgone : (S.hist (M.run s ops)).st.round = .gone := by
    cases hi.phase with
    | running r hp hr hle hc he ho =>
      have ho : (M.run s ops).outputs = [] := ho
      have he : (M.run s ops).errors = [] := he
      rw [ho, he] at hne
      simp at hne
    | failed k rk e m hp hr hpos hk hc hc' he ho => exact hr
    | panicked k rk hp' hpos hk hc hc' he ho =>
      have hp' : (M.run s ops).panicked = true := hp'
      rw [hp'] at hp; cases hp
    | picked o m hp hr hpos hc he ho => exact hr
  rw [← hpick]
  unfold Proto.pick
  rw [show (S.abs (M.run s ops).st).round = .gone from hgone]

/-- With all messages of a round in, there is one accepted message of each peer. -/
theorem body_of_full {L : P.Log} {acc : List (Msg P.Body)} (hn : 2 ≤ n) (hl : P.LogInv me n acc L)
    {j : ℕ} (j1 : 1 ≤ j) (j2 : j ≤ P.K) (hfull : P.Full n L j) :
    ∃ body : ℕ → P.Bd j,
      (∀ s ∈ others me n,
        (⟨s, if P.p2p j then some me else none, ⟨j, body s⟩⟩ : Msg P.Body) ∈ acc) ∧
      P.vecs n L j = (others me n).map body := by
  obtain ⟨d, -⟩ := Option.isSome_iff_exists.1 (hfull 0 (by omega))
  have hget : ∀ i < n - 1, L j i = some ((L j i).getD d) := by
    intro i hi
    obtain ⟨b, hb⟩ := Option.isSome_iff_exists.1 (hfull i hi)
    rw [hb]; rfl
  refine ⟨fun s => (L j (Store.slot me s)).getD d, ?_, ?_⟩
  · intro s hs
    obtain ⟨i, hi, rfl⟩ := List.mem_map.1 hs
    rw [List.mem_range] at hi
    simp only [Store.slot_owner]
    exact (hl _).2 ⟨j, i, _, j1, j2, hi, hget i hi, rfl⟩
  · unfold vecs others
    rw [List.map_map]
    have key : ∀ l : List ℕ, (∀ i ∈ l, i < n - 1) → l.filterMap (L j) =
        l.map ((fun s => (L j (Store.slot me s)).getD d) ∘ Store.owner me) := by
      intro l
      induction l with
      | nil => intro _; rfl
      | cons i l ih =>
        intro hl'
        rw [List.filterMap_cons_some (hget i (hl' i (by simp))), List.map_cons,
          ih (fun k hk => hl' k (by simp [hk]))]
        simp only [Function.comp, Store.slot_owner]
    exact key _ (by simp)

/-- With all messages in, there is one accepted message for each round and peer. -/
theorem bodies_of_full {L : P.Log} {acc : List (Msg P.Body)} (hn : 2 ≤ n)
    (hne : ∀ j, j = 0 ∨ P.K < j → Nonempty (P.Bd j)) (hl : P.LogInv me n acc L)
    (hfull : ∀ j, 1 ≤ j → j ≤ P.K → P.Full n L j) :
    ∃ body : (j : ℕ) → ℕ → P.Bd j,
      ∀ j, 1 ≤ j → j ≤ P.K →
        (∀ s ∈ others me n,
          (⟨s, if P.p2p j then some me else none, ⟨j, body j s⟩⟩ : Msg P.Body) ∈ acc) ∧
        P.vecs n L j = (others me n).map (body j) := by
  have h : ∀ j, ∃ body : ℕ → P.Bd j, 1 ≤ j → j ≤ P.K →
      (∀ s ∈ others me n,
        (⟨s, if P.p2p j then some me else none, ⟨j, body s⟩⟩ : Msg P.Body) ∈ acc) ∧
      P.vecs n L j = (others me n).map body := by
    intro j
    by_cases hj : 1 ≤ j ∧ j ≤ P.K
    · obtain ⟨body, h1, h2⟩ := body_of_full hn hl hj.1 hj.2 (hfull j hj.1 hj.2)
      exact ⟨body, fun _ _ => ⟨h1, h2⟩⟩
    · obtain ⟨d⟩ := hne j (by omega)
      exact ⟨fun _ => d, fun a b => absurd ⟨a, b⟩ hj⟩
  exact ⟨fun j => (h j).choose, fun j => (h j).choose_spec⟩

/-- `round_blame` lists exactly the peers whose message is missing. -/
theorem blame_spec (hs : S.abs s = P.init me n r0) (h1 : 1 ≤ me) (h2 : me ≤ n)
    (ops : List (Op β)) (hp : (M.run s ops).panicked = false)
    (hc1 : 1 ≤ M.current_round (M.run s ops).st) (hc2 : M.current_round (M.run s ops).st ≤ P.K) :
    (∀ p, p ∈ (M.round_blame (M.run s ops).st).2 ↔ 1 ≤ p ∧ p ≤ n ∧ p ≠ me ∧
      ∀ m ∈ (M.run s ops).accepted, S.rd m = M.current_round (M.run s ops).st → m.sender ≠ p) ∧
    (M.round_blame (M.run s ops).st).2.Nodup ∧
    (M.round_blame (M.run s ops).st).1 = (M.round_blame (M.run s ops).st).2.length := by
  obtain ⟨L, pos, hi⟩ := S.inv hs h1 h2 ops
  rw [S.current] at hc1 hc2 ⊢
  rw [S.blame]
  have hrun : ∃ r, (S.abs (M.run s ops).st).round = .at pos r := by
    cases hi.phase with
    | running r hp hr hle hc he ho => exact ⟨r, hr⟩
    | failed k rk e m hp hr hpos hk hc hc' he ho =>
      have hr : (S.abs (M.run s ops).st).round = .gone := hr
      unfold currentRound at hc2
      rw [hr] at hc2
      exact absurd hc2 (by simp)
    | panicked k rk hp' hpos hk hc hc' he ho =>
      have hp' : (M.run s ops).panicked = true := hp'
      rw [hp'] at hp; cases hp
    | picked o m hp hr hpos hc he ho =>
      have hr : (S.abs (M.run s ops).st).round = .gone := hr
      unfold currentRound at hc2
      rw [hr] at hc2
      exact absurd hc2 (by simp)
  obtain ⟨r, hr⟩ := hrun
  have hcur : P.currentRound (S.abs (M.run s ops).st) = pos := by
    unfold currentRound; rw [hr]
  rw [hcur] at hc1 hc2 ⊢
  have hbl : P.blame (S.abs (M.run s ops).st) = blameOf ((S.abs (M.run s ops).st).stores pos) := by
    unfold Proto.blame; rw [hr]; simp only; rw [if_neg (by omega)]
  rw [hbl]
  obtain ⟨st, est, hh⟩ := hi.stores.live pos hc1 hc2 le_rfl
  have est : (S.abs (M.run s ops).st).stores pos = some st := est
  rw [est]
  simp only [blameOf, Store.blame_eq hh]
  refine ⟨?_, ?_, trivial⟩
  · intro p
    simp only [List.mem_map, List.mem_filter, List.mem_range, Option.isNone_iff_eq_none]
    constructor
    · rintro ⟨i, ⟨hin, hl⟩, rfl⟩
      refine ⟨Store.owner_pos, Store.owner_le hin, Store.owner_ne, ?_⟩
      intro m hm e1 e2
      obtain ⟨j, i', b, c1, c2, c3, c4, c5⟩ := (hi.log _).1 (List.mem_map.2 ⟨m, hm, rfl⟩)
      have f1 : S.rd m = j := congrArg (fun x => x.body.1) c5
      have f2 : m.sender = Store.owner me i' := congrArg Msg.sender c5
      have ej : j = pos := f1 ▸ e1
      subst ej
      have ei : i' = i := Store.owner_inj (by rw [← f2, e2])
      subst ei
      rw [c4] at hl
      cases hl
    · rintro ⟨p1, p2, p3, hno⟩
      have hslot := (Store.slot_lt h1 h2 p1 p3).2 p2
      refine ⟨Store.slot me p, ⟨hslot, ?_⟩, Store.owner_slot h1 p1 p3⟩
      by_contra hc
      obtain ⟨b, hb⟩ := Option.ne_none_iff_exists'.1 hc
      have hm := (hi.log _).2 ⟨_, _, b, hc1, hc2, hslot, hb, rfl⟩
      obtain ⟨m', hm', e⟩ := List.mem_map.1 hm
      have e1 : S.rd m' = pos := congrArg (fun x => x.body.1) e
      have e2 : m'.sender = p := by
        have := congrArg Msg.sender e
        simp only [slotMsg, Msg.mapBody] at this
        rw [this, Store.owner_slot h1 p1 p3]
      exact hno m' hm' e1 e2
  · refine List.Nodup.map (fun _ _ h => Store.owner_inj h) ?_
    exact List.Nodup.filter _ List.nodup_range

/-- Outside of the rounds that wait for messages, nobody is blamed. -/
theorem blame_none (hs : S.abs s = P.init me n r0) (h1 : 1 ≤ me) (h2 : me ≤ n)
    (ops : List (Op β)) (hp : (M.run s ops).panicked = false)
    (hc : M.current_round (M.run s ops).st = 0 ∨ P.K < M.current_round (M.run s ops).st) :
    M.round_blame (M.run s ops).st = (0, []) := by
  obtain ⟨L, pos, hi⟩ := S.inv hs h1 h2 ops
  rw [S.current] at hc
  rw [S.blame]
  have hgone : (S.abs (M.run s ops).st).round = .gone →
      P.blame (S.abs (M.run s ops).st) = (0, []) := by
    intro h; unfold Proto.blame; rw [h]
  cases hi.phase with
  | failed k rk e m hp hr => exact hgone hr
  | picked o m hp hr => exact hgone hr
  | panicked k rk hp' =>
    have hp' : (M.run s ops).panicked = true := hp'
    rw [hp'] at hp; cases hp
  | running r hp hr hle =>
    have hr : (S.abs (M.run s ops).st).round = .at pos r := hr
    unfold currentRound at hc
    rw [hr] at hc
    simp only at hc
    unfold Proto.blame
    rw [hr]
    simp only
    have hnone : ∀ j, (j = 0 ∨ P.K < j ∨ j < pos) →
        (S.abs (M.run s ops).st).stores j = none := by
      intro j hj
      by_cases ho : j = 0 ∨ P.K < j
      · exact hi.stores.outside j ho
      · exact (hi.stores.gone j (by omega) (by omega)).1
    by_cases hk : pos = P.K + 1
    · have : (S.abs (M.run s ops).st).stores P.lastBlame = none := hnone _ (by omega)
      rw [if_pos hk, this]; rfl
    · have : (S.abs (M.run s ops).st).stores pos = none := hnone _ (by omega)
      rw [if_neg hk, this]; rfl

/-- A late message's error names the current round and the message's round; it is returned only if
every peer's message of that round was already accepted. -/
theorem late_spec (hs : S.abs s = P.init me n r0) (h1 : 1 ≤ me) (h2 : me ≤ n)
    (ops : List (Op β)) {m : Msg β} (hm : 1 ≤ S.rd m ∧ S.rd m ≤ P.K) {a b : ℕ}
    (h : (M.handle_incoming (M.run s ops).st m).2 = .err (.ReceivedOutOfOrderMessage a b)) :
    a = M.current_round (M.run s ops).st ∧ b = P.lateRound (S.rd m) ∧
    ∀ p, 1 ≤ p → p ≤ n → p ≠ me →
      ∃ m' ∈ (M.run s ops).accepted, S.rd m' = S.rd m ∧ m'.sender = p := by
  obtain ⟨L, pos, hi⟩ := S.inv hs h1 h2 ops
  rw [← S.handle_hist] at h
  obtain ⟨e1, e2, e3⟩ := handle_late_eq h
  refine ⟨by rw [e2, S.current]; rfl, e3, ?_⟩
  intro p p1 p2 p3
  have hpos : S.rd m < pos := by
    by_contra hc
    obtain ⟨st, hst, -⟩ := hi.stores.live (S.rd m) hm.1 hm.2 (by omega)
    have e1 : (S.hist (M.run s ops)).st.stores (S.rd m) = none := e1
    rw [e1] at hst
    cases hst
  have hslot := (Store.slot_lt h1 h2 p1 p3).2 p2
  obtain ⟨b, hb⟩ := Option.isSome_iff_exists.1 ((hi.stores.gone _ hm.1 hpos).2 _ hslot)
  have hmem := (hi.log _).2 ⟨_, _, b, hm.1, hm.2, hslot, hb, rfl⟩
  obtain ⟨m', hm', e⟩ := List.mem_map.1 hmem
  refine ⟨m', hm', congrArg (fun x => x.body.1) e, ?_⟩
  have := congrArg Msg.sender e
  simp only [slotMsg, Msg.mapBody] at this
  rw [this, Store.owner_slot h1 p1 p3]

/-- A message of a round before the current one is reported as late. -/
theorem late_of_before (hs : S.abs s = P.init me n r0) (h1 : 1 ≤ me) (h2 : me ≤ n)
    (ops : List (Op β)) (hp : (M.run s ops).panicked = false)
    (hne : (M.run s ops).errors = []) (hno : (M.run s ops).outputs = []) {m : Msg β}
    (hm : 1 ≤ S.rd m) (hlt : S.rd m < M.current_round (M.run s ops).st) :
    (M.handle_incoming (M.run s ops).st m).2 =
      .err (.ReceivedOutOfOrderMessage (M.current_round (M.run s ops).st) (P.lateRound (S.rd m))) := by
  obtain ⟨L, pos, hi⟩ := S.inv hs h1 h2 ops
  rw [S.current] at hlt ⊢
  have hcur : P.currentRound (S.abs (M.run s ops).st) = pos := by
    cases hi.phase with
    | running r hp hr hle hc he ho =>
      have hr : (S.abs (M.run s ops).st).round = .at pos r := hr
      unfold currentRound; rw [hr]
    | failed k rk e m hp hr hpos hk hc hc' he ho =>
      have he : (M.run s ops).errors = _ := he
      rw [hne] at he; cases he
    | panicked k rk hp' hpos hk hc hc' he ho =>
      have hp' : (M.run s ops).panicked = true := hp'
      rw [hp'] at hp; cases hp
    | picked o m hp hr hpos hc he ho =>
      have ho : (M.run s ops).outputs = _ := ho
      rw [hno] at ho; cases ho
  rw [hcur] at hlt
  have hst := (hi.stores.gone _ hm hlt).1
  rw [← S.handle_hist]
  rw [handle_late.1 (show (S.hist (M.run s ops)).st.stores (m.mapBody S.tagB).body.1 = none from hst)]
  rfl

/-- A returned output is the straight-line execution's result on accepted messages. -/
theorem output_spec (hs : S.abs s = P.init me n r0) (h1 : 1 ≤ me) (h2 : me ≤ n) (hn : 2 ≤ n)
    (hne : ∀ j, j = 0 ∨ P.K < j → Nonempty (P.Bd j)) (ops : List (Op β)) {o : P.St (P.K + 1)} (ho : o ∈ (M.run s ops).outputs) :
    ∃ body : (j : ℕ) → ℕ → P.Bd j,
      (∀ j, 1 ≤ j → j ≤ P.K → ∀ p ∈ others me n,
        (⟨p, if P.p2p j then some me else none, ⟨j, body j p⟩⟩ : Msg P.Body) ∈
          (M.run s ops).accepted.map (Msg.mapBody S.tagB)) ∧
      P.script r0 (fun j => (others me n).map (body j)) (P.K + 1) =
        ((M.sent (M.run s ops)).map (Msg.mapBody S.tagB), .ok o) := by
  obtain ⟨L, pos, hi⟩ := S.inv hs h1 h2 ops
  have ho' : o ∈ (S.hist (M.run s ops)).outputs := ho
  cases hi.phase with
  | running r hp hr hle hc he ho => rw [ho] at ho'; simp at ho'
  | failed k rk e m hp hr hpos hk hc hc' he ho => rw [ho] at ho'; simp at ho'
  | panicked k rk hp hpos hk hc hc' he ho => rw [ho] at ho'; simp at ho'
  | picked o' m hp hr hpos hc he ho =>
    rw [ho, List.mem_singleton] at ho'
    subst ho'
    have hfull : ∀ j, 1 ≤ j → j ≤ P.K → P.Full n L j :=
      fun j j1 j2 => (hi.stores.gone j j1 (by omega)).2
    obtain ⟨body, hb⟩ := bodies_of_full hn hne hi.log hfull
    refine ⟨body, fun j j1 j2 => (hb j j1 j2).1, ?_⟩
    rw [← P.script_congr (v := P.vecs n L) (fun j j1 j2 => (hb j j1 (by omega)).2), ← S.sent]
    exact P.script_of_straight hc

/-- A panic happens in a round whose earlier rounds all succeeded on accepted messages. -/
theorem panic_spec (hs : S.abs s = P.init me n r0) (h1 : 1 ≤ me) (h2 : me ≤ n) (hn : 2 ≤ n)
    (ops : List (Op β)) (hp : (M.run s ops).panicked = true) :
    ∃ k ≤ P.K, ∃ v : (j : ℕ) → List (P.Bd j),
      (∀ j, 1 ≤ j → j ≤ k → ∃ body : ℕ → P.Bd j, v j = (others me n).map body ∧
        ∀ p ∈ others me n, (⟨p, if P.p2p j then some me else none, ⟨j, body p⟩⟩ : Msg P.Body) ∈
          (M.run s ops).accepted.map (Msg.mapBody S.tagB)) ∧
      ∃ r, P.straight r0 v k = .ok (r, (M.sent (M.run s ops)).map (Msg.mapBody S.tagB)) ∧
        P.fn k r (if k = 0 then [] else v k) = .panic := by
  obtain ⟨L, pos, hi⟩ := S.inv hs h1 h2 ops
  cases hi.phase with
  | running r hp' hr hle hc he ho =>
    have hp' : (M.run s ops).panicked = false := hp'
    rw [hp] at hp'; cases hp'
  | failed k rk e m hp' hr hpos hk hc hc' he ho =>
    have hp' : (M.run s ops).panicked = false := hp'
    rw [hp] at hp'; cases hp'
  | picked o' m hp' hr hpos hc he ho =>
    have hp' : (M.run s ops).panicked = false := hp'
    rw [hp] at hp'; cases hp'
  | panicked k rk hp' hpos hk hc hc' he ho =>
    refine ⟨k, hk, P.vecs n L, ?_, rk, ?_, ?_⟩
    · intro j j1 j2
      obtain ⟨body, b1, b2⟩ := body_of_full hn hi.log j1 (by omega)
        (hi.stores.gone j j1 (by omega)).2
      exact ⟨body, b2, b1⟩
    · rw [hc, ← S.sent]
    · unfold straight at hc'
      rw [hc, Res.bind_ok, Res.bind_eq_panic] at hc'
      rcases hc' with h | ⟨_, -, h⟩
      · exact h
      · cases h

end Sim
end Verif.Proto
