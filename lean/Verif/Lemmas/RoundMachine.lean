import Verif.Model.RoundMachine
import Verif.Lemmas.Store

/-! # The round machine computes the straight-line execution, for every history of calls -/

namespace Verif.Proto

variable (P : Proto)

/-- The accepted message bodies, by round and slot. -/
abbrev Log := (j : ℕ) → ℕ → Option (P.Bd j)

/-- The message vectors given by a log. -/
def vecs (n : ℕ) (L : P.Log) (j : ℕ) : List (P.Bd j) := (List.range (n - 1)).filterMap (L j)

/-- All messages of round `j` are in. -/
def Full (n : ℕ) (L : P.Log) (j : ℕ) : Prop := ∀ i < n - 1, (L j i).isSome

/-- The stores of rounds below `pos` are consumed and were full, the others hold the log. -/
structure StoresInv (me n : ℕ) (stores : (k : ℕ) → Option (Store (P.Bd k))) (L : P.Log)
    (pos : ℕ) : Prop where
  outside : ∀ j, j = 0 ∨ P.K < j → stores j = none
  gone : ∀ j, 1 ≤ j → j < pos → stores j = none ∧ P.Full n L j
  live : ∀ j, 1 ≤ j → j ≤ P.K → pos ≤ j →
    ∃ st, stores j = some st ∧ st.Holds me n (P.p2p j) (L j)

theorem straight_congr {r0 : P.St 0} {v v' : (k : ℕ) → List (P.Bd k)} {k : ℕ}
    (h : ∀ j, 1 ≤ j → j < k → v j = v' j) : P.straight r0 v k = P.straight r0 v' k := by
  induction k with
  | zero => rfl
  | succ k ih =>
    unfold straight
    rw [ih (fun j h1 h2 => h j h1 (by omega))]
    by_cases hk : k = 0
    · simp only [hk, if_true]
    · simp only [if_neg hk, h k (by omega) (by omega)]

theorem proceedRound_at {mb : Bool} {s : P.State} {k : ℕ} {r : P.St k} (hr : s.round = .at k r) :
    P.proceedRound mb s =
      if P.ready mb s k = true then
        match (P.take { s with round := .gone } k).2 with
        | .ok ms =>
          match P.fn k r ms with
          | .ok ro =>
            let s3 : P.State :=
              { (P.take { s with round := .gone } k).1 with
                round := .at (k + 1) ro.1
                queue := (P.take { s with round := .gone } k).1.queue ++
                  ro.2.map (P.tag (k + 1)) }
            if P.again k then P.proceedRound mb s3 else (s3, .ok ())
          | .err e => ((P.take { s with round := .gone } k).1, .err (.ProceedRound e))
          | .panic => ((P.take { s with round := .gone } k).1, .panic)
        | .err e => ((P.take { s with round := .gone } k).1, .err e)
        | .panic => ((P.take { s with round := .gone } k).1, .panic)
      else (s, .ok ()) := by
  obtain ⟨round, stores, queue⟩ := s
  simp only at hr
  subst hr
  rw [proceedRound]
  simp only [dite_eq_ite]
  by_cases hr : P.ready mb ⟨.at k r, stores, queue⟩ k = true
  · rw [if_pos hr, if_pos hr]
    cases (P.take ⟨.gone, stores, queue⟩ k).2 with
    | ok ms =>
      simp only
      cases P.fn k r ms <;> rfl
    | err e => rfl
    | panic => rfl
  · rw [if_neg hr, if_neg hr]

theorem proceedRound_gone {mb : Bool} {s : P.State} (hr : s.round = .gone) :
    P.proceedRound mb s = (s, .ok ()) := by
  obtain ⟨round, stores, queue⟩ := s
  simp only at hr
  subst hr
  rw [proceedRound]

theorem ready_iff {me n : ℕ} {mb : Bool} {s : P.State} {L : P.Log} {pos : ℕ}
    (hs : P.StoresInv me n s.stores L pos) :
    P.ready mb s pos = true ↔
      pos ≤ P.K ∧ (1 ≤ pos → P.Full n L pos) ∧ (P.expensive pos = true → mb = true) := by
  unfold ready
  simp only [Bool.and_eq_true, decide_eq_true_eq, Bool.not_eq_true', Bool.or_eq_true]
  have h3 : (P.expensive pos = false ∨ mb = true) ↔ (P.expensive pos = true → mb = true) := by
    cases P.expensive pos <;> simp
  rw [h3]
  by_cases hp : pos ≤ P.K
  · by_cases h1 : 1 ≤ pos
    · obtain ⟨st, e, hh⟩ := hs.live pos h1 hp le_rfl
      have : wantsMore (s.stores pos) = false ↔ P.Full n L pos := by
        rw [e]
        simp only [wantsMore]
        rw [← Bool.not_eq_true, Store.wants_more_iff hh]
        simp only [not_exists, not_and, Full, Option.isSome_iff_ne_none]
      simp [this, hp, h1]
    · have : s.stores pos = none := hs.outside pos (Or.inl (by omega))
      simp [this, wantsMore, hp, h1]
  · simp [hp]

theorem take_spec {me n : ℕ} {s : P.State} {L : P.Log} {pos : ℕ}
    (hs : P.StoresInv me n s.stores L pos) (hp : pos ≤ P.K) (hf : 1 ≤ pos → P.Full n L pos) :
    (P.take s pos).2 = .ok (if pos = 0 then [] else P.vecs n L pos) ∧
    P.StoresInv me n (P.take s pos).1.stores L (pos + 1) ∧
    (P.take s pos).1.queue = s.queue ∧ (P.take s pos).1.round = s.round := by
  unfold take
  by_cases h0 : pos = 0
  · subst h0
    simp only [if_true]
    refine ⟨trivial, ⟨hs.outside, fun j h1 h2 => by omega, fun j h1 h2 _ => hs.live j h1 h2 (by omega)⟩,
      trivial, trivial⟩
  · simp only [if_neg h0]
    obtain ⟨st, e, hh⟩ := hs.live pos (by omega) hp le_rfl
    have hf' := hf (by omega)
    refine ⟨?_, ⟨?_, ?_, ?_⟩, trivial, trivial⟩
    · rw [e]
      simp only [finishStore, Store.finish_eq hh hf', Res.mapErr_ok, vecs]
    · intro j hj
      by_cases ej : j = pos
      · subst ej; simp
      · rw [Function.update_of_ne ej]; exact hs.outside j hj
    · intro j h1 h2
      by_cases ej : j = pos
      · subst ej; simpa using hf'
      · rw [Function.update_of_ne ej]; exact hs.gone j h1 (by omega)
    · intro j h1 h2 h3
      rw [Function.update_of_ne (by omega)]
      exact hs.live j h1 h2 (by omega)

/-- What `proceedRound` does in a state that agrees with the straight-line execution. -/
theorem proceedRound_spec {me n : ℕ} {r0 : P.St 0} {mb : Bool} {s : P.State} {pos : ℕ}
    {r : P.St pos} {L : P.Log} {D : List (Msg P.Body)}
    (hr : s.round = .at pos r) (hp : pos ≤ P.K + 1) (hs : P.StoresInv me n s.stores L pos)
    (hc : P.straight r0 (P.vecs n L) pos = .ok (r, D ++ s.queue)) :
    ∃ pos', pos ≤ pos' ∧ P.StoresInv me n (P.proceedRound mb s).1.stores L pos' ∧
      ((∃ r', (P.proceedRound mb s).2 = .ok () ∧ (P.proceedRound mb s).1.round = .at pos' r' ∧
          pos' ≤ P.K + 1 ∧
          P.straight r0 (P.vecs n L) pos' = .ok (r', D ++ (P.proceedRound mb s).1.queue) ∧
          (P.ready mb (P.proceedRound mb s).1 pos' = false ∨
            pos < pos' ∧ P.again (pos' - 1) = false)) ∨
        (∃ k rk e, (P.proceedRound mb s).2 = .err (.ProceedRound e) ∧
          (P.proceedRound mb s).1.round = .gone ∧ pos' = k + 1 ∧ k ≤ P.K ∧
          P.straight r0 (P.vecs n L) k = .ok (rk, D ++ (P.proceedRound mb s).1.queue) ∧
          P.straight r0 (P.vecs n L) (k + 1) = .err e) ∨
        (∃ k rk, (P.proceedRound mb s).2 = .panic ∧
          (P.proceedRound mb s).1.round = .gone ∧ pos' = k + 1 ∧ k ≤ P.K ∧
          P.straight r0 (P.vecs n L) k = .ok (rk, D ++ (P.proceedRound mb s).1.queue) ∧
          P.straight r0 (P.vecs n L) (k + 1) = .panic)) := by
  induction hd : P.K + 1 - pos generalizing s pos with
  | zero =>
    have hnr : ¬ P.ready mb s pos = true := by
      rw [P.ready_iff hs]; omega
    rw [P.proceedRound_at hr, if_neg hnr]
    exact ⟨pos, le_rfl, hs, Or.inl ⟨r, rfl, hr, hp, hc, Or.inl (by simpa using hnr)⟩⟩
  | succ d ih =>
    rw [P.proceedRound_at hr]
    by_cases hready : P.ready mb s pos = true
    · rw [if_pos hready]
      obtain ⟨hk, hf, -⟩ := (P.ready_iff hs).1 hready
      obtain ⟨t1, t2, t3, t4⟩ := P.take_spec (s := { s with round := .gone }) hs hk hf
      have hst : P.straight r0 (P.vecs n L) (pos + 1) =
          (P.fn pos r (if pos = 0 then [] else P.vecs n L pos) >>= fun ro =>
            .ok (ro.1, D ++ s.queue ++ ro.2.map (P.tag (pos + 1)))) := by
        conv_lhs => unfold straight
        rw [hc]; rfl
      rw [t1]
      simp only
      cases hfn : P.fn pos r (if pos = 0 then [] else P.vecs n L pos) with
      | ok ro =>
        rw [hfn] at hst
        simp only [Res.bind_ok] at hst
        simp only
        by_cases hag : P.again pos = true
        · rw [if_pos hag]
          obtain ⟨pos', h1, h2, h3⟩ := ih
            (s := { (P.take { s with round := .gone } pos).1 with
                round := .at (pos + 1) ro.1
                queue := (P.take { s with round := .gone } pos).1.queue ++
                  ro.2.map (P.tag (pos + 1)) })
            (pos := pos + 1) (r := ro.1) rfl (by omega) t2
            (by rw [hst]; simp only [t3, List.append_assoc]) (by omega)
          refine ⟨pos', by omega, h2, ?_⟩
          rcases h3 with ⟨r', a1, a2, a3, a4, a5⟩ | h3 | h3
          · refine Or.inl ⟨r', a1, a2, a3, a4, ?_⟩
            rcases a5 with a5 | a5
            · exact Or.inl a5
            · exact Or.inr ⟨by omega, a5.2⟩
          · exact Or.inr (Or.inl h3)
          · exact Or.inr (Or.inr h3)
        · rw [if_neg hag]
          refine ⟨pos + 1, by omega, t2, Or.inl ⟨ro.1, rfl, rfl, by omega, ?_, Or.inr ⟨by omega, ?_⟩⟩⟩
          · rw [hst]; simp only [t3, List.append_assoc]
          · simpa using hag
      | err e =>
        rw [hfn] at hst
        refine ⟨pos + 1, by omega, t2, Or.inr (Or.inl ⟨pos, r, e, rfl, t4, rfl, hk, ?_, hst⟩)⟩
        simpa only [t3] using hc
      | panic =>
        rw [hfn] at hst
        refine ⟨pos + 1, by omega, t2, Or.inr (Or.inr ⟨pos, r, rfl, t4, rfl, hk, ?_, hst⟩)⟩
        simpa only [t3] using hc
    · rw [if_neg hready]
      exact ⟨pos, le_rfl, hs, Or.inl ⟨r, rfl, hr, hp, hc, Or.inl (by simpa using hready)⟩⟩

/-- The message with body `b` that fills slot `i` of round `j`. -/
def slotMsg (me j i : ℕ) (b : P.Bd j) : Msg P.Body :=
  ⟨Store.owner me i, if P.p2p j then some me else none, ⟨j, b⟩⟩

/-- The log lists exactly the accepted messages. -/
def LogInv (me n : ℕ) (acc : List (Msg P.Body)) (L : P.Log) : Prop :=
  ∀ m, m ∈ acc ↔ ∃ j i b, 1 ≤ j ∧ j ≤ P.K ∧ i < n - 1 ∧ L j i = some b ∧ m = P.slotMsg me j i b

abbrev Hist := History P.State P.Body (P.St (P.K + 1)) P.Er

/-- The invariant of every history. -/
inductive PhaseInv (n : ℕ) (r0 : P.St 0) (L : P.Log) (h : P.Hist) (pos : ℕ) : Prop
  | running (r : P.St pos) (hp : h.panicked = false) (hr : h.st.round = .at pos r)
      (hle : pos ≤ P.K + 1)
      (hc : P.straight r0 (P.vecs n L) pos = .ok (r, P.machine.sent h))
      (he : h.errors = []) (ho : h.outputs = [])
  | failed (k : ℕ) (rk : P.St k) (e : P.Er) (m : ℕ) (hp : h.panicked = false)
      (hr : h.st.round = .gone) (hpos : pos = k + 1) (hk : k ≤ P.K)
      (hc : P.straight r0 (P.vecs n L) k = .ok (rk, P.machine.sent h))
      (hc' : P.straight r0 (P.vecs n L) (k + 1) = .err e)
      (he : h.errors = .ProceedRound e :: List.replicate m .DoublePickOutput)
      (ho : h.outputs = [])
  | panicked (k : ℕ) (rk : P.St k) (hp : h.panicked = true)
      (hpos : pos = k + 1) (hk : k ≤ P.K)
      (hc : P.straight r0 (P.vecs n L) k = .ok (rk, P.machine.sent h))
      (hc' : P.straight r0 (P.vecs n L) (k + 1) = .panic)
      (he : h.errors = []) (ho : h.outputs = [])
  | picked (o : P.St (P.K + 1)) (m : ℕ) (hp : h.panicked = false)
      (hr : h.st.round = .gone) (hpos : pos = P.K + 1)
      (hc : P.straight r0 (P.vecs n L) (P.K + 1) = .ok (o, P.machine.sent h))
      (he : h.errors = List.replicate m .DoublePickOutput)
      (ho : h.outputs = [o])

theorem PhaseInv.pos_le {P : Proto} {n : ℕ} {r0 : P.St 0} {L : P.Log} {h : P.Hist} {pos : ℕ}
    (hi : P.PhaseInv n r0 L h pos) : pos ≤ P.K + 1 := by
  cases hi <;> omega

structure Inv (me n : ℕ) (r0 : P.St 0) (h : P.Hist) (L : P.Log) (pos : ℕ) : Prop where
  stores : P.StoresInv me n h.st.stores L pos
  log : P.LogInv me n h.accepted L
  phase : P.PhaseInv n r0 L h pos

theorem inv_init (me n : ℕ) (r0 : P.St 0) :
    P.Inv me n r0 ⟨P.init me n r0, [], [], [], [], false⟩ (fun _ _ => none) 0 := by
  refine ⟨⟨?_, ?_, ?_⟩, ?_, .running r0 rfl rfl (by omega) rfl rfl rfl⟩
  · intro j hj
    simp only [init]
    rw [if_neg (by omega)]
  · intro j h1 h2; omega
  · intro j h1 h2 _
    refine ⟨_, by simp only [init]; rw [if_pos ⟨h1, h2⟩], Store.holds_new _ _ _ _⟩
  · intro m; simp

/-- Recording the result of `proceedRound` keeps the invariant. -/
theorem inv_record {me n : ℕ} {r0 : P.St 0} {h : P.Hist} {s : P.State} {L : P.Log} {pos : ℕ}
    {mb : Bool} {acc : List (Msg P.Body)}
    (hst : P.StoresInv me n s.stores L pos) (hlog : P.LogInv me n acc L)
    (hq : s.queue = h.st.queue) (hrd : s.round = h.st.round) (hph : P.PhaseInv n r0 L h pos)
    (hnp : h.panicked = false) :
    ∃ pos', P.Inv me n r0
      { StateMachine.record h (P.proceedRound mb s) with accepted := acc } L pos' := by
  cases hph with
  | running r hp hr hle hc he ho =>
    obtain ⟨pos', h1, h2, h3⟩ := P.proceedRound_spec (mb := mb) (D := h.drained)
      (hrd.trans hr) hle hst (by rw [hc, hq]; rfl)
    refine ⟨pos', ?_⟩
    rcases h3 with ⟨r', a1, a2, a3, a4, -⟩ | ⟨k, rk, e, a1, a2, a3, a4, a5, a6⟩ |
      ⟨k, rk, a1, a2, a3, a4, a5, a6⟩
    · simp only [StateMachine.record, a1]
      exact ⟨h2, hlog, .running r' hp a2 a3 a4 he ho⟩
    · simp only [StateMachine.record, a1]
      exact ⟨h2, hlog, .failed k rk e 0 hp a2 a3 a4 a5 a6 (by simp [he, SMError.refuses]) ho⟩
    · simp only [StateMachine.record, a1]
      exact ⟨h2, hlog, .panicked k rk rfl a3 a4 a5 a6 he ho⟩
  | failed k rk e m hp hr hpos hk hc hc' he ho =>
    rw [P.proceedRound_gone (hrd.trans hr)]
    refine ⟨pos, hst, hlog, .failed k rk e m hp (hrd.trans hr) hpos hk ?_ hc' he ho⟩
    rw [hc]; simp only [StateMachine.sent, StateMachine.record, machine, hq]
  | panicked k rk hp => rw [hnp] at hp; cases hp
  | picked o m hp hr hpos hc he ho =>
    rw [P.proceedRound_gone (hrd.trans hr)]
    refine ⟨pos, hst, hlog, .picked o m hp (hrd.trans hr) hpos ?_ he ho⟩
    rw [hc]; simp only [StateMachine.sent, StateMachine.record, machine, hq]

/-- A message is taken: it is addressed properly, and none was accepted for its slot. -/
def Takes (me n : ℕ) (L : P.Log) (m : Msg P.Body) : Prop :=
  1 ≤ m.body.1 ∧ m.body.1 ≤ P.K ∧ Addressed me n (P.p2p m.body.1) m.sender m.receiver ∧
    L m.body.1 (Store.slot me m.sender) = none

theorem handle_refused {me n : ℕ} {s : P.State} {L : P.Log} {pos : ℕ} (h1 : 1 ≤ me) (h2 : me ≤ n)
    (hs : P.StoresInv me n s.stores L pos) {m : Msg P.Body} (hm : ¬ P.Takes me n L m) :
    ∃ e, e.refuses = true ∧ P.handle s m = (s, .err e) := by
  unfold handle
  cases hst : s.stores m.body.1 with
  | none => exact ⟨_, rfl, rfl⟩
  | some st =>
    have hb : 1 ≤ m.body.1 ∧ m.body.1 ≤ P.K := by
      by_contra hc
      rw [hs.outside _ (by omega)] at hst
      cases hst
    have hp : pos ≤ m.body.1 := by
      by_contra hc
      rw [(hs.gone _ hb.1 (by omega)).1] at hst
      cases hst
    obtain ⟨st', e', hh⟩ := hs.live _ hb.1 hb.2 hp
    rw [e', Option.some.injEq] at hst
    subst hst
    obtain ⟨e, he⟩ := Store.push_refused hh h1 h2 ⟨m.sender, m.receiver, m.body.2⟩
      (fun c => hm ⟨hb.1, hb.2, c.1, c.2⟩)
    simp only [he]
    exact ⟨_, rfl, rfl⟩

/-- Add a message to the log. -/
def Log.add {P : Proto} (L : P.Log) (me : ℕ) (m : Msg P.Body) : P.Log :=
  Function.update L m.body.1 (Function.update (L m.body.1) (Store.slot me m.sender) (some m.body.2))

theorem takes_live {me n : ℕ} {s : P.State} {L : P.Log} {pos : ℕ} (h1 : 1 ≤ me) (h2 : me ≤ n)
    (hs : P.StoresInv me n s.stores L pos) {m : Msg P.Body} (hm : P.Takes me n L m) :
    pos ≤ m.body.1 := by
  obtain ⟨b1, b2, ha, hl⟩ := hm
  by_contra hc
  have := (hs.gone _ b1 (by omega)).2 (Store.slot me m.sender)
    ((Store.slot_lt h1 h2 ha.pos ha.ne).2 ha.le)
  rw [hl] at this
  simp at this

theorem handle_taken {me n : ℕ} {s : P.State} {L : P.Log} {pos : ℕ} (h1 : 1 ≤ me) (h2 : me ≤ n)
    (hs : P.StoresInv me n s.stores L pos) {m : Msg P.Body} (hm : P.Takes me n L m) :
    ∃ s', P.handle s m = P.proceedRound false s' ∧ s'.round = s.round ∧ s'.queue = s.queue ∧
      P.StoresInv me n s'.stores (L.add me m) pos := by
  have hp := P.takes_live h1 h2 hs hm
  obtain ⟨b1, b2, ha, hl⟩ := hm
  obtain ⟨st, e, hh⟩ := hs.live _ b1 b2 hp
  obtain ⟨st', e', hh'⟩ := Store.push_taken hh h1 h2 ⟨m.sender, m.receiver, m.body.2⟩ ha hl
  refine ⟨{ s with stores := Function.update s.stores m.body.1 (some st') }, ?_, rfl, rfl, ?_, ?_, ?_⟩
  · unfold handle
    rw [e]
    simp only [e']
  · intro j hj
    have ne : j ≠ m.body.1 := by omega
    simp only [Function.update_of_ne ne]
    exact hs.outside j hj
  · intro j j1 j2
    have ne : j ≠ m.body.1 := by omega
    simp only [Function.update_of_ne ne]
    refine ⟨(hs.gone j j1 j2).1, ?_⟩
    have := (hs.gone j j1 j2).2
    unfold Full Log.add
    simp only [Function.update_of_ne ne]
    exact this
  · intro j j1 j2 j3
    by_cases ej : j = m.body.1
    · subst ej
      refine ⟨st', by simp, ?_⟩
      unfold Log.add
      rw [Function.update_self]
      exact hh'
    · simp only [Function.update_of_ne ej, Log.add]
      exact hs.live j j1 j2 j3

theorem logInv_add {me n : ℕ} {acc : List (Msg P.Body)} {L : P.Log} (h1 : 1 ≤ me) (h2 : me ≤ n)
    (hl : P.LogInv me n acc L) {m : Msg P.Body} (hm : P.Takes me n L m) :
    P.LogInv me n (acc ++ [m]) (L.add me m) := by
  obtain ⟨b1, b2, ha, hn⟩ := hm
  have hslot := (Store.slot_lt h1 h2 ha.pos ha.ne).2 ha.le
  have hmm : m = P.slotMsg me m.body.1 (Store.slot me m.sender) m.body.2 := by
    unfold slotMsg
    rw [Store.owner_slot h1 ha.pos ha.ne, ← ha.recv]
  intro x
  rw [List.mem_append, hl x, List.mem_singleton]
  constructor
  · rintro (⟨j, i, b, c1, c2, c3, c4, c5⟩ | rfl)
    · refine ⟨j, i, b, c1, c2, c3, ?_, c5⟩
      by_cases ej : j = m.body.1
      · subst ej
        unfold Log.add
        rw [Function.update_self, Function.update_of_ne]
        · exact c4
        · rintro rfl; rw [hn] at c4; cases c4
      · unfold Log.add
        rw [Function.update_of_ne ej]; exact c4
    · exact ⟨x.body.1, Store.slot me x.sender, x.body.2, b1, b2, hslot, by simp [Log.add], hmm⟩
  · rintro ⟨j, i, b, c1, c2, c3, c4, rfl⟩
    by_cases ej : j = m.body.1
    · subst ej
      unfold Log.add at c4
      rw [Function.update_self] at c4
      by_cases ei : i = Store.slot me m.sender
      · subst ei
        rw [Function.update_self, Option.some.injEq] at c4
        right
        rw [← c4]; exact hmm.symm
      · rw [Function.update_of_ne ei] at c4
        exact Or.inl ⟨_, i, b, c1, c2, c3, c4, rfl⟩
    · unfold Log.add at c4
      rw [Function.update_of_ne ej] at c4
      exact Or.inl ⟨j, i, b, c1, c2, c3, c4, rfl⟩

theorem vecs_add {me n : ℕ} {L : P.Log} {m : Msg P.Body} {j : ℕ} (h : j ≠ m.body.1) :
    P.vecs n (L.add me m) j = P.vecs n L j := by
  unfold vecs Log.add
  rw [Function.update_of_ne h]

/-- Later messages do not change the phase. -/
theorem PhaseInv.add {P : Proto} {me n : ℕ} {r0 : P.St 0} {h : P.Hist} {L : P.Log} {pos : ℕ}
    {m : Msg P.Body} (hi : P.PhaseInv n r0 L h pos) (hp : pos ≤ m.body.1) :
    P.PhaseInv n r0 (L.add me m) h pos := by
  have key : ∀ k ≤ pos, P.straight r0 (P.vecs n (L.add me m)) k = P.straight r0 (P.vecs n L) k :=
    fun k hk => P.straight_congr fun j _ h2 => P.vecs_add (by omega)
  cases hi with
  | running r hp hr hle hc he ho => exact .running r hp hr hle (by rw [key _ le_rfl]; exact hc) he ho
  | failed k rk e m hp hr hpos hk hc hc' he ho =>
    exact .failed k rk e m hp hr hpos hk (by rw [key _ (by omega)]; exact hc)
      (by rw [key _ (by omega)]; exact hc') he ho
  | panicked k rk hp hpos hk hc hc' he ho =>
    exact .panicked k rk hp hpos hk (by rw [key _ (by omega)]; exact hc)
      (by rw [key _ (by omega)]; exact hc') he ho
  | picked o m hp hr hpos hc he ho =>
    exact .picked o m hp hr hpos (by rw [key _ (by omega)]; exact hc) he ho

/-- Delivery of a message that is taken. -/
theorem step_taken {me n : ℕ} {r0 : P.St 0} {h : P.Hist} {L : P.Log} {pos : ℕ} (h1 : 1 ≤ me)
    (h2 : me ≤ n) (hi : P.Inv me n r0 h L pos) (hnp : h.panicked = false) {m : Msg P.Body}
    (hm : P.Takes me n L m) :
    (∃ pos', P.Inv me n r0 (P.machine.step h (.deliver m)) (L.add me m) pos') ∧
    (P.machine.step h (.deliver m)).accepted = h.accepted ++ [m] := by
  obtain ⟨s', e1, e2, e3, e4⟩ := P.handle_taken h1 h2 hi.stores hm
  have hp := P.takes_live h1 h2 hi.stores hm
  obtain ⟨pos', hinv⟩ := P.inv_record (mb := false) (acc := h.accepted ++ [m]) e4
    (P.logInv_add h1 h2 hi.log hm) e3 e2 (hi.phase.add hp) hnp
  have htakes : StateMachine.takes (P.proceedRound false s').2 = true := by
    cases hph : (hi.phase.add (me := me) hp) with
    | running r hp hr hle hc he ho =>
      obtain ⟨_, _, _, h3⟩ := P.proceedRound_spec (mb := false) (D := h.drained)
        (e2.trans hr) hle e4 (by rw [hc, e3]; rfl)
      rcases h3 with ⟨r', a1, -⟩ | ⟨k, rk, e, a1, -⟩ | ⟨k, rk, a1, -⟩ <;> rw [a1] <;> rfl
    | failed k rk e m hp hr => rw [P.proceedRound_gone (e2.trans hr)]; rfl
    | panicked k rk hp => rw [hnp] at hp; cases hp
    | picked o m hp hr => rw [P.proceedRound_gone (e2.trans hr)]; rfl
  have hstep : P.machine.step h (.deliver m) =
      { StateMachine.record h (P.proceedRound false s') with accepted := h.accepted ++ [m] } := by
    unfold StateMachine.step
    simp only [hnp, Bool.false_eq_true, if_false, machine, e1, htakes, if_true]
  rw [hstep]
  exact ⟨⟨pos', hinv⟩, rfl⟩

/-- Delivery of a message that is refused changes nothing. -/
theorem step_refused {me n : ℕ} {r0 : P.St 0} {h : P.Hist} {L : P.Log} {pos : ℕ} (h1 : 1 ≤ me)
    (h2 : me ≤ n) (hi : P.Inv me n r0 h L pos) {m : Msg P.Body}
    (hm : ¬ P.Takes me n L m) : P.machine.step h (.deliver m) = h := by
  obtain ⟨e, he, hh⟩ := P.handle_refused h1 h2 hi.stores hm
  unfold StateMachine.step
  split
  · rfl
  · simp only [machine, hh, StateMachine.record, StateMachine.takes, he]
    simp

theorem step_inv {me n : ℕ} {r0 : P.St 0} {h : P.Hist} {L : P.Log} {pos : ℕ} (h1 : 1 ≤ me)
    (h2 : me ≤ n) (hi : P.Inv me n r0 h L pos) (op : Op P.Body) :
    ∃ L' pos', P.Inv me n r0 (P.machine.step h op) L' pos' := by
  by_cases hnp : h.panicked = true
  · refine ⟨L, pos, ?_⟩
    unfold StateMachine.step
    rw [if_pos hnp]; exact hi
  rw [Bool.not_eq_true] at hnp
  cases op with
  | deliver m =>
    by_cases hm : P.Takes me n L m
    · obtain ⟨⟨pos', hh⟩, -⟩ := P.step_taken h1 h2 hi hnp hm
      exact ⟨_, _, hh⟩
    · rw [P.step_refused h1 h2 hi hm]
      exact ⟨_, _, hi⟩
  | proceed =>
    obtain ⟨pos', hh⟩ := P.inv_record (mb := true) (acc := h.accepted) hi.stores hi.log rfl rfl
      hi.phase hnp
    refine ⟨L, pos', ?_⟩
    unfold StateMachine.step
    rw [if_neg (by simp [hnp])]
    have : StateMachine.record h (P.machine.proceed h.st) =
        { StateMachine.record h (P.proceedRound true h.st) with accepted := h.accepted } := by
      simp only [StateMachine.record, machine]
      cases (P.proceedRound true h.st).2 <;> rfl
    rw [this]
    exact hh
  | drain =>
    refine ⟨L, pos, ?_⟩
    unfold StateMachine.step
    rw [if_neg (by simp [hnp])]
    have hsent : P.machine.sent { h with
        drained := h.drained ++ P.machine.message_queue h.st
        st := P.machine.clear_queue h.st } = P.machine.sent h := by
      simp [StateMachine.sent, machine]
    refine ⟨hi.stores, hi.log, ?_⟩
    cases hi.phase with
    | running r hp hr hle hc he ho => exact .running r hp hr hle (by rw [hsent]; exact hc) he ho
    | failed k rk e m hp hr hpos hk hc hc' he ho =>
      exact .failed k rk e m hp hr hpos hk (by rw [hsent]; exact hc) hc' he ho
    | panicked k rk hp => rw [hnp] at hp; cases hp
    | picked o m hp hr hpos hc he ho =>
      exact .picked o m hp hr hpos (by rw [hsent]; exact hc) he ho
  | pick =>
    refine ⟨L, pos, ?_⟩
    unfold StateMachine.step
    rw [if_neg (by simp [hnp])]
    have hgone : h.st.round = .gone → P.machine.pick_output h.st =
        (h.st, some (.err .DoublePickOutput)) := by
      intro hr
      simp only [machine, pick, hr]
    cases hi.phase with
    | running r hp hr hle hc he ho =>
      by_cases hk : pos = P.K + 1
      · subst hk
        have : P.machine.pick_output h.st = ({ h.st with round := .gone }, some (.ok r)) := by
          simp only [machine, pick, hr, dif_pos]
        simp only [this]
        exact ⟨hi.stores, hi.log, .picked r 0 hnp rfl rfl hc he (by simp [ho])⟩
      · have : P.machine.pick_output h.st = (h.st, none) := by
          simp only [machine, pick, hr, dif_neg hk]
        simp only [this]
        exact ⟨hi.stores, hi.log, .running r hp hr hle hc he ho⟩
    | failed k rk e m hp hr hpos hk hc hc' he ho =>
      simp only [hgone hr]
      refine ⟨hi.stores, hi.log, .failed k rk e (m + 1) hp hr hpos hk hc hc' ?_ ho⟩
      simp only [he, List.cons_append, List.replicate_succ']
    | panicked k rk hp => rw [hnp] at hp; cases hp
    | picked o m hp hr hpos hc he ho =>
      simp only [hgone hr]
      refine ⟨hi.stores, hi.log, .picked o (m + 1) hp hr hpos hc ?_ ho⟩
      simp only [he, List.replicate_succ']

/-- Every history satisfies the invariant. -/
theorem run_inv {me n : ℕ} (r0 : P.St 0) (h1 : 1 ≤ me) (h2 : me ≤ n) (ops : List (Op P.Body)) :
    ∃ L pos, P.Inv me n r0 (P.machine.run (P.init me n r0) ops) L pos := by
  have key : ∀ (h : P.Hist), (∃ L pos, P.Inv me n r0 h L pos) →
      ∃ L pos, P.Inv me n r0 (ops.foldl P.machine.step h) L pos := by
    induction ops with
    | nil => intro h hh; exact hh
    | cons op ops ih =>
      rintro h ⟨L, pos, hh⟩
      exact ih _ (P.step_inv h1 h2 hh op)
  exact key _ ⟨_, _, P.inv_init me n r0⟩

end Verif.Proto
