import Verif.Lemmas.Async
import Verif.Model.Demo.Driver

/-! # Clients in a room of the message server -/

namespace Verif

namespace Async

section
variable {σ β ω ε : Type} {M : StateMachine σ β ω ε} {critical : SMError ε → Bool}

theorem finish_sent (r : Run σ β ω ε) : (finishIfPossible M r).sent = r.sent := by
  unfold finishIfPossible
  split
  · dsimp only
    split <;> rfl
  · rfl

theorem proceedIfNeeded_sent (r : Run σ β ω ε) : (proceedIfNeeded M critical r).sent = r.sent := by
  unfold proceedIfNeeded
  split
  · dsimp only
    split <;> rfl
  · rfl

theorem andThen_sent {r : Run σ β ω ε} {f : Run σ β ω ε → Run σ β ω ε} {l : List (Msg β)}
    (h : l <+: r.sent) (hf : ∀ r, r.sent <+: (f r).sent) : l <+: (r.andThen f).sent := by
  unfold Run.andThen
  split
  · exact h
  · exact h.trans (hf r)

theorem send_sent (r : Run σ β ω ε) : r.sent <+: (sendOutgoing M r).sent := List.prefix_append _ _

theorem advance_sent (r : Run σ β ω ε) : r.sent <+: (advance M critical r).sent := by
  unfold advance
  refine andThen_sent (andThen_sent ?_ send_sent) fun r => ?_
  · rw [proceedIfNeeded_sent]
  · rw [finish_sent]

/-- A run never takes back a message. -/
theorem receive_sent (r : Run σ β ω ε) (m : Msg β) : r.sent <+: (receive M critical r m).sent := by
  unfold receive
  refine andThen_sent (andThen_sent (andThen_sent List.prefix_rfl fun r => ?_) send_sent) advance_sent
  unfold handleIncoming
  dsimp only
  split <;> exact List.prefix_rfl

end

section
variable {P : Proto} {σ β : Type} {M : StateMachine σ β (P.St (P.K + 1)) P.Er}
  {critical : SMError P.Er → Bool} {s : σ} {me n : ℕ} {r0 : P.St 0} (S : P.Sim M)
include S

omit S in
theorem record_outputs (h : History σ β (P.St (P.K + 1)) P.Er) (x) :
    (StateMachine.record h x).outputs = h.outputs := by
  unfold StateMachine.record
  split
  · rfl
  · dsimp only
  · rfl

omit S in
theorem no_outputs (ops : List (Op β)) (h : .pick ∉ ops) : (M.run s ops).outputs = [] := by
  induction ops using List.reverseRecOn with
  | nil => rfl
  | append_singleton ops o ih =>
    rw [List.mem_append, not_or, List.mem_singleton] at h
    rw [run_snoc, ← ih h.1]
    unfold StateMachine.step
    split
    · rfl
    · cases o with
      | deliver m =>
        dsimp only
        split
        · exact record_outputs _ _
        · exact record_outputs _ _
      | proceed => exact record_outputs _ _
      | drain => rfl
      | pick => exact absurd rfl h.2

/-- A client whose machine follows a script. -/
theorem serves (hc : ∀ e : SMError P.Er, e.refuses = false → critical e = true)
    (hs : S.abs s = P.init me n r0) (h1 : 1 ≤ me) (h2 : me ≤ n)
    {good : Msg β → Prop} {script : ℕ → List (Msg β)} {out : P.St (P.K + 1)}
    (F : Follows M s me n P.K (fun b => (S.tagB b).1) P.p2p good script out) (ms : List (Msg β))
    (hf : FreshAll S me n ms) (hq : Quiet S n ms) (hg : ∀ m ∈ ms, good m) :
    ((run M critical s ms).result = none ∧ ∃ pos, 1 ≤ pos ∧ pos ≤ P.K ∧
      (run M critical s ms).sent = script pos ∧
      ∃ p, 1 ≤ p ∧ p ≤ n ∧ p ≠ me ∧ ∀ m ∈ ms, m.sender = p → S.rd m ≠ pos) ∨
    ((run M critical s ms).result = some (.ok out) ∧ (run M critical s ms).sent = script (P.K + 1)) := by
  rcases run_spec S hc hs h1 h2 ms hf hq with ⟨ops, hw, hqt⟩ | ⟨ops, pre, post, he, hcl, hend⟩
  · refine .inl ⟨hw.none, ?_⟩
    have hg' : ∀ m, .deliver m ∈ ops → Addressed me n (P.p2p (S.tagB m.body).1) m.sender m.receiver →
        good m := fun m hm _ => hg m ((hw.clean.2 m).1 hm)
    have hsent := F.sent ops hg'
    have hle := F.le ops hg'
    obtain ⟨-, hfin, hwant, -⟩ := hw.toMid.pos S hs h1 h2
    rw [hw.run] at hsent hle
    dsimp only at hsent hle
    unfold StateMachine.sent at hsent
    dsimp only at hsent
    rw [hw.queue, List.append_nil] at hsent
    have hnot : M.current_round (run M critical s ms).st ≠ P.K + 1 := fun h => by
      have := hfin.2 h
      rw [hw.unfinished] at this
      cases this
    have hmiss := (not_congr hwant).1 (by simp [hqt])
    have hpos : 1 ≤ M.current_round (run M critical s ms).st := by
      by_contra h0
      exact hmiss ⟨by omega, fun h => absurd h h0⟩
    refine ⟨_, hpos, by omega, hsent, ?_⟩
    by_contra hcon
    push Not at hcon
    refine hmiss ⟨by omega, fun _ p p1 p2 p3 => ?_⟩
    obtain ⟨m, a, b, c⟩ := hcon p p1 p2 p3
    exact ⟨m, a, c, b⟩
  · have hg' : ∀ m, .deliver m ∈ ops → Addressed me n (P.p2p (S.tagB m.body).1) m.sender m.receiver →
        good m := fun m hm _ => hg m (he ▸ List.mem_append_left _ ((hcl.2 m).1 hm))
    have hle := F.le ops hg'
    cases hend with
    | ok o hr st hrun hqu hfin hpick =>
      have hm : Mid M s (⟨st, (run M critical s ms).sent, none⟩ : Run σ β (P.St (P.K + 1)) P.Er) ops pre :=
        ⟨rfl, hrun, hcl⟩
      have hk := (hm.pos S hs h1 h2).2.1.1 hfin
      have hsent := F.sent ops hg'
      have hdone := F.done ops hg' (by rw [hrun]; exact hk)
      rw [hrun] at hsent hdone
      dsimp only at hsent hdone hk
      unfold StateMachine.sent at hsent
      dsimp only at hsent
      rw [hqu, List.append_nil, hk] at hsent
      refine .inr ⟨?_, hsent⟩
      rcases hdone with h | h
      · have e := hpick.symm.trans h.2.2.2
        cases e
        exact hr
      · cases h.1
    | err e hr herr hnp =>
      exfalso
      rcases Nat.lt_or_ge P.K (M.current_round (M.run s ops).st) with h | h
      · rcases F.done ops hg' (by omega) with h | h
        · rw [herr] at h
          cases h.2.1
        · have hp : (M.run s ops).outputs = [] := no_outputs ops hcl.1
          rw [hp] at h
          cases h.1
      · have := (F.early ops hg' h).2
        rw [herr] at this
        cases this
    | panic hr hp =>
      rw [F.no_panic ops hg'] at hp
      cases hp

end
end Async

namespace Demo.Driver

open _root_.Verif.Demo.Client

variable {σ β ω ε : Type}

/-- The clients follow scripts that fit together. -/
structure Setting.Fits (T : Setting σ β ω ε) (K : ℕ) (rd : β → ℕ) (script : ℕ → ℕ → List (Msg β))
    (out : ℕ → ω) : Prop where
  grows : ∀ i, 1 ≤ i → i ≤ T.n → ∀ k ≤ K + 1, script i k <+: script i (K + 1)
  sender : ∀ i, 1 ≤ i → i ≤ T.n → ∀ m ∈ script i (K + 1), m.sender = i
  mail : ∀ i j, 1 ≤ i → i ≤ T.n → 1 ≤ j → j ≤ T.n → i ≠ j →
    ((script j (K + 1)).filter (accepts i)).map (fun m => rd m.body) = List.range' 1 K
  early : ∀ i j, 1 ≤ i → i ≤ T.n → 1 ≤ j → j ≤ T.n → i ≠ j → ∀ k, 1 ≤ k → k ≤ K → ∀ k', k ≤ k' →
    k' ≤ K + 1 → ∃ m ∈ script j k', rd m.body = k ∧ accepts i m = true
  serves : ∀ i, 1 ≤ i → i ≤ T.n → ∀ ms : List (Msg β),
    (∀ m ∈ ms, ∃ j, 1 ≤ j ∧ j ≤ T.n ∧ i ≠ j ∧ m ∈ script j (K + 1) ∧ accepts i m = true) →
    ms.Pairwise (fun a b => rd a.body = rd b.body → a.sender ≠ b.sender) →
    Spec.InRoundOrder rd ms →
    ((Async.run (T.machine i) T.critical (T.start i) ms).result = none ∧ ∃ pos, 1 ≤ pos ∧ pos ≤ K ∧
      (Async.run (T.machine i) T.critical (T.start i) ms).sent = script i pos ∧
      ∃ p, 1 ≤ p ∧ p ≤ T.n ∧ p ≠ i ∧ ∀ m ∈ ms, m.sender = p → rd m.body ≠ pos) ∨
    ((Async.run (T.machine i) T.critical (T.start i) ms).result = some (.ok (out i)) ∧
      (Async.run (T.machine i) T.critical (T.start i) ms).sent = script i (K + 1))

/-- What holds of a room at any time, apart from what the machines do. -/
structure Setting.Inv (T : Setting σ β ω ε) (r : Room σ β ω ε) : Prop where
  run : ∀ i, 1 ≤ i → i ≤ T.n → (r.client i).run = Async.run (T.machine i) T.critical (T.start i)
    ((r.log.take (r.client i).cursor).filter (accepts i))
  posted : ∀ i, 1 ≤ i → i ≤ T.n → (r.client i).posted ≤ (r.client i).run.sent.length
  cursor : ∀ i, 1 ≤ i → i ≤ T.n → (r.client i).cursor ≤ r.log.length
  senders : ∀ m ∈ r.log, 1 ≤ m.sender ∧ m.sender ≤ T.n
  log : ∀ i, 1 ≤ i → i ≤ T.n → r.log.filter (fun m => decide (m.sender = i)) =
    (r.client i).run.sent.take (r.client i).posted
  length : r.log.length = ∑ i ∈ Finset.Icc 1 T.n, (r.client i).posted

variable {T : Setting σ β ω ε} {K : ℕ} {rd : β → ℕ} {script : ℕ → ℕ → List (Msg β)} {out : ℕ → ω}

theorem run_snoc (i : ℕ) (ms : List (Msg β)) (m : Msg β) :
    Async.run (T.machine i) T.critical (T.start i) (ms ++ [m]) =
      Async.receive (T.machine i) T.critical
        (Async.run (T.machine i) T.critical (T.start i) ms) m := by
  unfold Async.run; rw [List.foldl_append]; rfl

theorem filter_pairwise {ms : List (Msg β)} (rd : Msg β → ℕ)
    (h : ∀ j, (ms.filter (fun m => decide (m.sender = j))).Pairwise (fun a b => rd a ≠ rd b)) :
    ms.Pairwise (fun a b => rd a = rd b → a.sender ≠ b.sender) := by
  induction ms with
  | nil => exact List.Pairwise.nil
  | cons a ms ih =>
    refine List.Pairwise.cons ?_ (ih fun j => ?_)
    · intro b hb e hs
      have := h a.sender
      rw [List.filter_cons_of_pos (by simp), List.pairwise_cons] at this
      exact this.1 b (List.mem_filter.2 ⟨hb, by simp [hs]⟩) e
    · have := h j
      rw [List.filter_cons] at this
      split at this
      · exact (List.pairwise_cons.1 this).2
      · exact this

/-- What a client has received from one sender is a prefix of what that sender says to it. -/
theorem Setting.Inv.mail {r : Room σ β ω ε} (I : T.Inv r)
    (hs : ∀ j, 1 ≤ j → j ≤ T.n → (r.client j).run.sent <+: script j (K + 1)) {l : List (Msg β)}
    (hl : l <+: r.log) (i j : ℕ) (j1 : 1 ≤ j) (j2 : j ≤ T.n) :
    (l.filter (accepts i)).filter (fun m => decide (m.sender = j)) <+:
      (script j (K + 1)).filter (accepts i) := by
  have h1 : l.filter (fun m => decide (m.sender = j)) <+: script j (K + 1) := by
    refine (hl.filter _).trans ?_
    rw [I.log j j1 j2]
    exact (List.take_prefix _ _).trans (hs j j1 j2)
  have e : (l.filter (accepts i)).filter (fun m => decide (m.sender = j)) =
      (l.filter (fun m => decide (m.sender = j))).filter (accepts i) := by
    rw [List.filter_filter, List.filter_filter]
    congr 1
    funext m
    exact Bool.and_comm _ _
  rw [e]
  exact h1.filter _

/-- What the runs of the clients do. -/
theorem Setting.Inv.serves (F : T.Fits K rd script out) {r : Room σ β ω ε} (I : T.Inv r)
    (hs : ∀ j, 1 ≤ j → j ≤ T.n → (r.client j).run.sent <+: script j (K + 1)) {i : ℕ} (i1 : 1 ≤ i)
    (i2 : i ≤ T.n) {l : List (Msg β)} (hl : l <+: r.log) :
    ((Async.run (T.machine i) T.critical (T.start i) (l.filter (accepts i))).result = none ∧
      ∃ pos, 1 ≤ pos ∧ pos ≤ K ∧
      (Async.run (T.machine i) T.critical (T.start i) (l.filter (accepts i))).sent = script i pos ∧
      ∃ p, 1 ≤ p ∧ p ≤ T.n ∧ p ≠ i ∧ ∀ m ∈ l.filter (accepts i), m.sender = p → rd m.body ≠ pos) ∨
    ((Async.run (T.machine i) T.critical (T.start i) (l.filter (accepts i))).result =
        some (.ok (out i)) ∧
      (Async.run (T.machine i) T.critical (T.start i) (l.filter (accepts i))).sent =
        script i (K + 1)) := by
  have hm := fun j => I.mail hs hl i j
  have hsend : ∀ m ∈ l.filter (accepts i), 1 ≤ m.sender ∧ m.sender ≤ T.n ∧ i ≠ m.sender ∧
      accepts i m = true := by
    intro m hm
    obtain ⟨a, b⟩ := List.mem_filter.1 hm
    obtain ⟨c, d⟩ := I.senders m (hl.subset a)
    refine ⟨c, d, ?_, b⟩
    unfold accepts at b
    simp only [Bool.and_eq_true, decide_eq_true_eq] at b
    exact fun h => b.1 h.symm
  refine F.serves i i1 i2 _ ?_ ?_ ?_
  · intro m hmem
    obtain ⟨a, b, c, d⟩ := hsend m hmem
    refine ⟨m.sender, a, b, c, ?_, d⟩
    exact (List.mem_filter.1 ((hm m.sender a b).subset (List.mem_filter.2 ⟨hmem, by simp⟩))).1
  · refine filter_pairwise (fun m => rd m.body) fun j => ?_
    by_cases hj : ∃ m ∈ l.filter (accepts i), m.sender = j
    · obtain ⟨m, hmem, rfl⟩ := hj
      obtain ⟨a, b, c, d⟩ := hsend m hmem
      have h := (hm m.sender a b).map (fun m => rd m.body)
      rw [F.mail i m.sender i1 i2 a b c] at h
      have hn : (((l.filter (accepts i)).filter (fun m' => decide (m'.sender = m.sender))).map
          (fun m => rd m.body)).Nodup := (List.nodup_range' (step := 1)).sublist h.sublist
      exact List.pairwise_map.1 hn
    · have e : (l.filter (accepts i)).filter (fun m => decide (m.sender = j)) = [] := by
        rw [List.filter_eq_nil_iff]
        intro m hmem hd
        exact hj ⟨m, hmem, by simpa using hd⟩
      rw [e]
      exact List.Pairwise.nil
  · intro pre post hpre m hmem k k1 k2
    have hp : pre <+: l.filter (accepts i) := ⟨post, hpre.symm⟩
    obtain ⟨a, b, c, d⟩ := hsend m (hp.subset hmem)
    have h := ((hp.filter (fun m' => decide (m'.sender = m.sender))).trans (hm m.sender a b)).map
      (fun m => rd m.body)
    rw [F.mail i m.sender i1 i2 a b c] at h
    have e := List.prefix_iff_eq_take.1 h
    rw [List.take_range'_of_length_ge (by simpa using h.length_le)] at e
    have hin : rd m.body ∈ (pre.filter (fun m' => decide (m'.sender = m.sender))).map
        (fun m => rd m.body) := List.mem_map.2 ⟨m, List.mem_filter.2 ⟨hmem, by simp⟩, rfl⟩
    have hk : k ∈ (pre.filter (fun m' => decide (m'.sender = m.sender))).map
        (fun m => rd m.body) := by
      rw [e] at hin ⊢
      rw [List.mem_range'_1] at hin ⊢
      omega
    obtain ⟨m', q1, q2⟩ := List.mem_map.1 hk
    obtain ⟨q3, q4⟩ := List.mem_filter.1 q1
    exact ⟨m', q3, by simpa using q4, q2⟩

theorem Setting.Steps.inv (F : T.Fits K rd script out) {k : ℕ} {r : Room σ β ω ε} (h : T.Steps k r) :
    T.Inv r ∧ (∀ j, 1 ≤ j → j ≤ T.n → (r.client j).run.sent <+: script j (K + 1)) ∧
      k = ∑ i ∈ Finset.Icc 1 T.n, ((r.client i).posted + (r.client i).cursor) := by
  have hpre : ∀ {r : Room σ β ω ε}, T.Inv r →
      (∀ j, 1 ≤ j → j ≤ T.n → (r.client j).run.sent <+: script j (K + 1)) → ∀ {i : ℕ}, 1 ≤ i →
      i ≤ T.n → ∀ {l : List (Msg β)}, l <+: r.log →
      (Async.run (T.machine i) T.critical (T.start i) (l.filter (accepts i))).sent <+:
        script i (K + 1) := by
    intro r I hs i i1 i2 l hl
    rcases I.serves F hs i1 i2 hl with ⟨-, pos, a, b, c, -⟩ | ⟨-, c⟩
    · rw [c]
      exact F.grows i i1 i2 pos (by omega)
    · rw [c]
  induction h with
  | init =>
    refine ⟨⟨fun i _ _ => rfl, fun _ _ _ => Nat.zero_le _, fun _ _ _ => le_rfl, by simp [Setting.init],
      fun i _ _ => by simp [Setting.init], by simp [Setting.init]⟩, ?_, by simp [Setting.init]⟩
    intro j j1 j2
    have := F.serves j j1 j2 [] (by simp) List.Pairwise.nil (by
      intro pre post e m hm
      have : pre = [] := (List.append_eq_nil_iff.1 e.symm).1
      rw [this] at hm
      cases hm)
    change (Async.run (T.machine j) T.critical (T.start j) []).sent <+: _
    rcases this with ⟨-, pos, a, b, c, -⟩ | ⟨-, c⟩
    · rw [c]
      exact F.grows j j1 j2 pos (by omega)
    · rw [c]
  | @step k r r' _ st ih =>
    obtain ⟨I, hs, hk⟩ := ih
    cases st with
    | post i i1 i2 m next =>
      have hlt : (r.client i).posted < (r.client i).run.sent.length :=
        (List.getElem?_eq_some_iff.1 next).1
      have hm : m ∈ script i (K + 1) := (hs i i1 i2).subset (List.mem_of_getElem? next)
      have hsm := F.sender i i1 i2 m hm
      have hrun : ∀ j, (Function.update r.client i
          { r.client i with posted := (r.client i).posted + 1 } j).run = (r.client j).run := by
        intro j
        by_cases hj : j = i
        · subst hj; rw [Function.update_self]
        · rw [Function.update_of_ne hj]
      have hcur : ∀ j, (Function.update r.client i
          { r.client i with posted := (r.client i).posted + 1 } j).cursor = (r.client j).cursor := by
        intro j
        by_cases hj : j = i
        · subst hj; rw [Function.update_self]
        · rw [Function.update_of_ne hj]
      have hpost : ∀ j, (Function.update r.client i
          { r.client i with posted := (r.client i).posted + 1 } j).posted =
            (r.client j).posted + if j = i then 1 else 0 := by
        intro j
        by_cases hj : j = i
        · subst hj; rw [Function.update_self, if_pos rfl]
        · rw [Function.update_of_ne hj, if_neg hj]; rfl
      have hsum : ∑ j ∈ Finset.Icc 1 T.n, (if j = i then 1 else 0) = 1 := by
        rw [Finset.sum_ite_eq' (Finset.Icc 1 T.n) i, if_pos (Finset.mem_Icc.2 ⟨i1, i2⟩)]
      refine ⟨⟨?_, ?_, ?_, ?_, ?_, ?_⟩, ?_, ?_⟩
      · intro j j1 j2
        dsimp only
        rw [hrun, hcur, I.run j j1 j2, List.take_append_of_le_length (I.cursor j j1 j2)]
      · intro j j1 j2
        dsimp only
        rw [hrun, hpost]
        have := I.posted j j1 j2
        by_cases hj : j = i
        · subst hj; rw [if_pos rfl]; omega
        · rw [if_neg hj]; omega
      · intro j j1 j2
        dsimp only
        rw [hcur, List.length_append]
        have := I.cursor j j1 j2
        omega
      · intro m' hm'
        dsimp only at hm'
        rw [List.mem_append, List.mem_singleton] at hm'
        rcases hm' with hm' | rfl
        · exact I.senders m' hm'
        · rw [hsm]; exact ⟨i1, i2⟩
      · intro j j1 j2
        dsimp only
        rw [hrun, hpost, List.filter_append, I.log j j1 j2]
        by_cases hj : j = i
        · subst hj
          rw [if_pos rfl, List.take_add_one, next, List.filter_cons_of_pos (by simp [hsm])]
          rfl
        · rw [if_neg hj, List.filter_cons_of_neg (by simp [hsm]; exact fun h => hj h.symm)]
          simp
      · dsimp only
        rw [List.length_append, I.length]
        simp only [hpost]
        rw [Finset.sum_add_distrib, hsum]
        rfl
      · intro j j1 j2
        dsimp only
        rw [hrun]
        exact hs j j1 j2
      · dsimp only
        simp only [hpost, hcur]
        rw [hk]
        rw [Finset.sum_add_distrib, Finset.sum_add_distrib, Finset.sum_add_distrib, hsum]
        omega
    | read i i1 i2 idle waits m next =>
      have hlt : (r.client i).cursor < r.log.length := (List.getElem?_eq_some_iff.1 next).1
      set c' : Driver.Client σ β ω ε := { r.client i with
        cursor := (r.client i).cursor + 1
        run := if accepts i m then Async.receive (T.machine i) T.critical (r.client i).run m
          else (r.client i).run } with hc'
      have hother : ∀ j, j ≠ i → Function.update r.client i c' j = r.client j :=
        fun j hj => Function.update_of_ne hj _ _
      have hself : Function.update r.client i c' i = c' := Function.update_self _ _ _
      have hpost : ∀ j, (Function.update r.client i c' j).posted = (r.client j).posted := by
        intro j
        by_cases hj : j = i
        · subst hj; rw [hself]
        · rw [hother j hj]
      have hcur : ∀ j, (Function.update r.client i c' j).cursor =
          (r.client j).cursor + if j = i then 1 else 0 := by
        intro j
        by_cases hj : j = i
        · subst hj; rw [hself, if_pos rfl]
        · rw [hother j hj, if_neg hj]; rfl
      have hrun : c'.run = Async.run (T.machine i) T.critical (T.start i)
          ((r.log.take ((r.client i).cursor + 1)).filter (accepts i)) := by
        rw [List.take_add_one, next, List.filter_append]
        rw [hc']
        dsimp only
        by_cases ha : accepts i m = true
        · rw [if_pos ha, I.run i i1 i2]
          simp only [Option.toList_some]
          rw [List.filter_cons_of_pos ha, List.filter_nil, run_snoc]
        · rw [if_neg ha, I.run i i1 i2]
          simp only [Option.toList_some]
          rw [List.filter_cons_of_neg ha, List.filter_nil, List.append_nil]
      have hsent : (r.client i).run.sent <+: c'.run.sent := by
        rw [hc']
        dsimp only
        split
        · exact Async.receive_sent _ _
        · exact List.prefix_rfl
      have hsum : ∑ j ∈ Finset.Icc 1 T.n, (if j = i then 1 else 0) = 1 := by
        rw [Finset.sum_ite_eq' (Finset.Icc 1 T.n) i, if_pos (Finset.mem_Icc.2 ⟨i1, i2⟩)]
      refine ⟨⟨?_, ?_, ?_, I.senders, ?_, ?_⟩, ?_, ?_⟩
      · intro j j1 j2
        dsimp only
        by_cases hj : j = i
        · subst hj
          rw [hself]
          exact hrun
        · rw [hother j hj, I.run j j1 j2]
      · intro j j1 j2
        dsimp only
        have := I.posted j j1 j2
        by_cases hj : j = i
        · subst hj
          rw [hself]
          exact this.trans hsent.length_le
        · rw [hother j hj]
          exact this
      · intro j j1 j2
        dsimp only
        have := I.cursor j j1 j2
        rw [hcur]
        by_cases hj : j = i
        · subst hj; rw [if_pos rfl]; omega
        · rw [if_neg hj]; omega
      · intro j j1 j2
        dsimp only
        rw [I.log j j1 j2]
        by_cases hj : j = i
        · subst hj
          rw [hself]
          have e := List.prefix_iff_eq_take.1 hsent
          show (r.client j).run.sent.take (r.client j).posted = c'.run.sent.take (r.client j).posted
          rw [idle, List.take_length]
          exact e
        · rw [hother j hj]
      · dsimp only
        simp only [hpost]
        exact I.length
      · intro j j1 j2
        dsimp only
        by_cases hj : j = i
        · subst hj
          rw [hself, hrun]
          exact hpre I hs i1 i2 (List.take_prefix _ _)
        · rw [hother j hj]
          exact hs j j1 j2
      · dsimp only
        simp only [hpost, hcur]
        rw [hk]
        rw [Finset.sum_add_distrib, Finset.sum_add_distrib, Finset.sum_add_distrib, hsum]
        omega

/-- No client returns anything but its output. -/
theorem Setting.Fits.sound (F : T.Fits K rd script out) {k : ℕ} {r : Room σ β ω ε} (h : T.Steps k r)
    {i : ℕ} (i1 : 1 ≤ i) (i2 : i ≤ T.n) :
    (r.client i).run.result = none ∨ (r.client i).run.result = some (.ok (out i)) := by
  obtain ⟨I, hs, -⟩ := h.inv F
  rw [I.run i i1 i2]
  rcases I.serves F hs i1 i2 (List.take_prefix _ _) with ⟨a, -⟩ | ⟨a, -⟩
  · exact .inl a
  · exact .inr a

/-- The clients take boundedly many steps. -/
theorem Setting.Fits.bounded (F : T.Fits K rd script out) {L : ℕ}
    (hL : ∀ i, 1 ≤ i → i ≤ T.n → (script i (K + 1)).length ≤ L) {k : ℕ} {r : Room σ β ω ε}
    (h : T.Steps k r) : k ≤ (T.n + 1) * (T.n * L) := by
  obtain ⟨I, hs, hk⟩ := h.inv F
  have hp : ∀ i ∈ Finset.Icc 1 T.n, (r.client i).posted ≤ L := by
    intro i hi
    obtain ⟨i1, i2⟩ := Finset.mem_Icc.1 hi
    exact ((I.posted i i1 i2).trans (hs i i1 i2).length_le).trans (hL i i1 i2)
  have hlen : r.log.length ≤ T.n * L := by
    rw [I.length]
    have := Finset.sum_le_card_nsmul _ _ _ hp
    simpa using this
  have hc : ∀ i ∈ Finset.Icc 1 T.n, (r.client i).cursor ≤ T.n * L := by
    intro i hi
    obtain ⟨i1, i2⟩ := Finset.mem_Icc.1 hi
    exact (I.cursor i i1 i2).trans hlen
  have hc' := Finset.sum_le_card_nsmul _ _ _ hc
  have hp' := Finset.sum_le_card_nsmul _ _ _ hp
  rw [hk, Finset.sum_add_distrib]
  simp only [Nat.card_Icc, Nat.add_sub_cancel, smul_eq_mul] at hc' hp'
  rw [Nat.add_mul, Nat.one_mul]
  omega

/-- When no client can take a step, all have returned their output. -/
theorem Setting.Fits.complete (F : T.Fits K rd script out) {k : ℕ} {r : Room σ β ω ε}
    (h : T.Steps k r) (hstuck : ¬ ∃ r', T.Step r r') {i : ℕ} (i1 : 1 ≤ i) (i2 : i ≤ T.n) :
    (r.client i).run.result = some (.ok (out i)) := by
  obtain ⟨I, hs, -⟩ := h.inv F
  have hidle : ∀ i, 1 ≤ i → i ≤ T.n → (r.client i).posted = (r.client i).run.sent.length := by
    intro i i1 i2
    have := I.posted i i1 i2
    by_contra hne
    exact hstuck ⟨_, .post r i i1 i2 _ (List.getElem?_eq_getElem (by omega))⟩
  have hall : ∀ i, 1 ≤ i → i ≤ T.n → (r.client i).run.result = none →
      (r.client i).cursor = r.log.length := by
    intro i i1 i2 hn
    have := I.cursor i i1 i2
    by_contra hne
    exact hstuck ⟨_, .read r i i1 i2 (hidle i i1 i2) hn _ (List.getElem?_eq_getElem (by omega))⟩
  have hlog : ∀ i, 1 ≤ i → i ≤ T.n →
      r.log.filter (fun m => decide (m.sender = i)) = (r.client i).run.sent := by
    intro i i1 i2
    rw [I.log i i1 i2, hidle i i1 i2, List.take_length]
  -- the round of a client
  have key : ∀ q i, 1 ≤ i → i ≤ T.n → (r.client i).run.result = none →
      (∃ pos, pos ≤ q ∧ 1 ≤ pos ∧ pos ≤ K ∧ (r.client i).run.sent = script i pos ∧
        ∃ p, 1 ≤ p ∧ p ≤ T.n ∧ p ≠ i ∧ ∀ m ∈ r.log.filter (accepts i), m.sender = p →
          rd m.body ≠ pos) → False := by
    intro q
    induction q using Nat.strong_induction_on with
    | _ q ih =>
      rintro i i1 i2 hn ⟨pos, hq, p1, p2, hsent, p, q1, q2, q3, hmiss⟩
      -- what the missing sender has sent
      have hp := I.serves F hs q1 q2 (List.take_prefix (r.client p).cursor r.log)
      rw [← I.run p q1 q2] at hp
      have hbig : ∃ k', pos ≤ k' ∧ k' ≤ K + 1 ∧ (r.client p).run.sent = script p k' := by
        rcases hp with ⟨hn', pos', a, b, c, p', d1, d2, d3, d4⟩ | ⟨-, c⟩
        · refine ⟨pos', ?_, by omega, c⟩
          by_contra hlt
          refine ih pos' (by omega) p q1 q2 hn' ⟨pos', le_rfl, a, b, c, p', d1, d2, d3, ?_⟩
          rw [hall p q1 q2 hn', List.take_length] at d4
          exact d4
        · exact ⟨K + 1, by omega, le_rfl, c⟩
      obtain ⟨k', a, b, c⟩ := hbig
      obtain ⟨m, e1, e2, e3⟩ := F.early i p i1 i2 q1 q2 (fun h => q3 h.symm) pos p1 p2 k' a b
      rw [← c, ← hlog p q1 q2] at e1
      obtain ⟨f1, f2⟩ := List.mem_filter.1 e1
      exact hmiss m (List.mem_filter.2 ⟨f1, e3⟩) (by simpa using f2) e2
  have hi := I.serves F hs i1 i2 (List.take_prefix (r.client i).cursor r.log)
  rw [← I.run i i1 i2] at hi
  rcases hi with ⟨hn, pos, a, b, c, hp⟩ | ⟨h, -⟩
  · exfalso
    rw [hall i i1 i2 hn, List.take_length] at hp
    exact key pos i i1 i2 hn ⟨pos, le_rfl, a, b, c, hp⟩
  · exact h

end Demo.Driver
end Verif
