import Verif.Lemmas.RoundMachineSim
import Verif.Lemmas.Network

/-! # The order of a machine's messages, and the round it reports -/

namespace Verif.Proto

variable (P : Proto)

theorem straight_rounds {r0 : P.St 0} {v : (k : ℕ) → List (P.Bd k)} {k : ℕ} {r : P.St k}
    {q : List (Msg P.Body)} (h : P.straight r0 v k = .ok (r, q)) : ∀ m ∈ q, m.body.1 ≤ k := by
  induction k generalizing q with
  | zero =>
    simp only [straight, Res.ok.injEq, Prod.mk.injEq] at h
    intro m hm
    rw [← h.2] at hm
    cases hm
  | succ k ih =>
    unfold straight at h
    simp only [Res.bind_eq_ok] at h
    obtain ⟨⟨rk, qk⟩, h1, ⟨ro, out⟩, h2, h3⟩ := h
    simp only [Res.ok.injEq, Prod.mk.injEq] at h3
    intro m hm
    rw [← h3.2, List.mem_append] at hm
    rcases hm with hm | hm
    · exact (ih h1 m hm).trans (Nat.le_succ k)
    · obtain ⟨m', -, rfl⟩ := List.mem_map.1 hm
      exact le_refl (k + 1)

theorem straight_before {r0 : P.St 0} {v : (k : ℕ) → List (P.Bd k)} {k l : ℕ} (hkl : k ≤ l)
    {x : P.St l × List (Msg P.Body)} (h : P.straight r0 v l = .ok x) :
    ∃ y, P.straight r0 v k = .ok y := by
  induction l with
  | zero => obtain rfl : k = 0 := by omega
            exact ⟨x, h⟩
  | succ l ih =>
    rcases Nat.lt_or_ge l k with hlt | hge
    · obtain rfl : k = l + 1 := by omega
      exact ⟨x, h⟩
    · unfold straight at h
      rw [Res.bind_eq_ok] at h
      obtain ⟨y, h1, -⟩ := h
      exact ih hge h1

theorem currentRound_pick (s : P.State) : P.currentRound s ≤ P.currentRound (P.pick s).1 := by
  unfold pick
  split
  · exact le_refl _
  · next k r hr =>
    split
    · next hk =>
      unfold currentRound
      rw [hr]
      exact hk.le
    · exact le_refl _

theorem Inv.current {P : Proto} {me n : ℕ} {r0 : P.St 0} {h : P.Hist} {L : P.Log} {pos : ℕ}
    (hi : P.Inv me n r0 h L pos) (hp : h.panicked = false) : P.currentRound h.st ≤ P.K + 1 := by
  unfold currentRound
  cases hi.phase with
  | running r _ hr hle => rw [hr]; exact hle
  | failed k rk e m _ hr => rw [hr]
  | panicked k rk hp' => rw [hp] at hp'; cases hp'
  | picked o m _ hr => rw [hr]

theorem currentRound_step {me n : ℕ} {r0 : P.St 0} {h : P.Hist} {L : P.Log} {pos : ℕ}
    (hi : P.Inv me n r0 h L pos) (op : Op P.Body) :
    P.currentRound h.st ≤ P.currentRound (P.machine.step h op).st := by
  unfold StateMachine.step
  split
  · exact le_refl _
  · next hp =>
    rw [Bool.not_eq_true] at hp
    have hs := hi.current hp
    have hrec : ∀ r : P.State × Res (SMError P.Er) Unit, (StateMachine.record h r).st = r.1 := by
      intro r
      unfold StateMachine.record
      split <;> rfl
    cases op with
    | deliver m =>
      dsimp only
      split
      · show _ ≤ P.currentRound (StateMachine.record h _).st
        rw [hrec]
        exact P.currentRound_handle _ m hs
      · rw [hrec]
        exact P.currentRound_handle _ m hs
    | proceed =>
      dsimp only
      rw [hrec]
      exact (P.currentRound_proceedRound true _ hs).1
    | drain => exact le_refl _
    | pick =>
      have := P.currentRound_pick h.st
      dsimp only
      split <;> exact this

namespace Sim

variable {P} {σ β : Type} {M : StateMachine σ β (P.St (P.K + 1)) P.Er} (S : P.Sim M)
variable {s : σ} {me n : ℕ} {r0 : P.St 0}

/-- The reported round never decreases. -/
theorem current_mono (hs : S.abs s = P.init me n r0) (h1 : 1 ≤ me) (h2 : me ≤ n) (ops later : List (Op β)) :
    M.current_round (M.run s ops).st ≤ M.current_round (M.run s (ops ++ later)).st := by
  induction later using List.reverseRecOn with
  | nil => rw [List.append_nil]
  | append_singleton later op ih =>
    refine ih.trans ?_
    obtain ⟨L, pos, hi⟩ := S.inv hs h1 h2 (ops ++ later)
    have := P.currentRound_step hi (S.op op)
    rw [S.step] at this
    rw [S.current, S.current, ← List.append_assoc]
    have e : M.run s (ops ++ later ++ [op]) = M.step (M.run s (ops ++ later)) op := by
      unfold StateMachine.run
      rw [List.foldl_append]
      rfl
    rw [e]
    exact this

/-- All messages of the rounds before `pos` have been accepted. -/
private theorem accepted_of_full {L : P.Log} {pos : ℕ} {h : History σ β (P.St (P.K + 1)) P.Er}
    (hi : P.Inv me n r0 (S.hist h) L pos) (h1 : 1 ≤ me) (h2 : me ≤ n) {j : ℕ} (j1 : 1 ≤ j)
    (j2 : j < pos) {p : ℕ} (p1 : 1 ≤ p) (p2 : p ≤ n) (p3 : p ≠ me) :
    ∃ m ∈ h.accepted, m.sender = p ∧ S.rd m = j := by
  have hpos := hi.phase.pos_le
  have hf := (hi.stores.gone j j1 j2).2 (Store.slot me p) ((Store.slot_lt h1 h2 p1 p3).2 p2)
  obtain ⟨b, hb⟩ := Option.isSome_iff_exists.1 hf
  have hm := (hi.log (P.slotMsg me j (Store.slot me p) b)).2
    ⟨j, _, b, j1, by omega, (Store.slot_lt h1 h2 p1 p3).2 p2, hb, rfl⟩
  obtain ⟨m, hm1, hm2⟩ := List.mem_map.1 hm
  refine ⟨m, hm1, ?_, congrArg (fun x => x.body.1) hm2⟩
  have : m.sender = Store.owner me (Store.slot me p) := congrArg Msg.sender hm2
  rw [this, Store.owner_slot h1 p1 p3]

/-- Whatever was sent in a round, the messages of all earlier rounds had been accepted. -/
theorem order_spec (hs : S.abs s = P.init me n r0) (h1 : 1 ≤ me) (h2 : me ≤ n) (ops : List (Op β))
    {m : Msg β} (hm : m ∈ M.sent (M.run s ops)) {j : ℕ} (j1 : 1 ≤ j) (j2 : j < S.rd m) {p : ℕ}
    (p1 : 1 ≤ p) (p2 : p ≤ n) (p3 : p ≠ me) :
    ∃ m' ∈ (M.run s ops).accepted, m'.sender = p ∧ S.rd m' = j := by
  obtain ⟨L, pos, hi⟩ := S.inv hs h1 h2 ops
  have hm' : m.mapBody S.tagB ∈ P.machine.sent (S.hist (M.run s ops)) := by
    rw [S.sent]; exact List.mem_map.2 ⟨m, hm, rfl⟩
  have hle : S.rd m ≤ pos := by
    cases hi.phase with
    | running r hp hr hle hc => exact P.straight_rounds hc _ hm'
    | failed k rk e m hp hr hpos hk hc => have := P.straight_rounds hc _ hm'; unfold rd; exact this.trans (by omega)
    | panicked k rk hp hpos hk hc => have := P.straight_rounds hc _ hm'; unfold rd; exact this.trans (by omega)
    | picked o m hp hr hpos hc => have := P.straight_rounds hc _ hm'; unfold rd; exact this.trans (by omega)
  exact S.accepted_of_full hi h1 h2 j1 (by omega) p1 p2 p3

/-- Whatever was sent in round `k`, the rounds before had succeeded on accepted messages. -/
theorem sent_straight (hs : S.abs s = P.init me n r0) (h1 : 1 ≤ me) (h2 : me ≤ n) (hn : 2 ≤ n)
    (ops : List (Op β)) {m : Msg β} (hm : m ∈ M.sent (M.run s ops)) {k : ℕ} (hk : k ≤ S.rd m) :
    ∃ v : (j : ℕ) → List (P.Bd j),
      (∀ j, 1 ≤ j → j < k → ∃ body : ℕ → P.Bd j, v j = (others me n).map body ∧
        ∀ p ∈ others me n, (⟨p, if P.p2p j then some me else none, ⟨j, body p⟩⟩ : Msg P.Body) ∈
          (M.run s ops).accepted.map (Msg.mapBody S.tagB)) ∧
      ∃ x, P.straight r0 v k = .ok x := by
  obtain ⟨L, pos, hi⟩ := S.inv hs h1 h2 ops
  have hm' : m.mapBody S.tagB ∈ P.machine.sent (S.hist (M.run s ops)) := by
    rw [S.sent]; exact List.mem_map.2 ⟨m, hm, rfl⟩
  have hpos := hi.phase.pos_le
  have key : ∀ l r, P.straight r0 (P.vecs n L) l = .ok (r, P.machine.sent (S.hist (M.run s ops))) →
      k ≤ l ∧ ∃ x, P.straight r0 (P.vecs n L) k = .ok x := by
    intro l r hc
    have hle : k ≤ l := hk.trans (P.straight_rounds hc _ hm')
    exact ⟨hle, P.straight_before hle hc⟩
  have main : k ≤ pos ∧ ∃ x, P.straight r0 (P.vecs n L) k = .ok x := by
    cases hi.phase with
    | running r hp hr hle hc => exact key _ _ hc
    | failed k' rk e m hp hr hpos hk hc => obtain ⟨a, b⟩ := key _ _ hc; exact ⟨by omega, b⟩
    | panicked k' rk hp hpos hk hc => obtain ⟨a, b⟩ := key _ _ hc; exact ⟨by omega, b⟩
    | picked o m hp hr hpos hc => obtain ⟨a, b⟩ := key _ _ hc; exact ⟨by omega, b⟩
  refine ⟨P.vecs n L, ?_, main.2⟩
  intro j j1 j2
  obtain ⟨body, b1, b2⟩ := body_of_full hn hi.log j1 (by omega)
    (hi.stores.gone j j1 (by omega)).2
  exact ⟨body, b2, b1⟩

/-- What the reported round means. -/
theorem current_spec (hs : S.abs s = P.init me n r0) (h1 : 1 ≤ me) (h2 : me ≤ n) (ops : List (Op β))
    (hp : (M.run s ops).panicked = false) :
    M.current_round (M.run s ops).st ≤ P.K + 1 ∧
    (M.current_round (M.run s ops).st = P.K + 1 ↔ M.is_finished (M.run s ops).st = true ∨
      (M.run s ops).outputs ≠ [] ∨ ∃ e, .ProceedRound e ∈ (M.run s ops).errors) ∧
    ((M.run s ops).errors = [] → (∀ m ∈ M.sent (M.run s ops), S.rd m ≤ M.current_round (M.run s ops).st) ∧
      ∀ j p, 1 ≤ j → j < M.current_round (M.run s ops).st → 1 ≤ p → p ≤ n → p ≠ me →
        ∃ m ∈ (M.run s ops).accepted, m.sender = p ∧ S.rd m = j) := by
  obtain ⟨L, pos, hi⟩ := S.inv hs h1 h2 ops
  have hacc := fun j p j1 j2 p1 p2 p3 => S.accepted_of_full hi h1 h2 (j := j) j1 j2 (p := p) p1 p2 p3
  have hsent : ∀ k, (∀ x ∈ P.machine.sent (S.hist (M.run s ops)), x.body.1 ≤ k) →
      ∀ m ∈ M.sent (M.run s ops), S.rd m ≤ k := by
    intro k hk m hm
    refine hk (m.mapBody S.tagB) ?_
    rw [S.sent]; exact List.mem_map.2 ⟨m, hm, rfl⟩
  rw [S.current, S.finished]
  show P.currentRound (S.hist (M.run s ops)).st ≤ _ ∧ (P.currentRound (S.hist (M.run s ops)).st = _ ↔
    P.machine.is_finished (S.hist (M.run s ops)).st = true ∨ _) ∧ _
  cases hi.phase with
  | running r _ hr hle hc he ho =>
    have hcur : P.currentRound (S.hist (M.run s ops)).st = pos := by unfold currentRound; rw [hr]
    have hfin : P.machine.is_finished (S.hist (M.run s ops)).st = decide (pos = P.K + 1) := by
      simp only [machine, hr]
    have ho : (M.run s ops).outputs = [] := ho
    have he : (M.run s ops).errors = [] := he
    refine ⟨hcur.trans_le hle, ?_, fun _ => ?_⟩
    · rw [hcur, hfin, ho, he]
      simp
    · show (∀ m ∈ M.sent (M.run s ops), S.rd m ≤ P.currentRound (S.hist (M.run s ops)).st) ∧
        ∀ j p, 1 ≤ j → j < P.currentRound (S.hist (M.run s ops)).st → _
      rw [hcur]
      exact ⟨hsent pos (P.straight_rounds hc), fun j p j1 j2 p1 p2 p3 => hacc j p j1 j2 p1 p2 p3⟩
  | failed k rk e m _ hr hpos hk hc hc' he ho =>
    have hcur : P.currentRound (S.hist (M.run s ops)).st = P.K + 1 := by unfold currentRound; rw [hr]
    have he : (M.run s ops).errors = .ProceedRound e :: List.replicate m .DoublePickOutput := he
    refine ⟨hcur.le, ⟨fun _ => .inr (.inr ⟨e, ?_⟩), fun _ => hcur⟩, fun h0 => ?_⟩
    · rw [he]; exact List.mem_cons_self
    · rw [he] at h0; cases h0
  | panicked k rk hp' =>
    have hp' : (M.run s ops).panicked = true := hp'
    rw [hp] at hp'; cases hp'
  | picked o m _ hr hpos hc he ho =>
    have hcur : P.currentRound (S.hist (M.run s ops)).st = P.K + 1 := by unfold currentRound; rw [hr]
    have ho : (M.run s ops).outputs = [o] := ho
    refine ⟨hcur.le, ⟨fun _ => .inr (.inl (by rw [ho]; simp)), fun _ => hcur⟩, fun _ => ?_⟩
    show (∀ m ∈ M.sent (M.run s ops), S.rd m ≤ P.currentRound (S.hist (M.run s ops)).st) ∧
      ∀ j p, 1 ≤ j → j < P.currentRound (S.hist (M.run s ops)).st → _
    rw [hcur]
    exact ⟨hsent _ (P.straight_rounds hc),
      fun j p j1 j2 p1 p2 p3 => hacc j p j1 (by omega) p1 p2 p3⟩

end Sim

end Verif.Proto
