import Verif.Lemmas.KeygenSM
import Verif.Lemmas.RoundMachineSim
import Verif.Spec.KeygenSM
import Mathlib.Data.List.Sort
import Mathlib.Data.List.Range

/-! # The specification of `Keygen` in terms of the round machine -/

namespace Verif

theorem mem_others {me n p : ℕ} (h1 : 1 ≤ me) (h2 : me ≤ n) :
    p ∈ others me n ↔ 1 ≤ p ∧ p ≤ n ∧ p ≠ me := by
  unfold others
  simp only [List.mem_map, List.mem_range]
  constructor
  · rintro ⟨i, hi, rfl⟩
    exact ⟨Store.owner_pos, Store.owner_le hi, Store.owner_ne⟩
  · rintro ⟨a, b, c⟩
    exact ⟨Store.slot me p, (Store.slot_lt h1 h2 a c).2 b, Store.owner_slot h1 a c⟩

theorem mem_peers {me n p : ℕ} : p ∈ Spec.peers me n ↔ 1 ≤ p ∧ p ≤ n ∧ p ≠ me := by
  unfold Spec.peers
  simp only [List.mem_filter, List.mem_range'_1, decide_eq_true_eq]
  omega

theorem others_eq_peers {me n : ℕ} (h1 : 1 ≤ me) (h2 : me ≤ n) : others me n = Spec.peers me n := by
  have s1 : (others me n).Pairwise (· < ·) := by
    unfold others
    rw [List.pairwise_map]
    exact List.pairwise_lt_range.imp fun h => Store.owner_strictMono h
  have s2 : (Spec.peers me n).Pairwise (· < ·) := by
    unfold Spec.peers
    exact (List.pairwise_lt_range' (s := 1) (n := n)).filter _
  refine s1.eq_of_mem_iff s2 fun p => ?_
  rw [mem_others h1 h2, mem_peers]

namespace GG20.Keygen

open EC Crypto Spec

variable [Crypto]

theorem rd_eq (rnd : KeygenRandomness) (m : Msg M) : (sim rnd).rd m = KeygenMsg.round m.body := by
  obtain ⟨a, b, c⟩ := m
  cases c <;> rfl

theorem round_pos (m : M) : 1 ≤ KeygenMsg.round m ∧ KeygenMsg.round m ≤ 4 := by
  cases m <;> simp [KeygenMsg.round]

theorem expected_iff {rnd : KeygenRandomness} {i n : ℕ} {m : Msg M} :
    KeygenMsg.Expected i n m ↔
      Addressed i n ((proto rnd).p2p ((sim rnd).rd m)) m.sender m.receiver := by
  unfold KeygenMsg.Expected
  rw [rd_eq, mem_peers]
  have e : (proto rnd).p2p (KeygenMsg.round m.body) = decide (KeygenMsg.round m.body = 3) := rfl
  rw [e]
  constructor
  · rintro ⟨⟨a, b, c⟩, d⟩
    exact ⟨a, b, c, by simpa using d⟩
  · rintro ⟨a, b, c, d⟩
    exact ⟨⟨a, b, c⟩, by simpa using d⟩

theorem expected_of {rnd : KeygenRandomness} {i n : ℕ} {m : Msg M} :
    KeygenMsg.Expected i n m ↔
      (proto rnd).WellAddressed i n (m.mapBody (tagM rnd)) := by
  rw [expected_iff (rnd := rnd)]
  have h := round_pos m.body
  rw [← rd_eq rnd m] at h
  exact ⟨fun x => ⟨h.1, h.2, x⟩, fun x => x.2.2⟩

/-- The state after `new` corresponds to the initial state of the round machine. -/
theorem new_ok {rnd : KeygenRandomness} {i t n : ℕ} {s : State} {r : Res Error Unit}
    (h : new rnd i t n = .ok (s, r)) :
    r = .ok () ∧ abs rnd s = (proto rnd).init i n ⟨i, t, n⟩ ∧ 1 ≤ i ∧ i ≤ n ∧ 2 ≤ n ∧ 1 ≤ t ∧ t < n := by
  unfold new at h
  split_ifs at h with c1 c2 c3
  rw [proceed_round_0 rfl, if_neg (by simp [Round0.is_expensive])] at h
  simp only [Except.ok.injEq, Prod.mk.injEq] at h
  obtain ⟨rfl, rfl⟩ := h
  refine ⟨rfl, ?_, by omega, by omega, by omega, by omega, by omega⟩
  unfold abs Proto.init
  congr 1
  funext k
  match k with
  | 0 | 1 | 2 | 3 | 4 | _ + 5 => rfl

theorem keeps (rnd : KeygenRandomness) : Proto.Sim.KeepsOnRefusal (P := proto rnd) (machine rnd) := by
  intro s m e he hr
  have hp : ∀ s', (proceed_round rnd false s').2 = .err e → False := by
    intro s' h
    have := sim_proceed rnd false s'
    have h2 := congrArg Prod.snd this
    rw [h] at h2
    have := Proto.proceedRound_not_refuses h2
    rw [hr] at this
    cases this
  change (handle_incoming rnd s m).2 = .err e at he
  change (handle_incoming rnd s m).1 = s
  obtain ⟨snd, rcv, body⟩ := m
  unfold handle_incoming at he ⊢
  cases body with
  | Round1 b =>
    cases hs : s.msgs1 with
    | none => simp only
    | some st =>
      simp only [hs] at he ⊢
      cases hpm : st.push_msg ⟨snd, rcv, b⟩ with
      | ok st' => simp only [hpm] at he; exact (hp _ he).elim
      | err e => simp only
      | panic => simp only
  | Round2 b =>
    cases hs : s.msgs2 with
    | none => simp only
    | some st =>
      simp only [hs] at he ⊢
      cases hpm : st.push_msg ⟨snd, rcv, b⟩ with
      | ok st' => simp only [hpm] at he; exact (hp _ he).elim
      | err e => simp only
      | panic => simp only
  | Round3 b =>
    cases hs : s.msgs3 with
    | none => simp only
    | some st =>
      simp only [hs] at he ⊢
      cases hpm : st.push_msg ⟨snd, rcv, b⟩ with
      | ok st' => simp only [hpm] at he; exact (hp _ he).elim
      | err e => simp only
      | panic => simp only
  | Round4 b =>
    cases hs : s.msgs4 with
    | none => simp only
    | some st =>
      simp only [hs] at he ⊢
      cases hpm : st.push_msg ⟨snd, rcv, b⟩ with
      | ok st' => simp only [hpm] at he; exact (hp _ he).elim
      | err e => simp only
      | panic => simp only

/-- The bodies as a family. -/
def bodies (b1 : ℕ → KeyGenBroadcastMessage1) (b2 : ℕ → KeyGenDecommitMessage1)
    (b3 : ℕ → Vss × Sc) (b4 : ℕ → DLogProof) : (j : ℕ) → ℕ → Bd j
  | 1 => b1
  | 2 => b2
  | 3 => b3
  | 4 => b4
  | 0 => fun _ => ()
  | _ + 5 => fun _ => ()

omit [Crypto] in
theorem script_step_map {μ ν ε α β : Type} (g : μ → ν) (x : List μ × Res ε α)
    (f : α → Res ε (β × List μ)) (f' : α → Res ε (β × List ν))
    (hf : ∀ a, f' a = (f a >>= fun r => .ok (r.1, r.2.map g))) :
    Script.step (x.1.map g, x.2) f' = ((Script.step x f).1.map g, (Script.step x f).2) := by
  obtain ⟨l, r⟩ := x
  cases r with
  | ok a =>
    simp only [Script.step, hf]
    cases f a with
    | ok b => simp only [Res.bind_ok, List.map_append]
    | err e => rfl
    | panic => rfl
  | err e => rfl
  | panic => rfl

theorem sending_map {rnd : KeygenRandomness} {j : ℕ} {α : Type} (f : (proto rnd).Bd j → M)
    (hf : ∀ b, tagM rnd (f b) = ⟨j, b⟩) (x : Res ProceedError (α × List (Msg ((proto rnd).Bd j)))) :
    (do let ro ← x; .ok (ro.1, ro.2.map ((proto rnd).tag j)) :
      Res ProceedError (α × List (Msg (proto rnd).Body))) =
      (sending f x >>= fun r => .ok (r.1, r.2.map (Msg.mapBody (tagM rnd)))) := by
  cases x with
  | ok ro =>
    simp only [sending, Res.bind_ok, List.map_map]
    congr 2
    refine List.map_congr_left fun m _ => ?_
    simp only [Function.comp, Proto.tag, Msg.mapBody, hf]
  | err e => rfl
  | panic => rfl

/-- The straight-line execution of the round machine is `keygenLine`. -/
theorem script_eq (rnd : KeygenRandomness) {i t n : ℕ} (h1 : 1 ≤ i) (h2 : i ≤ n)
    (body : (j : ℕ) → ℕ → Bd j) :
    (proto rnd).script ⟨i, t, n⟩ (fun j => (others i n).map (body j)) 5 =
      ((keygenLine rnd i t n (body 1) (body 2) (body 3) (body 4)).1.map (Msg.mapBody (tagM rnd)),
        (keygenLine rnd i t n (body 1) (body 2) (body 3) (body 4)).2) := by
  rw [others_eq_peers h1 h2]
  unfold keygenLine
  have e0 : (proto rnd).script (⟨i, t, n⟩ : Round0) (fun j => (peers i n).map (body j)) 0 =
      (([] : List (Msg M)).map (Msg.mapBody (tagM rnd)), .ok (⟨i, t, n⟩ : Round0)) := rfl
  have e1 : (proto rnd).script (⟨i, t, n⟩ : Round0) (fun j => (peers i n).map (body j)) 1 = _ :=
    (congrArg (fun x => Script.step x _) e0).trans
      (script_step_map (Msg.mapBody (tagM rnd)) ([], .ok (⟨i, t, n⟩ : Round0))
        (fun r => sending .Round1 (r.proceed rnd)) _ (fun r =>
          sending_map (rnd := rnd) (j := 1) M.Round1 (fun _ => rfl)
            (Round0.proceed r rnd)))
  have e2 : (proto rnd).script (⟨i, t, n⟩ : Round0) (fun j => (peers i n).map (body j)) 2 = _ :=
    (congrArg (fun x => Script.step x _) e1).trans
      (script_step_map (Msg.mapBody (tagM rnd)) _
        (fun r : Round1 => sending .Round2 (r.proceed ((peers i n).map (body 1)))) _ (fun r =>
          sending_map (rnd := rnd) (j := 2) M.Round2 (fun _ => rfl)
            (Round1.proceed r ((peers i n).map (body 1)))))
  have e3 : (proto rnd).script (⟨i, t, n⟩ : Round0) (fun j => (peers i n).map (body j)) 3 = _ :=
    (congrArg (fun x => Script.step x _) e2).trans
      (script_step_map (Msg.mapBody (tagM rnd)) _
        (fun r : Round2 => sending .Round3 (r.proceed ((peers i n).map (body 2)) rnd)) _ (fun r =>
          sending_map (rnd := rnd) (j := 3) M.Round3 (fun _ => rfl)
            (Round2.proceed r ((peers i n).map (body 2)) rnd)))
  have e4 : (proto rnd).script (⟨i, t, n⟩ : Round0) (fun j => (peers i n).map (body j)) 4 = _ :=
    (congrArg (fun x => Script.step x _) e3).trans
      (script_step_map (Msg.mapBody (tagM rnd)) _
        (fun r : Round3 => sending .Round4 (r.proceed ((peers i n).map (body 3)) rnd)) _ (fun r =>
          sending_map (rnd := rnd) (j := 4) M.Round4 (fun _ => rfl)
            (Round3.proceed r ((peers i n).map (body 3)) rnd)))
  exact (congrArg (fun x => Script.step x _) e4).trans
      (script_step_map (Msg.mapBody (tagM rnd)) _
        (fun r : Round4 => do
          let key ← r.proceed ((peers i n).map (body 4))
          .ok (key, [])) _ (fun r => by
          change (do
            let ro ← (Round4.proceed r ((peers i n).map (body 4)) >>= fun k => .ok (k, []) :
              Res ProceedError (LocalKey × List (Msg Unit)))
            .ok (ro.1, ro.2.map ((proto rnd).tag 5)) :
              Res ProceedError (LocalKey × List (Msg (proto rnd).Body))) = _
          cases Round4.proceed r ((peers i n).map (body 4)) <;> rfl))

/-- A schedule of calls is a schedule of the round machine. -/
theorem schedule_map {rnd : KeygenRandomness} {i n : ℕ} {b1 : ℕ → KeyGenBroadcastMessage1}
    {b2 : ℕ → KeyGenDecommitMessage1} {b3 : ℕ → Vss × Sc} {b4 : ℕ → DLogProof}
    {ops : List (Op M)} (hs : KeygenSchedule i n b1 b2 b3 b4 ops) :
    (proto rnd).Schedule i n (bodies b1 b2 b3 b4) (ops.map (sim rnd).op) := by
  refine ⟨?_, ?_, ?_⟩
  · intro op hop
    obtain ⟨o, ho, rfl⟩ := List.mem_map.1 hop
    cases o with
    | pick => exact (hs.noPick ho).elim
    | deliver m => trivial
    | proceed => trivial
    | drain => trivial
  · intro m hm ha
    obtain ⟨o, ho, e⟩ := List.mem_map.1 hm
    cases o with
    | deliver m' =>
      have e : m'.mapBody (tagM rnd) = m := by
        simp only [Proto.Sim.op, Op.deliver.injEq] at e
        exact e
      subst e
      have := hs.genuine m' ho ((expected_of (rnd := rnd)).2 ha)
      obtain ⟨a, b, c⟩ := m'
      cases c <;> exact this
    | proceed => cases e
    | drain => cases e
    | pick => cases e
  · intro j p j1 j2 p1 p2 p3
    obtain ⟨d1, d2, d3, d4⟩ := hs.complete p (mem_peers.2 ⟨p1, p2, p3⟩)
    have j2 : j ≤ 4 := j2
    interval_cases j
    · exact List.mem_map.2 ⟨_, d1, rfl⟩
    · exact List.mem_map.2 ⟨_, d2, rfl⟩
    · exact List.mem_map.2 ⟨_, d3, rfl⟩
    · exact List.mem_map.2 ⟨_, d4, rfl⟩

end GG20.Keygen
end Verif
