import Verif.Lemmas.SignSM
import Verif.Lemmas.KeygenSMSpec
import Verif.Spec.SignSM
import Mathlib.Data.List.Destutter

/-! # The specification of `OfflineStage` in terms of the round machine -/

namespace Verif.GG20.Sign

open EC Crypto Spec

variable [Crypto]

theorem rd_eq (rnd : SignRandomness) (m : Msg M) : (sim rnd).rd m = SignMsg.round m.body := by
  obtain ⟨a, b, c⟩ := m
  cases c <;> rfl

theorem round_pos (m : M) : 1 ≤ SignMsg.round m ∧ SignMsg.round m ≤ 6 := by
  cases m <;> simp [SignMsg.round]

theorem expected_iff {rnd : SignRandomness} {i n : ℕ} {m : Msg M} :
    SignMsg.Expected i n m ↔
      Addressed i n ((proto rnd).p2p ((sim rnd).rd m)) m.sender m.receiver := by
  unfold SignMsg.Expected
  rw [rd_eq, mem_peers]
  have e : (proto rnd).p2p (SignMsg.round m.body) = decide (SignMsg.round m.body = 2) := rfl
  rw [e]
  constructor
  · rintro ⟨⟨a, b, c⟩, d⟩
    exact ⟨a, b, c, by simpa using d⟩
  · rintro ⟨a, b, c, d⟩
    exact ⟨⟨a, b, c⟩, by simpa using d⟩

theorem expected_of {rnd : SignRandomness} {i n : ℕ} {m : Msg M} :
    SignMsg.Expected i n m ↔ (proto rnd).WellAddressed i n (m.mapBody (tagM rnd)) := by
  rw [expected_iff (rnd := rnd)]
  have h := round_pos m.body
  rw [← rd_eq rnd m] at h
  exact ⟨fun x => ⟨h.1, h.2, x⟩, fun x => x.2.2⟩

theorem fresh_iff {rnd : SignRandomness} {i n : ℕ} {acc : List (Msg M)} {m : Msg M} :
    SignMsg.Fresh i n acc m ↔ (sim rnd).Fresh i n acc m := by
  have h := round_pos m.body
  unfold SignMsg.Fresh Proto.Sim.Fresh
  rw [expected_iff (rnd := rnd)]
  simp only [rd_eq]
  exact ⟨fun x => ⟨h.1, h.2, x.1, x.2⟩, fun x => ⟨x.2.2.1, x.2.2.2⟩⟩

omit [Crypto] in
theorem nodup_sorted_iff (l : List ℕ) : l.mergeSort = l.mergeSort.destutter (· ≠ ·) ↔ l.Nodup := by
  have hp := List.mergeSort_perm l (· ≤ ·)
  have hs := List.pairwise_mergeSort (le := fun a b : ℕ => decide (a ≤ b))
    (by simp; omega) (by simp; omega) l
  rw [← hp.nodup_iff]
  generalize l.mergeSort = m at hs
  rw [eq_comm, List.destutter_eq_self_iff]
  constructor
  · intro hc
    have h2 : m.IsChain (· < ·) := by
      have h3 := hs.isChain
      rw [List.isChain_iff_getElem] at h3 hc ⊢
      intro k hk
      have a := h3 k hk
      have b := hc k hk
      simp only [decide_eq_true_eq] at a
      omega
    exact (List.isChain_iff_pairwise.1 h2).imp fun h => Nat.ne_of_lt h
  · intro hn
    exact List.Pairwise.isChain hn

/-- The state after `new` corresponds to the initial state of the round machine. -/
theorem new_ok {rnd : SignRandomness} {i : ℕ} {s_l : List ℕ} {key : LocalKey} {s : State}
    (h : new i s_l key = .ok s) :
    abs rnd s = (proto rnd).init i s_l.length ⟨i, s_l, key⟩ ∧ 1 ≤ i ∧ i ≤ s_l.length ∧
      2 ≤ s_l.length := by
  unfold new at h
  split_ifs at h with c1 c2 c3 c4 c5
  simp only [Except.ok.injEq] at h
  subst h
  refine ⟨?_, by omega, by omega, by omega⟩
  unfold abs Proto.init
  congr 1
  funext k
  match k with
  | 0 | 1 | 2 | 3 | 4 | 5 | 6 | _ + 7 => rfl

theorem keeps (rnd : SignRandomness) : Proto.Sim.KeepsOnRefusal (P := proto rnd) (machine rnd) := by
  intro s m e he hr
  have hp : ∀ s', (proceed_round rnd false s').2 = .err e → False := by
    intro s' h
    have := sim_proceed rnd false s'
    have h2 := congrArg Prod.snd this
    rw [h] at h2
    have := Proto.proceedRound_not_refuses h2
    rw [hr] at this
    cases this
  change (handle_incoming rnd s m).2 = .err e at he
  change (handle_incoming rnd s m).1 = s
  obtain ⟨snd, rcv, body⟩ := m
  unfold handle_incoming at he ⊢
  cases body with
  | M1 b =>
    cases hs : s.msgs1 with
    | none => simp only
    | some st =>
      simp only [hs] at he ⊢
      cases hpm : st.push_msg ⟨snd, rcv, b⟩ with
      | ok st' => simp only [hpm] at he; exact (hp _ he).elim
      | err e => simp only
      | panic => simp only
  | M2 b =>
    cases hs : s.msgs2 with
    | none => simp only
    | some st =>
      simp only [hs] at he ⊢
      cases hpm : st.push_msg ⟨snd, rcv, b⟩ with
      | ok st' => simp only [hpm] at he; exact (hp _ he).elim
      | err e => simp only
      | panic => simp only
  | M3 b =>
    cases hs : s.msgs3 with
    | none => simp only
    | some st =>
      simp only [hs] at he ⊢
      cases hpm : st.push_msg ⟨snd, rcv, b⟩ with
      | ok st' => simp only [hpm] at he; exact (hp _ he).elim
      | err e => simp only
      | panic => simp only
  | M4 b =>
    cases hs : s.msgs4 with
    | none => simp only
    | some st =>
      simp only [hs] at he ⊢
      cases hpm : st.push_msg ⟨snd, rcv, b⟩ with
      | ok st' => simp only [hpm] at he; exact (hp _ he).elim
      | err e => simp only
      | panic => simp only
  | M5 b =>
    cases hs : s.msgs5 with
    | none => simp only
    | some st =>
      simp only [hs] at he ⊢
      cases hpm : st.push_msg ⟨snd, rcv, b⟩ with
      | ok st' => simp only [hpm] at he; exact (hp _ he).elim
      | err e => simp only
      | panic => simp only
  | M6 b =>
    cases hs : s.msgs6 with
    | none => simp only
    | some st =>
      simp only [hs] at he ⊢
      cases hpm : st.push_msg ⟨snd, rcv, b⟩ with
      | ok st' => simp only [hpm] at he; exact (hp _ he).elim
      | err e => simp only
      | panic => simp only

/-- The bodies as a family. -/
def bodies (b : SignerMsgs) : (j : ℕ) → ℕ → Bd j
  | 1 => b.b1
  | 2 => b.b2
  | 3 => b.b3
  | 4 => b.b4
  | 5 => b.b5
  | 6 => b.b6
  | 0 => fun _ => ()
  | _ + 7 => fun _ => ()

theorem sending_map {rnd : SignRandomness} {j : ℕ} {α : Type} (f : (proto rnd).Bd j → M)
    (hf : ∀ b, tagM rnd (f b) = ⟨j, b⟩) (x : Res SignError (α × List (Msg ((proto rnd).Bd j)))) :
    (do let ro ← x; .ok (ro.1, ro.2.map ((proto rnd).tag j)) :
      Res SignError (α × List (Msg (proto rnd).Body))) =
      (sending f x >>= fun r => .ok (r.1, r.2.map (Msg.mapBody (tagM rnd)))) := by
  cases x with
  | ok ro =>
    simp only [sending, Res.bind_ok, List.map_map]
    congr 2
    refine List.map_congr_left fun m _ => ?_
    simp only [Function.comp, Proto.tag, Msg.mapBody, hf]
  | err e => rfl
  | panic => rfl

/-- The straight-line execution of the round machine is `offlineLine`. -/
theorem script_eq (rnd : SignRandomness) {i : ℕ} {s_l : List ℕ} {key : LocalKey} (h1 : 1 ≤ i)
    (h2 : i ≤ s_l.length) (body : (j : ℕ) → ℕ → Bd j) :
    (proto rnd).script ⟨i, s_l, key⟩ (fun j => (others i s_l.length).map (body j)) 7 =
      ((offlineLine rnd i s_l key ⟨body 1, body 2, body 3, body 4, body 5, body 6⟩).1.map
          (Msg.mapBody (tagM rnd)),
        (offlineLine rnd i s_l key ⟨body 1, body 2, body 3, body 4, body 5, body 6⟩).2) := by
  rw [others_eq_peers h1 h2]
  unfold offlineLine
  have e0 : (proto rnd).script (⟨i, s_l, key⟩ : Round0)
      (fun j => (peers i s_l.length).map (body j)) 0 =
      (([] : List (Msg M)).map (Msg.mapBody (tagM rnd)), .ok (⟨i, s_l, key⟩ : Round0)) := rfl
  have e1 : (proto rnd).script (⟨i, s_l, key⟩ : Round0)
      (fun j => (peers i s_l.length).map (body j)) 1 = _ :=
    (congrArg (fun x => Script.step x _) e0).trans
      (Keygen.script_step_map (Msg.mapBody (tagM rnd)) ([], .ok (⟨i, s_l, key⟩ : Round0))
        (fun r => sending .M1 (r.proceed rnd)) _ (fun r =>
          sending_map (rnd := rnd) (j := 1) M.M1 (fun _ => rfl) (Round0.proceed r rnd)))
  have e2 : (proto rnd).script (⟨i, s_l, key⟩ : Round0)
      (fun j => (peers i s_l.length).map (body j)) 2 = _ :=
    (congrArg (fun x => Script.step x _) e1).trans
      (Keygen.script_step_map (Msg.mapBody (tagM rnd)) _
        (fun r : Round1 => sending .M2 (r.proceed ((peers i s_l.length).map (body 1)) rnd)) _
        (fun r => sending_map (rnd := rnd) (j := 2) M.M2 (fun _ => rfl)
          (Round1.proceed r ((peers i s_l.length).map (body 1)) rnd)))
  have e3 : (proto rnd).script (⟨i, s_l, key⟩ : Round0)
      (fun j => (peers i s_l.length).map (body j)) 3 = _ :=
    (congrArg (fun x => Script.step x _) e2).trans
      (Keygen.script_step_map (Msg.mapBody (tagM rnd)) _
        (fun r : Round2 => sending .M3 (r.proceed ((peers i s_l.length).map (body 2)) rnd)) _
        (fun r => sending_map (rnd := rnd) (j := 3) M.M3 (fun _ => rfl)
          (Round2.proceed r ((peers i s_l.length).map (body 2)) rnd)))
  have e4 : (proto rnd).script (⟨i, s_l, key⟩ : Round0)
      (fun j => (peers i s_l.length).map (body j)) 4 = _ :=
    (congrArg (fun x => Script.step x _) e3).trans
      (Keygen.script_step_map (Msg.mapBody (tagM rnd)) _
        (fun r : Round3 => sending .M4 (r.proceed ((peers i s_l.length).map (body 3)))) _
        (fun r => sending_map (rnd := rnd) (j := 4) M.M4 (fun _ => rfl)
          (Round3.proceed r ((peers i s_l.length).map (body 3)))))
  have e5 : (proto rnd).script (⟨i, s_l, key⟩ : Round0)
      (fun j => (peers i s_l.length).map (body j)) 5 = _ :=
    (congrArg (fun x => Script.step x _) e4).trans
      (Keygen.script_step_map (Msg.mapBody (tagM rnd)) _
        (fun r : Round4 => sending .M5 (r.proceed ((peers i s_l.length).map (body 4)) rnd)) _
        (fun r => sending_map (rnd := rnd) (j := 5) M.M5 (fun _ => rfl)
          (Round4.proceed r ((peers i s_l.length).map (body 4)) rnd)))
  have e6 : (proto rnd).script (⟨i, s_l, key⟩ : Round0)
      (fun j => (peers i s_l.length).map (body j)) 6 = _ :=
    (congrArg (fun x => Script.step x _) e5).trans
      (Keygen.script_step_map (Msg.mapBody (tagM rnd)) _
        (fun r : Round5 => sending .M6 (r.proceed ((peers i s_l.length).map (body 5)) rnd)) _
        (fun r => sending_map (rnd := rnd) (j := 6) M.M6 (fun _ => rfl)
          (Round5.proceed r ((peers i s_l.length).map (body 5)) rnd)))
  exact (congrArg (fun x => Script.step x _) e6).trans
      (Keygen.script_step_map (Msg.mapBody (tagM rnd)) _
        (fun r : Round6 => do
          let c ← r.proceed ((peers i s_l.length).map (body 6))
          .ok (c, [])) _ (fun r => by
          change (do
            let ro ← (Round6.proceed r ((peers i s_l.length).map (body 6)) >>= fun k => .ok (k, []) :
              Res SignError (CompletedOfflineStage × List (Msg Unit)))
            .ok (ro.1, ro.2.map ((proto rnd).tag 7)) :
              Res SignError (CompletedOfflineStage × List (Msg (proto rnd).Body))) = _
          cases Round6.proceed r ((peers i s_l.length).map (body 6)) <;> rfl))

/-- A schedule of calls is a schedule of the round machine. -/
theorem schedule_map {rnd : SignRandomness} {i n : ℕ} {b : SignerMsgs}
    {ops : List (Op M)} (hs : OfflineSchedule i n b ops) :
    (proto rnd).Schedule i n (bodies b) (ops.map (sim rnd).op) := by
  refine ⟨?_, ?_, ?_⟩
  · intro op hop
    obtain ⟨o, ho, rfl⟩ := List.mem_map.1 hop
    cases o with
    | pick => exact (hs.noPick ho).elim
    | deliver m => trivial
    | proceed => trivial
    | drain => trivial
  · intro m hm ha
    obtain ⟨o, ho, e⟩ := List.mem_map.1 hm
    cases o with
    | deliver m' =>
      have e : m'.mapBody (tagM rnd) = m := by
        simp only [Proto.Sim.op, Op.deliver.injEq] at e
        exact e
      subst e
      have := hs.genuine m' ho ((expected_of (rnd := rnd)).2 ha)
      obtain ⟨a, b, c⟩ := m'
      cases c <;> exact this
    | proceed => cases e
    | drain => cases e
    | pick => cases e
  · intro j p j1 j2 p1 p2 p3
    obtain ⟨d1, d2, d3, d4, d5, d6⟩ := hs.complete p (mem_peers.2 ⟨p1, p2, p3⟩)
    have j2 : j ≤ 6 := j2
    interval_cases j
    · exact List.mem_map.2 ⟨_, d1, rfl⟩
    · exact List.mem_map.2 ⟨_, d2, rfl⟩
    · exact List.mem_map.2 ⟨_, d3, rfl⟩
    · exact List.mem_map.2 ⟨_, d4, rfl⟩
    · exact List.mem_map.2 ⟨_, d5, rfl⟩
    · exact List.mem_map.2 ⟨_, d6, rfl⟩

end Verif.GG20.Sign
