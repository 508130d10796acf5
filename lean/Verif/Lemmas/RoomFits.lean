import Verif.Lemmas.Room
import Verif.Lemmas.SignNet

/-! # The key generation and signing clients fit together -/

namespace Verif

open EC Crypto GG20 Spec Demo.Driver Demo.Client

section
variable {β : Type}

theorem accepts_none {i j : ℕ} (h : i ≠ j) (b : β) : accepts i (⟨j, none, b⟩ : Msg β) = true := by
  unfold accepts
  simp [h.symm]

theorem accepts_some {i j : ℕ} (h : i ≠ j) (a : ℕ) (b : β) :
    accepts i (⟨j, some a, b⟩ : Msg β) = decide (a = i) := by
  unfold accepts
  simp [h.symm]

theorem accepts_recv {i : ℕ} {m : Msg β} (h : accepts i m = true) :
    m.receiver = none ∨ m.receiver = some i := by
  unfold accepts at h
  simp only [Bool.and_eq_true, Bool.or_eq_true, decide_eq_true_eq] at h
  rcases h.2 with h | h
  · left; simpa using h
  · exact .inr h

/-- Among messages to different receivers exactly one is for `i`. -/
theorem filter_one {i j : ℕ} (h : i ≠ j) (h1 : 1 ≤ i) {l : List ℕ} (hn : l.Nodup) (hm : i - 1 ∈ l)
    (f : ℕ → β) :
    (l.map (fun a => (⟨j, some (a + 1), f a⟩ : Msg β))).filter (accepts i) =
      [⟨j, some i, f (i - 1)⟩] := by
  rw [List.filter_map]
  have e : (accepts i ∘ fun a => (⟨j, some (a + 1), f a⟩ : Msg β)) = fun a => a == i - 1 := by
    funext a
    rw [Function.comp_apply, accepts_some h, Bool.eq_iff_iff]
    simp only [decide_eq_true_eq, beq_iff_eq]
    omega
  rw [e, List.filter_beq, List.count_eq_one_of_mem hn hm]
  simp only [List.replicate_one, List.map_cons, List.map_nil]
  rw [Nat.sub_add_cancel h1]

end

variable [Crypto]

namespace GG20.Keygen

theorem netScript_filter {t n : ℕ} {rnd : ℕ → KeygenRandomness} {i j : ℕ} (i1 : 1 ≤ i) (i2 : i ≤ n)
    (j1 : 1 ≤ j) (h : i ≠ j) :
    (netScript t n rnd j 5).filter (accepts i) =
      [⟨j, none, .Round1 (rBc rnd (j - 1))⟩, ⟨j, none, .Round2 (rDec rnd (j - 1))⟩,
        ⟨j, some i, .Round3 (rVss t n rnd (j - 1), rShare rnd (j - 1) (i - 1))⟩,
        ⟨j, none, .Round4 (rPf n rnd (j - 1))⟩] := by
  have e : (rOut3 t n rnd (j - 1)).map (Msg.mapBody M.Round3) =
      ((List.range n).filter (fun i => decide (i ≠ j - 1))).map
        (fun a => (⟨j, some (a + 1), M.Round3 (rVss t n rnd (j - 1), rShare rnd (j - 1) a)⟩ : Msg M)) := by
    unfold rOut3
    rw [List.map_map]
    refine List.map_congr_left fun a _ => ?_
    simp only [Function.comp_apply, Msg.mapBody, Nat.sub_add_cancel j1]
  have hmem : i - 1 ∈ (List.range n).filter (fun i => decide (i ≠ j - 1)) := by
    simp only [List.mem_filter, List.mem_range, decide_eq_true_eq]
    omega
  show List.filter (accepts i) (_ ++ _ ++ _ ++ _) = _
  rw [e, List.filter_append, List.filter_append, List.filter_append,
    filter_one h i1 (List.nodup_range.filter _) hmem (fun a => M.Round3 (rVss t n rnd (j - 1), rShare rnd (j - 1) a)),
    List.filter_cons_of_pos (accepts_none h _), List.filter_cons_of_pos (accepts_none h _),
    List.filter_cons_of_pos (accepts_none h _)]
  rfl

theorem netScript_prefix (t n : ℕ) (rnd : ℕ → KeygenRandomness) (i : ℕ) :
    ∀ k ≤ 5, netScript t n rnd i k <+: netScript t n rnd i 5
  | 0, _ => List.nil_prefix
  | 1, _ => by
    show _ <+: _ ++ _ ++ _ ++ _
    rw [List.append_assoc, List.append_assoc]
    exact List.prefix_append _ _
  | 2, _ => by
    show _ ++ _ <+: _ ++ _ ++ _ ++ _
    rw [List.append_assoc ([_] ++ [_])]
    exact List.prefix_append _ _
  | 3, _ => List.prefix_append _ _
  | 4, _ => List.prefix_rfl
  | 5, _ => List.prefix_rfl

theorem room_fits {t n : ℕ} {rnd : ℕ → KeygenRandomness} {start : ℕ → State}
    (hon : ∀ k < n, HonestRandomness t (rnd k))
    (hnew : ∀ i, 1 ≤ i → i ≤ n → ∃ r, new (rnd (i - 1)) i t n = .ok (start i, r)) :
    (keygenRoom n rnd start).Fits 4 KeygenMsg.round (netScript t n rnd)
      (fun i => rKey t n rnd (i - 1)) := by
  have N := network_fits hon hnew
  refine ⟨?_, ?_, ?_, ?_, ?_⟩
  · exact fun i _ _ => netScript_prefix t n rnd i
  · exact fun i i1 _ m hm => netScript_sender i1 hm
  · intro i j i1 i2 j1 j2 h
    have i2' : i ≤ n := i2
    show List.map _ (List.filter _ (netScript _ _ _ _ _)) = _
    rw [netScript_filter i1 i2' j1 h]
    rfl
  · intro i j i1 i2 j1 j2 h k k1 k2 k' hk hk'
    obtain ⟨m, a, b, c, d⟩ := N.sends i j ⟨i1, i2⟩ ⟨j1, j2⟩ h k k1 k2 k' hk hk'
    refine ⟨m, a, b, ?_⟩
    obtain ⟨ms, mr, mb⟩ := m
    dsimp only at c d
    subst c d
    by_cases hk3 : decide (k = 3) = true
    · rw [if_pos hk3, accepts_some h]; simp
    · rw [if_neg hk3]; exact accepts_none h _
  · intro i i1 i2 ms hms hone _
    have i2 : i ≤ n := i2
    obtain ⟨r, hr⟩ := hnew i i1 i2
    obtain ⟨-, habs, -⟩ := new_ok hr
    have e : (fun b => ((sim (rnd (i - 1))).tagB b).1) = KeygenMsg.round := by
      funext b; cases b <;> rfl
    have hadr : ∀ m ∈ ms, Addressed i n (decide (KeygenMsg.round m.body = 3)) m.sender m.receiver ∧
        ∃ j, 1 ≤ j ∧ j ≤ n ∧ i ≠ j ∧ m ∈ netScript t n rnd j 5 := by
      intro m hm
      obtain ⟨j, j1, j2, j3, j4, j5⟩ := hms m hm
      have hm' := List.mem_filter.2 ⟨j4, j5⟩
      refine ⟨?_, j, j1, j2, j3, j4⟩
      rw [netScript_filter i1 i2 j1 j3] at hm'
      have j2 : j ≤ n := j2
      simp only [List.mem_cons, List.not_mem_nil, or_false] at hm'
      rcases hm' with rfl | rfl | rfl | rfl <;> exact ⟨j1, j2, j3.symm, rfl⟩
    have F := N.follows i ⟨i1, i2⟩
    rw [← e] at F
    have hrd : ∀ m : Msg M, (sim (rnd (i - 1))).rd m = KeygenMsg.round m.body := fun m => rd_eq _ m
    have hs := Async.serves (sim (rnd (i - 1))) (critical := keygenCritical) (fun _ _ => rfl) habs i1 i2
      F ms ⟨fun m hm => ⟨by rw [hrd]; exact (round_pos m.body).1, by rw [hrd]; exact (round_pos m.body).2,
        by rw [hrd]; exact (hadr m hm).1⟩, hone.imp fun h => by rw [hrd, hrd]; exact h⟩
      (.inl fun _ => rfl) (fun m hm => by
        obtain ⟨ha, j, j1, j2, j3, j4⟩ := hadr m hm
        exact N.good i j ⟨i1, i2⟩ ⟨j1, j2⟩ j3 5 le_rfl m j4 (netScript_sender j1 j4) ha)
    rcases hs with ⟨a, pos, b, c, d, p, p1, p2, p3, p4⟩ | h
    · exact .inl ⟨a, pos, b, c, d, p, p1, p2, p3, fun m hm hp => by rw [← hrd]; exact p4 m hm hp⟩
    · exact .inr h

theorem netScript_length {t n : ℕ} {rnd : ℕ → KeygenRandomness} {i : ℕ} :
    (netScript t n rnd i 5).length ≤ n + 3 := by
  show List.length (_ ++ _ ++ _ ++ _) ≤ _
  have : ((List.range n).filter (fun a => decide (a ≠ i - 1))).length ≤ n := by
    simpa using List.length_filter_le (fun a => decide (a ≠ i - 1)) (List.range n)
  simp only [List.length_append, List.length_map, List.length_cons, List.length_nil, rOut3]
  omega

end GG20.Keygen

namespace GG20.Sign

variable {n : ℕ} {Y : Pt} {x : ℕ → Sc} {dk : ℕ → DecKey} {sts : List DLogStatement}
  {s_l : List ℕ} {key : ℕ → LocalKey} {rnd : ℕ → SignRandomness} {mA : ℕ → MessageA}
  {pf : ℕ → ℕ → PDLwSlackProof}

theorem netScript_filter {i j : ℕ} (i1 : 1 ≤ i) (i2 : i ≤ s_l.length) (j1 : 1 ≤ j) (h : i ≠ j) :
    (netScript x dk s_l rnd mA pf j 7).filter (accepts i) =
      [⟨j, none, .M1 (mA (j - 1), oCom rnd (j - 1))⟩,
        ⟨j, some i, .M2 (oBg dk s_l rnd mA (j - 1) (i - 1), oBw x dk s_l rnd mA (j - 1) (i - 1))⟩,
        ⟨j, none, .M3 (oTMsg x s_l rnd (j - 1))⟩, ⟨j, none, .M4 (oDec rnd (j - 1))⟩,
        ⟨j, none, .M5 (oPdl s_l rnd pf (j - 1))⟩, ⟨j, none, .M6 (oHeg x s_l rnd (j - 1))⟩] := by
  have e : netScript x dk s_l rnd mA pf j 7 = netOut x dk s_l rnd mA pf j 1 ++
      netOut x dk s_l rnd mA pf j 2 ++ netOut x dk s_l rnd mA pf j 3 ++ netOut x dk s_l rnd mA pf j 4 ++
      netOut x dk s_l rnd mA pf j 5 ++ netOut x dk s_l rnd mA pf j 6 ++ [] := by
    rw [netScript_succ, netScript_succ, netScript_succ, netScript_succ, netScript_succ,
      netScript_succ, netScript_succ]
    rfl
  have e2 : netOut x dk s_l rnd mA pf j 2 = (others s_l.length (j - 1)).map (fun a =>
      (⟨j, some (a + 1), .M2 (oBg dk s_l rnd mA (j - 1) a, oBw x dk s_l rnd mA (j - 1) a)⟩ : Msg M)) :=
    rfl
  have hnd : (others s_l.length (j - 1)).Nodup := List.nodup_range.filter _
  have hmem : i - 1 ∈ others s_l.length (j - 1) := by rw [mem_others]; omega
  have f2 := filter_one h i1 hnd hmem
    (fun a => M.M2 (oBg dk s_l rnd mA (j - 1) a, oBw x dk s_l rnd mA (j - 1) a))
  rw [e, List.append_nil, List.filter_append, List.filter_append, List.filter_append,
    List.filter_append, List.filter_append, e2, f2]
  have f1 : ∀ b : M, List.filter (accepts i) [(⟨j, none, b⟩ : Msg M)] = [⟨j, none, b⟩] := fun b =>
    List.filter_cons_of_pos (accepts_none h b)
  show List.filter _ [_] ++ _ ++ List.filter _ [_] ++ List.filter _ [_] ++ List.filter _ [_] ++
    List.filter _ [_] = _
  rw [f1, f1, f1, f1, f1]
  rfl

theorem netScript_prefix {i k l : ℕ} (h : k ≤ l) :
    netScript x dk s_l rnd mA pf i k <+: netScript x dk s_l rnd mA pf i l := by
  induction l with
  | zero => rw [Nat.le_zero.1 h]
  | succ l ih =>
    rcases Nat.lt_or_ge l k with h' | h'
    · rw [show k = l + 1 by omega]
    · rw [netScript_succ]
      exact (ih h').trans (List.prefix_append _ _)

theorem room_fits (h : HonestSigners n Y x dk sts s_l key rnd) (hmA : IsMA dk sts s_l rnd mA)
    (hpf : IsPdl dk sts s_l rnd mA pf) {d : Sc}
    (hd : ∑ k ∈ Finset.range s_l.length, signShare x s_l k = d) (hY : Y = d • G)
    {start : ℕ → State}
    (hnew : ∀ i, 1 ≤ i → i ≤ s_l.length → new i s_l (key (i - 1)) = .ok (start i)) :
    (offlineRoom s_l.length rnd start).Fits 6 SignMsg.round (netScript x dk s_l rnd mA pf)
      (fun i => ⟨(rnd (i - 1)).k, oR s_l rnd, oSigma x s_l rnd (i - 1), Y⟩) := by
  have N := network_fits h hmA hpf hd hY hnew
  have hsender : ∀ i k, ∀ m ∈ netScript x dk s_l rnd mA pf i k, m.sender = i := by
    intro i k m hm
    obtain ⟨j, -, -, hj⟩ := mem_netScript.1 hm
    exact netOut_sender hj
  refine ⟨?_, ?_, ?_, ?_, ?_⟩
  · exact fun i _ _ k hk => netScript_prefix hk
  · exact fun i i1 _ m hm => hsender i _ m hm
  · intro i j i1 i2 j1 j2 h
    have i2' : i ≤ s_l.length := i2
    show List.map _ (List.filter _ (netScript _ _ _ _ _ _ _ _)) = _
    rw [netScript_filter i1 i2' j1 h]
    rfl
  · intro i j i1 i2 j1 j2 h k k1 k2 k' hk hk'
    obtain ⟨m, a, b, c, d⟩ := N.sends i j ⟨i1, i2⟩ ⟨j1, j2⟩ h k k1 k2 k' hk hk'
    refine ⟨m, a, b, ?_⟩
    obtain ⟨ms, mr, mb⟩ := m
    dsimp only at c d
    subst c d
    by_cases hk3 : decide (k = 2) = true
    · rw [if_pos hk3, accepts_some h]; simp
    · rw [if_neg hk3]; exact accepts_none h _
  · intro i i1 i2 ms hms hone hord
    have i2 : i ≤ s_l.length := i2
    obtain ⟨habs, -, -, hn⟩ := new_ok (rnd := rnd (i - 1)) (hnew i i1 i2)
    have e : (fun b => ((sim (rnd (i - 1))).tagB b).1) = SignMsg.round := by
      funext b; cases b <;> rfl
    have hadr : ∀ m ∈ ms, Addressed i s_l.length (decide (SignMsg.round m.body = 2)) m.sender m.receiver ∧
        ∃ j, 1 ≤ j ∧ j ≤ s_l.length ∧ i ≠ j ∧ m ∈ netScript x dk s_l rnd mA pf j 7 := by
      intro m hm
      obtain ⟨j, j1, j2, j3, j4, j5⟩ := hms m hm
      have hm' := List.mem_filter.2 ⟨j4, j5⟩
      refine ⟨?_, j, j1, j2, j3, j4⟩
      rw [netScript_filter i1 i2 j1 j3] at hm'
      have j2 : j ≤ s_l.length := j2
      simp only [List.mem_cons, List.not_mem_nil, or_false] at hm'
      rcases hm' with rfl | rfl | rfl | rfl | rfl | rfl <;> exact ⟨j1, j2, j3.symm, rfl⟩
    have F := N.follows i ⟨i1, i2⟩
    rw [← e] at F
    have hrd : ∀ m : Msg M, (sim (rnd (i - 1))).rd m = SignMsg.round m.body := fun m => rd_eq _ m
    have hq : Async.Quiet (sim (rnd (i - 1))) s_l.length ms := by
      refine .inr ⟨hn, fun pre post he => ?_⟩
      intro m hm j j1 j2
      rw [hrd] at j2
      obtain ⟨m', a, b, c⟩ := hord pre post he m hm j j1 j2
      exact ⟨m', a, by rw [hrd]; exact c, b⟩
    have hs := Async.serves (sim (rnd (i - 1))) (critical := signCritical)
      (fun e he => by cases e <;> first | rfl | cases he) habs i1 i2
      F ms ⟨fun m hm => ⟨by rw [hrd]; exact (round_pos m.body).1, by rw [hrd]; exact (round_pos m.body).2,
        by rw [hrd]; exact (hadr m hm).1⟩, hone.imp fun h => by rw [hrd, hrd]; exact h⟩
      hq (fun m hm => by
        obtain ⟨ha, j, j1, j2, j3, j4⟩ := hadr m hm
        exact N.good i j ⟨i1, i2⟩ ⟨j1, j2⟩ j3 7 le_rfl m j4 (hsender _ _ _ j4) ha)
    rcases hs with ⟨a, pos, b, c, d, p, p1, p2, p3, p4⟩ | h
    · exact .inl ⟨a, pos, b, c, d, p, p1, p2, p3, fun m hm hp => by rw [← hrd]; exact p4 m hm hp⟩
    · exact .inr h

theorem netScript_length {i : ℕ} :
    (netScript x dk s_l rnd mA pf i 7).length ≤ s_l.length + 5 := by
  have : (others s_l.length (i - 1)).length ≤ s_l.length := by
    have := List.length_filter_le (fun a => decide (a ≠ i - 1)) (List.range s_l.length)
    rw [List.length_range] at this
    exact this
  rw [netScript_succ, netScript_succ, netScript_succ, netScript_succ, netScript_succ,
    netScript_succ, netScript_succ]
  simp only [List.length_append]
  show 0 + 1 + List.length (List.map _ _) + 1 + 1 + 1 + 1 + 0 ≤ _
  rw [List.length_map]
  omega

end GG20.Sign
end Verif
