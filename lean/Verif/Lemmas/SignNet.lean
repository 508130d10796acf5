import Verif.Lemmas.SignSMSpec
import Verif.Lemmas.SignRounds
import Verif.Lemmas.KeygenNet

/-! # A network of `OfflineStage` machines -/

namespace Verif.GG20.Sign

open EC Crypto Spec

variable [Crypto] {n : ℕ} {Y : Pt} {x : ℕ → Sc} {dk : ℕ → DecKey} {sts : List DLogStatement}
  {s_l : List ℕ} {key : ℕ → LocalKey} {rnd : ℕ → SignRandomness} {mA : ℕ → MessageA}
  {pf : ℕ → ℕ → PDLwSlackProof}

section
variable (Y : Pt) (x : ℕ → Sc) (dk : ℕ → DecKey) (s_l : List ℕ) (key : ℕ → LocalKey)
  (rnd : ℕ → SignRandomness) (mA : ℕ → MessageA) (pf : ℕ → ℕ → PDLwSlackProof)

/-- What signer `i` sends after round `j - 1` of an honest run. -/
noncomputable def netOut (i : ℕ) : ℕ → List (Msg M)
  | 1 => [⟨i, none, .M1 (mA (i - 1), oCom rnd (i - 1))⟩]
  | 2 => (others s_l.length (i - 1)).map (fun j =>
      ⟨i, some (j + 1), .M2 (oBg dk s_l rnd mA (i - 1) j, oBw x dk s_l rnd mA (i - 1) j)⟩)
  | 3 => [⟨i, none, .M3 (oTMsg x s_l rnd (i - 1))⟩]
  | 4 => [⟨i, none, .M4 (oDec rnd (i - 1))⟩]
  | 5 => [⟨i, none, .M5 (oPdl s_l rnd pf (i - 1))⟩]
  | 6 => [⟨i, none, .M6 (oHeg x s_l rnd (i - 1))⟩]
  | _ => []

/-- What signer `i` has sent in round `k`. -/
noncomputable def netScript (i k : ℕ) : List (Msg M) :=
  (List.range k).flatMap (fun j => netOut x dk s_l rnd mA pf i (j + 1))

/-- What the signers say to signer `i`. -/
noncomputable def netBody (i : ℕ) : (j : ℕ) → ℕ → Bd j :=
  bodies ⟨fun p => (mA (p - 1), oCom rnd (p - 1)),
    fun p => (oBg dk s_l rnd mA (p - 1) (i - 1), oBw x dk s_l rnd mA (p - 1) (i - 1)),
    fun p => oTMsg x s_l rnd (p - 1), fun p => oDec rnd (p - 1), fun p => oPdl s_l rnd pf (p - 1),
    fun p => oHeg x s_l rnd (p - 1)⟩

/-- The states of signer `i`. -/
noncomputable def netState (i : ℕ) : (k : ℕ) → St k
  | 0 => (⟨i, s_l, key (i - 1)⟩ : Round0)
  | 1 => st1 x s_l key rnd mA (i - 1)
  | 2 => st2 x s_l key rnd mA (i - 1)
  | 3 => st3 x dk s_l key rnd mA (i - 1)
  | 4 => st4 x dk s_l key rnd mA (i - 1)
  | 5 => st5 x s_l key rnd mA pf (i - 1)
  | 6 => st6 Y x s_l rnd (i - 1)
  | _ + 7 => (⟨(rnd (i - 1)).k, oR s_l rnd, oSigma x s_l rnd (i - 1), Y⟩ : CompletedOfflineStage)

end

theorem netScript_succ (i k : ℕ) : netScript x dk s_l rnd mA pf i (k + 1) =
    netScript x dk s_l rnd mA pf i k ++ netOut x dk s_l rnd mA pf i (k + 1) := by
  unfold netScript
  rw [List.range_succ, List.flatMap_append]
  simp

theorem mem_netScript {i k : ℕ} {m : Msg M} : m ∈ netScript x dk s_l rnd mA pf i k ↔
    ∃ j, 1 ≤ j ∧ j ≤ k ∧ m ∈ netOut x dk s_l rnd mA pf i j := by
  unfold netScript
  simp only [List.mem_flatMap, List.mem_range]
  constructor
  · rintro ⟨j, h1, h2⟩
    exact ⟨j + 1, by omega, by omega, h2⟩
  · rintro ⟨j, h1, h2, h3⟩
    exact ⟨j - 1, by omega, by rw [Nat.sub_add_cancel h1]; exact h3⟩

theorem net_straight (h : HonestSigners n Y x dk sts s_l key rnd) (hmA : IsMA dk sts s_l rnd mA)
    (hpf : IsPdl dk sts s_l rnd mA pf) {d : Sc}
    (hd : ∑ k ∈ Finset.range s_l.length, signShare x s_l k = d) (hY : Y = d • G)
    {k : ℕ} (hk : k < s_l.length) :
    ∀ j ≤ 7, (proto (rnd k)).straight (⟨k + 1, s_l, key k⟩ : Round0)
      (fun j => (Verif.others (k + 1) s_l.length).map (netBody x dk s_l rnd mA pf (k + 1) j)) j =
      .ok (netState Y x dk s_l key rnd mA pf (k + 1) j,
        (netScript x dk s_l rnd mA pf (k + 1) j).map (Msg.mapBody (tagM (rnd k)))) := by
  rw [others_eq_peers (by omega) (by omega)]
  have step : ∀ j, (proto (rnd k)).straight (⟨k + 1, s_l, key k⟩ : Round0)
      (fun j => (peers (k + 1) s_l.length).map (netBody x dk s_l rnd mA pf (k + 1) j)) j =
      .ok (netState Y x dk s_l key rnd mA pf (k + 1) j,
        (netScript x dk s_l rnd mA pf (k + 1) j).map (Msg.mapBody (tagM (rnd k)))) →
      ∀ out, fn (rnd k) j (netState Y x dk s_l key rnd mA pf (k + 1) j)
        (if j = 0 then [] else
          (peers (k + 1) s_l.length).map (netBody x dk s_l rnd mA pf (k + 1) j)) =
        .ok (netState Y x dk s_l key rnd mA pf (k + 1) (j + 1), out) →
      out.map ((proto (rnd k)).tag (j + 1)) =
        (netOut x dk s_l rnd mA pf (k + 1) (j + 1)).map (Msg.mapBody (tagM (rnd k))) →
      (proto (rnd k)).straight (⟨k + 1, s_l, key k⟩ : Round0)
      (fun j => (peers (k + 1) s_l.length).map (netBody x dk s_l rnd mA pf (k + 1) j)) (j + 1) =
      .ok (netState Y x dk s_l key rnd mA pf (k + 1) (j + 1),
        (netScript x dk s_l rnd mA pf (k + 1) (j + 1)).map (Msg.mapBody (tagM (rnd k)))) := by
    intro j hj out hout hmap
    refine (proto (rnd k)).straight_step out hj hout ?_
    rw [netScript_succ, List.map_append, ← hmap]
  have pm : ∀ {β : Type} (f : ℕ → β), (others s_l.length k).map f =
      (peers (k + 1) s_l.length).map (fun p => f (p - 1)) := fun f => (peers_map _ _ f).symm
  have h0 : (proto (rnd k)).straight (⟨k + 1, s_l, key k⟩ : Round0)
      (fun j => (peers (k + 1) s_l.length).map (netBody x dk s_l rnd mA pf (k + 1) j)) 0 =
      .ok (netState Y x dk s_l key rnd mA pf (k + 1) 0,
        (netScript x dk s_l rnd mA pf (k + 1) 0).map (Msg.mapBody (tagM (rnd k)))) := rfl
  have h1 := step 0 h0 _ (round0_eq h hmA hk) rfl
  have h2 := step 1 h1 _ (by
    have := round1_eq h hmA hk
    rw [pm] at this
    exact this) (by
      have e : netOut x dk s_l rnd mA pf (k + 1) (1 + 1) = (others s_l.length k).map (fun j =>
        ⟨k + 1, some (j + 1), .M2 (oBg dk s_l rnd mA k j, oBw x dk s_l rnd mA k j)⟩) := rfl
      rw [e]
      exact List.map_map.trans (List.map_map (f := fun j => (⟨k + 1, some (j + 1),
        .M2 (oBg dk s_l rnd mA k j, oBw x dk s_l rnd mA k j)⟩ : Msg M))
          (g := Msg.mapBody (tagM (rnd k)))).symm)
  have h3 := step 2 h2 [⟨k + 1, none, oTMsg x s_l rnd k⟩] (by
    have := round2_eq h hmA hk
    rw [pm] at this
    exact this) rfl
  have h4 := step 3 h3 [⟨k + 1, none, oDec rnd k⟩] (by
    have := round3_eq (mA := mA) h hk
    rw [pm] at this
    exact this) rfl
  have h5 := step 4 h4 [⟨k + 1, none, oPdl s_l rnd pf k⟩] (by
    have := round4_eq h hpf hk
    rw [pm] at this
    exact this) rfl
  have h6 := step 5 h5 [⟨k + 1, none, oHeg x s_l rnd k⟩] (by
    have := round5_eq h hpf hk
    rw [pm] at this
    exact this) rfl
  have h7 := step 6 h6 [] (by
    have := round6_eq h hd hY hk
    rw [pm] at this
    change (do
      let k ← Round6.proceed (st6 Y x s_l rnd k)
        ((peers (k + 1) s_l.length).map (fun p => oHeg x s_l rnd (p - 1)))
      .ok (k, []) : Res SignError (CompletedOfflineStage × List (Msg Unit))) = _
    rw [this]
    rfl) rfl
  intro j hj
  match j, hj with
  | 0, _ => exact h0
  | 1, _ => exact h1
  | 2, _ => exact h2
  | 3, _ => exact h3
  | 4, _ => exact h4
  | 5, _ => exact h5
  | 6, _ => exact h6
  | 7, _ => exact h7

/-- The machines `OfflineStage::new` makes for the signers of the list, the one at position `i` (from 1)
drawing the random values `rnd (i - 1)`. -/
def network (m : ℕ) (rnd : ℕ → SignRandomness) (start : ℕ → State) :
    Network State M CompletedOfflineStage SignError :=
  ⟨m, fun i => machine (rnd (i - 1)), start⟩

theorem netOut_sender {i j : ℕ} {m : Msg M} (hm : m ∈ netOut x dk s_l rnd mA pf i j) :
    m.sender = i := by
  match j with
  | 0 => simp [netOut] at hm
  | 2 =>
    obtain ⟨a, -, rfl⟩ := List.mem_map.1 hm
    rfl
  | 1 | 3 | 4 | 5 | 6 => rw [List.mem_singleton.1 hm]
  | _ + 7 => simp [netOut] at hm

theorem network_fits (h : HonestSigners n Y x dk sts s_l key rnd) (hmA : IsMA dk sts s_l rnd mA)
    (hpf : IsPdl dk sts s_l rnd mA pf) {d : Sc}
    (hd : ∑ k ∈ Finset.range s_l.length, signShare x s_l k = d) (hY : Y = d • G)
    {start : ℕ → State}
    (hnew : ∀ i, 1 ≤ i → i ≤ s_l.length → new i s_l (key (i - 1)) = .ok (start i)) :
    (network s_l.length rnd start).Fits 6 SignMsg.round (fun k => decide (k = 2))
      (fun i m => (tagM (rnd (i - 1)) m.body).2 =
        netBody x dk s_l rnd mA pf i (tagM (rnd (i - 1)) m.body).1 m.sender)
      (netScript x dk s_l rnd mA pf)
      (fun i => ⟨(rnd (i - 1)).k, oR s_l rnd, oSigma x s_l rnd (i - 1), Y⟩) := by
  refine ⟨?_, ?_, ?_⟩
  · rintro i ⟨i1, i2⟩
    have i2 : i ≤ s_l.length := i2
    have hr := hnew i i1 i2
    obtain ⟨k, rfl⟩ : ∃ k, i = k + 1 := ⟨i - 1, by omega⟩
    obtain ⟨habs, -⟩ := new_ok (rnd := rnd k) hr
    have f := (sim (rnd k)).follows habs i1 i2
      (fun b => by have h := round_pos b; cases b <;> exact h)
      (netBody x dk s_l rnd mA pf (k + 1)) (netState Y x dk s_l key rnd mA pf (k + 1))
      (netScript x dk s_l rnd mA pf (k + 1)) (net_straight h hmA hpf hd hY (by omega))
    have e : (fun b => ((sim (rnd k)).tagB b).1) = SignMsg.round := by
      funext b; cases b <;> rfl
    rw [e] at f
    exact f
  · rintro i j ⟨i1, i2⟩ ⟨j1, j2⟩ hne k - m hm hs hadr
    obtain ⟨l, l1, -, hm⟩ := mem_netScript.1 hm
    have hr := hadr.recv
    match l, hm with
    | 0, hm => omega
    | 2, hm =>
      obtain ⟨a, -, rfl⟩ := List.mem_map.1 hm
      simp only [SignMsg.round, decide_true, if_true, Option.some.injEq] at hr
      have : a = i - 1 := by omega
      subst this
      rfl
    | 1, hm | 3, hm | 4, hm | 5, hm | 6, hm =>
      have e := List.mem_singleton.1 hm
      subst e
      rfl
    | _ + 7, hm => simp [netOut] at hm
  · rintro i j ⟨i1, i2⟩ ⟨j1, j2⟩ hne k k1 k2 k' hk hk'
    have i2 : i ≤ s_l.length := i2
    obtain ⟨m, hm, h⟩ : ∃ m ∈ netOut x dk s_l rnd mA pf j k, SignMsg.round m.body = k ∧
        m.sender = j ∧ m.receiver = if decide (k = 2) then some i else none := by
      interval_cases k
      · exact ⟨_, List.mem_singleton.2 rfl, rfl, rfl, rfl⟩
      · refine ⟨⟨j, some i, .M2 (oBg dk s_l rnd mA (j - 1) (i - 1),
          oBw x dk s_l rnd mA (j - 1) (i - 1))⟩, List.mem_map.2 ⟨i - 1, ?_, ?_⟩, rfl, rfl, rfl⟩
        · rw [mem_others]; omega
        · rw [Nat.sub_add_cancel i1]
      · exact ⟨_, List.mem_singleton.2 rfl, rfl, rfl, rfl⟩
      · exact ⟨_, List.mem_singleton.2 rfl, rfl, rfl, rfl⟩
      · exact ⟨_, List.mem_singleton.2 rfl, rfl, rfl, rfl⟩
      · exact ⟨_, List.mem_singleton.2 rfl, rfl, rfl, rfl⟩
    exact ⟨m, mem_netScript.2 ⟨k, k1, hk, hm⟩, h⟩

/-- The presignatures of the round-by-round execution. -/
theorem offline_get (h : HonestSigners n Y x dk sts s_l key rnd) {d : Sc}
    (hd : ∑ k ∈ Finset.range s_l.length, signShare x s_l k = d) (hY : Y = d • G)
    {cs : List CompletedOfflineStage} (hcs : offline s_l key rnd = .ok cs) {i : ℕ} (hi : 1 ≤ i)
    {c : CompletedOfflineStage} (hc : cs[i - 1]? = some c) :
    i ≤ s_l.length ∧ c = ⟨(rnd (i - 1)).k, oR s_l rnd, oSigma x s_l rnd (i - 1), Y⟩ := by
  rw [offline_eq h hd hY, Res.ok.injEq] at hcs
  subst hcs
  rw [List.getElem?_map] at hc
  obtain ⟨j, hj, rfl⟩ := Option.map_eq_some_iff.1 hc
  obtain ⟨h1, rfl⟩ := List.getElem?_eq_some_iff.1 hj
  rw [List.length_range] at h1
  exact ⟨by omega, by rw [List.getElem_range]⟩

end Verif.GG20.Sign
