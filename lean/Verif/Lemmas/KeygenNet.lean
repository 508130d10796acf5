import Verif.Lemmas.KeygenSMSpec
import Verif.Lemmas.KeygenRun
import Verif.Lemmas.Network

/-! # A network of `Keygen` machines -/

namespace Verif

theorem peers_map {β : Type} (n k : ℕ) (f : ℕ → β) :
    (Spec.peers (k + 1) n).map (fun p => f (p - 1)) =
      ((List.range n).filter (fun j => decide (j ≠ k))).map f := by
  unfold Spec.peers
  rw [List.range'_eq_map_range, List.filter_map, List.map_map]
  have e1 : ((fun p => f (p - 1)) ∘ fun x => 1 + x) = f := by
    funext x; simp
  have e2 : ((fun p => decide (p ≠ k + 1)) ∘ fun x => 1 + x) = fun j => decide (j ≠ k) := by
    funext x
    simp only [Function.comp, decide_eq_decide]
    omega
  rw [e1, e2]

namespace GG20.Keygen

open EC Crypto Spec

variable [Crypto]

/-- What party `i` has sent in round `k` of an honest run. -/
def netScript (t n : ℕ) (rnd : ℕ → KeygenRandomness) (i : ℕ) : ℕ → List (Msg M)
  | 0 => []
  | 1 => [⟨i, none, .Round1 (rBc rnd (i - 1))⟩]
  | 2 => [⟨i, none, .Round1 (rBc rnd (i - 1))⟩] ++ [⟨i, none, .Round2 (rDec rnd (i - 1))⟩]
  | 3 => [⟨i, none, .Round1 (rBc rnd (i - 1))⟩] ++ [⟨i, none, .Round2 (rDec rnd (i - 1))⟩] ++
      (rOut3 t n rnd (i - 1)).map (Msg.mapBody .Round3)
  | _ => [⟨i, none, .Round1 (rBc rnd (i - 1))⟩] ++ [⟨i, none, .Round2 (rDec rnd (i - 1))⟩] ++
      (rOut3 t n rnd (i - 1)).map (Msg.mapBody .Round3) ++ [⟨i, none, .Round4 (rPf n rnd (i - 1))⟩]

/-- What the parties say to party `i`. -/
def netBody (t n : ℕ) (rnd : ℕ → KeygenRandomness) (i : ℕ) : (j : ℕ) → ℕ → Bd j :=
  bodies (fun p => rBc rnd (p - 1)) (fun p => rDec rnd (p - 1))
    (fun p => (rVss t n rnd (p - 1), rShare rnd (p - 1) (i - 1))) (fun p => rPf n rnd (p - 1))

/-- The states of party `i`. -/
def netState (t n : ℕ) (rnd : ℕ → KeygenRandomness) (i : ℕ) : (k : ℕ) → St k
  | 0 => (⟨i, t, n⟩ : Round0)
  | 1 => rSt1 t n rnd (i - 1)
  | 2 => rSt2 t n rnd (i - 1)
  | 3 => rSt3 t n rnd (i - 1)
  | 4 => rSt4 t n rnd (i - 1)
  | _ + 5 => rKey t n rnd (i - 1)

theorem net_straight {t n : ℕ} (ht : t < n) {rnd : ℕ → KeygenRandomness}
    (hon : ∀ k < n, HonestRandomness t (rnd k)) {k : ℕ} (hk : k < n) :
    ∀ j ≤ 5, (proto (rnd k)).straight (⟨k + 1, t, n⟩ : Round0)
      (fun j => (others (k + 1) n).map (netBody t n rnd (k + 1) j)) j =
      .ok (netState t n rnd (k + 1) j,
        (netScript t n rnd (k + 1) j).map (Msg.mapBody (tagM (rnd k)))) := by
  have hn : 0 < n := by omega
  rw [others_eq_peers (by omega) (by omega)]
  have h0 : (proto (rnd k)).straight (⟨k + 1, t, n⟩ : Round0)
      (fun j => (peers (k + 1) n).map (netBody t n rnd (k + 1) j)) 0 =
      .ok (netState t n rnd (k + 1) 0,
        (netScript t n rnd (k + 1) 0).map (Msg.mapBody (tagM (rnd k)))) := rfl
  have step : ∀ j, (proto (rnd k)).straight (⟨k + 1, t, n⟩ : Round0)
      (fun j => (peers (k + 1) n).map (netBody t n rnd (k + 1) j)) j =
      .ok (netState t n rnd (k + 1) j,
        (netScript t n rnd (k + 1) j).map (Msg.mapBody (tagM (rnd k)))) →
      ∀ out, fn (rnd k) j (netState t n rnd (k + 1) j)
        (if j = 0 then [] else (peers (k + 1) n).map (netBody t n rnd (k + 1) j)) =
        .ok (netState t n rnd (k + 1) (j + 1), out) →
      (netScript t n rnd (k + 1) j).map (Msg.mapBody (tagM (rnd k))) ++
        out.map ((proto (rnd k)).tag (j + 1)) =
        (netScript t n rnd (k + 1) (j + 1)).map (Msg.mapBody (tagM (rnd k))) →
      (proto (rnd k)).straight (⟨k + 1, t, n⟩ : Round0)
      (fun j => (peers (k + 1) n).map (netBody t n rnd (k + 1) j)) (j + 1) =
      .ok (netState t n rnd (k + 1) (j + 1),
        (netScript t n rnd (k + 1) (j + 1)).map (Msg.mapBody (tagM (rnd k)))) := by
    intro j hj out hout hmap
    exact (proto (rnd k)).straight_step out hj hout hmap
  have h1 := step 0 h0 _ (honest_round0 t n rnd k) rfl
  have h2 := step 1 h1 [⟨k + 1, none, rDec rnd k⟩] (by
    have := honest_round1 (t := t) (rnd := rnd) hk
    rw [← peers_map] at this
    exact this) rfl
  have h3 := step 2 h2 (rOut3 t n rnd k) (by
    have := honest_round2 ht hon hk
    rw [← peers_map] at this
    exact this) (by
    simp only [netScript, Nat.add_sub_cancel, List.map_append, List.map_map]
    rfl)
  have h4 := step 3 h3 [⟨k + 1, none, rPf n rnd k⟩] (by
    have := honest_round3 (t := t) hn (rnd := rnd) hk
    rw [← peers_map] at this
    exact this) (by
    simp only [netScript, Nat.add_sub_cancel, List.map_append, List.map_map]
    rfl)
  have h5 := step 4 h4 [] (by
    have := honest_round4 hn hon hk
    rw [← peers_map] at this
    change (do
      let k ← Round4.proceed (rSt4 t n rnd k) ((peers (k + 1) n).map (fun p => rPf n rnd (p - 1)))
      .ok (k, []) : Res ProceedError (LocalKey × List (Msg Unit))) = _
    rw [this]
    rfl) (List.append_nil _)
  intro j hj
  match j, hj with
  | 0, _ => exact h0
  | 1, _ => exact h1
  | 2, _ => exact h2
  | 3, _ => exact h3
  | 4, _ => exact h4
  | 5, _ => exact h5

/-- `n` machines made by `Keygen::new`, party `i` drawing the random values `rnd (i - 1)`. -/
def network (n : ℕ) (rnd : ℕ → KeygenRandomness) (start : ℕ → State) :
    Network State M LocalKey ProceedError :=
  ⟨n, fun i => machine (rnd (i - 1)), start⟩

theorem netScript_sender {t n : ℕ} {rnd : ℕ → KeygenRandomness} {i : ℕ} (hi : 1 ≤ i) {k : ℕ}
    {m : Msg M} (hm : m ∈ netScript t n rnd i k) : m.sender = i := by
  match k with
  | 0 => simp [netScript] at hm
  | 1 => simp [netScript] at hm; rw [hm]
  | 2 => simp [netScript] at hm; rcases hm with hm | hm <;> rw [hm]
  | 3 =>
    simp [netScript, rOut3] at hm
    rcases hm with hm | hm | ⟨a, -, hm⟩
    · rw [hm]
    · rw [hm]
    · rw [← hm]; simp only [Msg.mapBody]; omega
  | _ + 4 =>
    simp [netScript, rOut3] at hm
    rcases hm with hm | hm | ⟨a, -, hm⟩ | hm
    · rw [hm]
    · rw [hm]
    · rw [← hm]; simp only [Msg.mapBody]; omega
    · rw [hm]

/-- All messages of an honest run. -/
theorem mem_netScript_last {t n : ℕ} {rnd : ℕ → KeygenRandomness} {i k : ℕ} {m : Msg M}
    (hm : m ∈ netScript t n rnd i k) : m ∈ netScript t n rnd i 4 := by
  match k with
  | 0 => simp [netScript] at hm
  | 1 => simp only [netScript, List.mem_append] at hm ⊢; tauto
  | 2 => simp only [netScript, List.mem_append] at hm ⊢; tauto
  | 3 => simp only [netScript, List.mem_append] at hm ⊢; tauto
  | _ + 4 => exact hm

theorem netScript_mono {t n : ℕ} {rnd : ℕ → KeygenRandomness} {i k k' : ℕ} (h : k ≤ k')
    {m : Msg M} (hm : m ∈ netScript t n rnd i k) : m ∈ netScript t n rnd i k' := by
  induction k' with
  | zero => rw [Nat.le_zero.1 h] at hm; exact hm
  | succ k' ih =>
    by_cases hk : k = k' + 1
    · rw [← hk]; exact hm
    · have := ih (by omega)
      match k', this with
      | 0, this => simp [netScript] at this
      | 1, this => simp only [netScript, List.mem_append] at this ⊢; tauto
      | 2, this => simp only [netScript, List.mem_append] at this ⊢; tauto
      | 3, this => simp only [netScript, List.mem_append] at this ⊢; tauto
      | _ + 4, this => exact this

theorem network_fits {t n : ℕ} {rnd : ℕ → KeygenRandomness} {start : ℕ → State}
    (hon : ∀ k < n, HonestRandomness t (rnd k))
    (hnew : ∀ i, 1 ≤ i → i ≤ n → ∃ r, new (rnd (i - 1)) i t n = .ok (start i, r)) :
    (network n rnd start).Fits 4 KeygenMsg.round (fun k => decide (k = 3))
      (fun i m => (tagM (rnd (i - 1)) m.body).2 =
        netBody t n rnd i (tagM (rnd (i - 1)) m.body).1 m.sender)
      (netScript t n rnd) (fun i => rKey t n rnd (i - 1)) := by
  refine ⟨?_, ?_, ?_⟩
  · rintro i ⟨i1, i2⟩
    have i2 : i ≤ n := i2
    obtain ⟨r, hr⟩ := hnew i i1 i2
    obtain ⟨-, habs, -, -, -, -, ht⟩ := new_ok hr
    obtain ⟨k, rfl⟩ : ∃ k, i = k + 1 := ⟨i - 1, by omega⟩
    have f := (sim (rnd k)).follows habs i1 i2 (fun b => by have h := round_pos b; cases b <;> exact h)
      (netBody t n rnd (k + 1)) (netState t n rnd (k + 1)) (netScript t n rnd (k + 1))
      (net_straight ht hon (by omega))
    have e : (fun b => ((sim (rnd k)).tagB b).1) = KeygenMsg.round := by
      funext b; cases b <;> rfl
    rw [e] at f
    exact f
  · rintro i j ⟨i1, i2⟩ ⟨j1, j2⟩ hne k - m hm hs hadr
    have hm := mem_netScript_last hm
    have i2 : i ≤ n := i2
    have hr := hadr.recv
    simp [netScript, rOut3] at hm
    rcases hm with hm | hm | ⟨a, -, hm⟩ | hm
    · subst hm; rfl
    · subst hm; rfl
    · have e : j - 1 + 1 = j := by omega
      rw [e] at hm
      subst hm
      simp [Msg.mapBody, KeygenMsg.round] at hr
      have : a = i - 1 := by omega
      subst this
      rfl
    · subst hm; rfl
  · rintro i j ⟨i1, i2⟩ ⟨j1, j2⟩ hne k k1 k2 k' hk hk'
    have i2 : i ≤ n := i2
    obtain ⟨m, hm, h⟩ : ∃ m ∈ netScript t n rnd j k, KeygenMsg.round m.body = k ∧ m.sender = j ∧
        m.receiver = if decide (k = 3) then some i else none := by
      interval_cases k
      · exact ⟨_, List.mem_singleton.2 rfl, rfl, rfl, rfl⟩
      · exact ⟨_, List.mem_append_right _ (List.mem_singleton.2 rfl), rfl, rfl, rfl⟩
      · refine ⟨⟨j, some i, .Round3 (rVss t n rnd (j - 1), rShare rnd (j - 1) (i - 1))⟩,
          List.mem_append_right _ (List.mem_map.2 ⟨⟨j, some i, _⟩, List.mem_map.2 ⟨i - 1, ?_, ?_⟩, rfl⟩),
          rfl, rfl, rfl⟩
        · simp only [List.mem_filter, List.mem_range, decide_eq_true_eq]
          omega
        · simp only [Msg.mk.injEq, Option.some.injEq, and_true]
          omega
      · exact ⟨_, List.mem_append_right _ (List.mem_singleton.2 rfl), rfl, rfl, rfl⟩
    exact ⟨m, netScript_mono hk hm, h⟩

/-- The keys of the round-by-round execution. -/
theorem run_get {t n : ℕ} {rnd : ℕ → KeygenRandomness} {start : ℕ → State}
    (hon : ∀ k < n, HonestRandomness t (rnd k))
    (hnew : ∀ i, 1 ≤ i → i ≤ n → ∃ r, new (rnd (i - 1)) i t n = .ok (start i, r))
    {keys : List LocalKey} (hrun : run t n rnd = .ok keys) {i : ℕ} (hi : 1 ≤ i) {key : LocalKey}
    (hkey : keys[i - 1]? = some key) : i ≤ n ∧ key = rKey t n rnd (i - 1) := by
  by_cases hn : n = 0
  · subst hn
    have : run t 0 rnd = .ok [] := rfl
    rw [this, Res.ok.injEq] at hrun
    subst hrun
    simp at hkey
  obtain ⟨r, hr⟩ := hnew 1 le_rfl (by omega)
  have ht : t < n := by
    unfold new at hr
    split_ifs at hr with c1 c2 c3
    omega
  rw [run_eq ht hon, Res.ok.injEq] at hrun
  subst hrun
  rw [List.getElem?_map] at hkey
  obtain ⟨j, hj, rfl⟩ := Option.map_eq_some_iff.1 hkey
  obtain ⟨h1, rfl⟩ := List.getElem?_eq_some_iff.1 hj
  rw [List.length_range] at h1
  exact ⟨by omega, by rw [List.getElem_range]⟩

end GG20.Keygen
end Verif
