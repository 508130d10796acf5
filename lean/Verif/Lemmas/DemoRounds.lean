import Verif.Model.Demo.Rounds
import Verif.Lemmas.SignPanic

/-! Helper lemmas on the collection loops of the demo clients. -/

namespace Verif.Demo

theorem range'_one (n : ℕ) : List.range' 1 n = (List.range n).map (· + 1) := by
  rw [List.range'_eq_map_range]
  exact List.map_congr_left fun i _ => by omega

/-- What the loop computes when the received values belong to the remaining foreign numbers. -/
theorem reassembleLoop_eq {ε α : Type} (num : ℕ) (own : α) (ans : List α) (b : ℕ → α) :
    ∀ (is : List ℕ) (j : ℕ), ans.drop j = (is.filter (fun i => decide (i ≠ num))).map b →
      (reassembleLoop num own ans is j : Res ε (List α)) =
        .ok (is.map (fun i => if i = num then own else b i))
  | [], j, _ => rfl
  | i :: is, j, h => by
    by_cases hi : i = num
    · have h' : ans.drop j = (is.filter (fun i => decide (i ≠ num))).map b := by
        simpa [hi] using h
      simp only [reassembleLoop, if_pos hi, reassembleLoop_eq num own ans b is j h', Res.bind_ok,
        List.map_cons]
    · have h1 : ans.drop j = b i :: (is.filter (fun i => decide (i ≠ num))).map b := by
        simpa [hi] using h
      have hget : ans[j]? = some (b i) := by
        have := congrArg (fun l => l[0]?) h1
        simpa using this
      have h' : ans.drop (j + 1) = (is.filter (fun i => decide (i ≠ num))).map b := by
        rw [← List.tail_drop, h1]; rfl
      simp only [reassembleLoop, if_neg hi, Res.get, hget, Res.ofOption_some, Res.bind_ok,
        reassembleLoop_eq num own ans b is (j + 1) h', List.map_cons]

theorem filter_range'_others {α : Type} (n k : ℕ) (b : ℕ → α) :
    ((List.range' 1 n).filter (fun i => decide (i ≠ k + 1))).map b =
      (GG20.Sign.others n k).map (fun i => b (i + 1)) := by
  rw [range'_one, List.filter_map, List.map_map]
  unfold GG20.Sign.others
  have : ((fun i => decide (i ≠ k + 1)) ∘ fun x : ℕ => x + 1) = fun j => decide (j ≠ k) := by
    funext j; simp
  rw [this]; rfl

/-- Own value at the own place, the others' values in order. -/
theorem reassemble_others {ε α : Type} (n k : ℕ) (b : ℕ → α) :
    (reassemble n (k + 1) (b k) ((GG20.Sign.others n k).map b) : Res ε (List α)) =
      .ok ((List.range n).map b) := by
  unfold reassemble
  rw [reassembleLoop_eq (k + 1) (b k) _ (fun i => b (i - 1)) _ 0]
  · rw [range'_one, List.map_map]
    congr 1
    refine List.map_congr_left fun i _ => ?_
    by_cases h : i = k <;> simp [h]
  · rw [List.drop_zero, filter_range'_others]
    rfl

theorem format_others {ε α : Type} {n k : ℕ} (hk : k < n) (b : ℕ → α) :
    (format_vec_from_reads ((GG20.Sign.others n k).map b) (k + 1) (b k) : Res ε (List α)) =
      .ok ((List.range n).map b) := by
  have := reassemble_others (ε := ε) n k b
  unfold format_vec_from_reads
  rw [List.length_map, length_others hk, Nat.sub_add_cancel (by omega)]
  exact this

theorem vecRemove_range {ε α : Type} {n k : ℕ} (hk : k < n) (b : ℕ → α) :
    (vecRemove ((List.range n).map b) k : Res ε (α × List α)) = .ok (b k, (GG20.Sign.others n k).map b) := by
  unfold vecRemove
  rw [GG20.Keygen.get_map_range hk, Res.bind_ok, List.eraseIdx_map]
  unfold GG20.Sign.others
  rw [filter_range_ne hk]

/-- Indexed copying of a complete vector. -/
theorem mapM_get {ε α : Type} {n : ℕ} (l : List α) (h : l.length = n) :
    (Res.mapM (fun i => Res.get l i) (List.range n) : Res ε (List α)) = .ok l := by
  subst h
  cases l with
  | nil => rfl
  | cons a l =>
    rw [Res.mapM_ok_of_forall (g := fun i => (a :: l).getD i a)]
    · congr 1
      refine List.ext_getElem (by simp) fun i h1 h2 => ?_
      simp only [List.getElem_map, List.getElem_range]
      rw [List.getD_eq_getElem?_getD, List.getElem?_eq_getElem h2]; rfl
    · intro i hi
      rw [Res.get_of_lt (by simpa using hi)]
      rw [List.getD_eq_getElem?_getD, List.getElem?_eq_getElem (by simpa using hi)]; rfl

/-- A round in which everybody broadcast. -/
theorem runRound_broadcast {ε σ β τ : Type} {m : ℕ} {step : ℕ → σ → List β → Res ε τ}
    (st : ℕ → σ) (b : ℕ → β) (out : ℕ → τ)
    (h : ∀ k < m, step (k + 1) (st k) ((GG20.Sign.others m k).map b) = .ok (out k)) :
    runRound m step ((List.range m).map (fun k => (st k, [(⟨k + 1, none, b k⟩ : Msg β)]))) =
      .ok ((List.range m).map out) := by
  unfold runRound
  refine Res.mapM_ok_of_forall fun k hk => ?_
  have hk : k < m := by simpa using hk
  rw [GG20.Keygen.get_map_range hk, Res.bind_ok, List.map_map]
  show step (k + 1) (st k) (inbox ((List.range m).map
    (fun j => [(⟨j + 1, none, b j⟩ : Msg β)])) (k + 1)) = _
  rw [inbox_broadcast]
  exact h k hk

/-- A round in which everybody sent a message to each other party. -/
theorem runRound_p2p {ε σ β τ : Type} {m : ℕ} {step : ℕ → σ → List β → Res ε τ}
    (st : ℕ → σ) (b : ℕ → ℕ → β) (out : ℕ → τ)
    (h : ∀ k < m, step (k + 1) (st k) ((GG20.Sign.others m k).map (fun j => b j k)) = .ok (out k)) :
    runRound m step ((List.range m).map (fun k => (st k, (GG20.Sign.others m k).map
        (fun i => (⟨k + 1, some (i + 1), b k i⟩ : Msg β))))) = .ok ((List.range m).map out) := by
  unfold runRound
  refine Res.mapM_ok_of_forall fun k hk => ?_
  have hk : k < m := by simpa using hk
  rw [GG20.Keygen.get_map_range hk, Res.bind_ok, List.map_map]
  show step (k + 1) (st k) (inbox ((List.range m).map
    (fun j => ((List.range m).filter (fun i => decide (i ≠ j))).map
      (fun i => (⟨j + 1, some (i + 1), b j i⟩ : Msg β)))) (k + 1)) = _
  rw [inbox_p2p hk b]
  exact h k hk

end Verif.Demo
