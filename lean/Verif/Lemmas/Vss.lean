import Verif.Ext.Vss
import Verif.Spec.Shamir

/-! Helper lemmas on Feldman VSS. -/

namespace Verif

open EC Polynomial

variable [EC]

/-- The polynomial with the given coefficients, constant term first. -/
noncomputable def toPoly (coefs : List Sc) : Polynomial Sc :=
  coefs.foldr (fun c p => C c + X * p) 0

@[simp] theorem toPoly_nil : toPoly [] = 0 := rfl
@[simp] theorem toPoly_cons (c : Sc) (cs : List Sc) : toPoly (c :: cs) = C c + X * toPoly cs := rfl
@[simp] theorem evalPoly_nil (x : Sc) : evalPoly [] x = 0 := rfl
@[simp] theorem evalPoly_cons (c : Sc) (cs : List Sc) (x : Sc) :
    evalPoly (c :: cs) x = c + x * evalPoly cs x := rfl

theorem eval_toPoly (coefs : List Sc) (x : Sc) : (toPoly coefs).eval x = evalPoly coefs x := by
  induction coefs with
  | nil => simp
  | cons c cs ih => simp [ih]

theorem degree_toPoly_lt (coefs : List Sc) : (toPoly coefs).degree < (coefs.length : ℕ) := by
  induction coefs with
  | nil => simp
  | cons c cs ih =>
    rw [toPoly_cons, List.length_cons]
    refine lt_of_le_of_lt (degree_add_le _ _) (max_lt ?_ ?_)
    · exact lt_of_le_of_lt degree_C_le (by norm_cast; omega)
    · by_cases h : toPoly cs = 0
      · simp only [h, mul_zero, degree_zero]; exact WithBot.bot_lt_coe _
      · rw [X_mul, degree_mul_X, degree_eq_natDegree h]
        rw [degree_eq_natDegree h] at ih
        norm_cast at ih ⊢
        omega

theorem coeff_toPoly (coefs : List Sc) (i : ℕ) : (toPoly coefs).coeff i = coefs.getD i 0 := by
  induction coefs generalizing i with
  | nil => simp
  | cons c cs ih => cases i <;> simp [ih, coeff_C]

/-- A polynomial of degree below `n` is given by `n` coefficients. -/
theorem exists_toPoly {f : Polynomial Sc} {n : ℕ} (h : f.degree < (n : ℕ)) :
    ∃ cs : List Sc, cs.length = n ∧ toPoly cs = f := by
  refine ⟨(List.range n).map f.coeff, by simp, ?_⟩
  ext i
  rw [coeff_toPoly]
  by_cases hi : i < n
  · simp [List.getD_eq_getElem?_getD, hi]
  · rw [List.getD_eq_getElem?_getD, List.getElem?_eq_none (by simpa using Nat.le_of_not_lt hi)]
    exact (coeff_eq_zero_of_degree_lt (lt_of_lt_of_le h (by exact_mod_cast Nat.le_of_not_lt hi))).symm

theorem toPoly_injOn {a b : List Sc} (hl : a.length = b.length) (h : toPoly a = toPoly b) :
    a = b := by
  refine List.ext_getElem hl fun i h1 h2 => ?_
  have := congrArg (fun p => p.coeff i) h
  simp only [coeff_toPoly] at this
  simpa [List.getD_eq_getElem?_getD, h1, h2] using this

/-- Every list of points is a list of commitments to scalars. -/
theorem exists_coefs (cs : List Pt) : ∃ f : List Sc, cs = f.map (fun c => c • G) := by
  induction cs with
  | nil => exact ⟨[], rfl⟩
  | cons c cs ih =>
    obtain ⟨f, hf⟩ := ih
    obtain ⟨k, hk⟩ := gen c
    exact ⟨k :: f, by simp [hf, hk]⟩

theorem map_smul_G_inj {a b : List Sc} (h : a.map (fun c => c • G) = b.map (fun c => c • G)) :
    a = b := by
  refine List.map_injective_iff.2 ?_ h
  intro x y hxy
  exact smul_G_inj.1 hxy

theorem pointCommitment_nil (i : ℕ) : pointCommitment [] i = none := rfl

/-- Commitments evaluate to the commitment of the value. -/
theorem pointCommitment_map {f : List Sc} (hf : f ≠ []) (i : ℕ) :
    pointCommitment (f.map (fun c => c • G)) i = some (evalPoly f (i : Sc) • G) := by
  have key : ∀ (f : List Sc) (a : Sc),
      (f.map (fun c => c • G)).reverse.foldl (fun acc x => (i : Sc) • acc + x) (a • G) =
        (f.foldr (fun c acc => c + (i : Sc) * acc) a) • G := by
    intro f
    induction f with
    | nil => intro a; simp
    | cons c cs ih =>
      intro a
      rw [List.map_cons, List.reverse_cons, List.foldl_append, ih]
      simp only [List.foldl_cons, List.foldl_nil, List.foldr_cons]
      rw [← mul_smul, ← add_smul, add_comm]
  obtain ⟨g, l, rfl⟩ : ∃ g l, f = g ++ [l] := by
    rcases List.eq_nil_or_concat f with h | ⟨g, l, h⟩
    · exact absurd h hf
    · exact ⟨g, l, by simpa using h⟩
  unfold pointCommitment
  rw [List.map_append, List.reverse_append]
  simp only [List.map_cons, List.map_nil, List.reverse_cons, List.reverse_nil, List.nil_append,
    List.singleton_append]
  rw [key]
  congr 2
  simp [evalPoly]

theorem pointCommitment_eq_none {cs : List Pt} {i : ℕ} : pointCommitment cs i = none ↔ cs = [] := by
  unfold pointCommitment
  constructor
  · intro h
    split at h
    · simpa using ‹cs.reverse = []›
    · cases h
  · rintro rfl; rfl

theorem validateShare_ok {ε : Type} {v : Vss} {f : List Sc} (hf : f ≠ [])
    (hv : v.commitments = f.map (fun c => c • G)) (s : Sc) (i : ℕ) :
    (v.validateShare s i : Res ε Bool) = .ok (decide (s = evalPoly f (i : Sc))) := by
  unfold Vss.validateShare
  rw [hv, pointCommitment_map hf]
  simp only [Res.ofOption_some, Res.bind_ok, Res.ok.injEq, decide_eq_decide]
  rw [smul_G_inj, eq_comm]

theorem validateShare_eq_panic {ε : Type} {v : Vss} {s : Sc} {i : ℕ} :
    (v.validateShare s i : Res ε Bool) = .panic ↔ v.commitments = [] := by
  unfold Vss.validateShare
  rw [Res.bind_eq_panic, Res.ofOption_eq_panic, pointCommitment_eq_none]
  simp

theorem evalPoly_zero_cons (c : Sc) (cs : List Sc) : evalPoly (c :: cs) 0 = c := by simp

theorem evalPoly_add : ∀ (a b : List Sc) (x : Sc), a.length = b.length →
    evalPoly (List.zipWith (· + ·) a b) x = evalPoly a x + evalPoly b x
  | [], [], _, _ => by simp
  | a :: as, b :: bs, x, h => by
    simp only [List.zipWith_cons_cons, evalPoly_cons]
    rw [evalPoly_add as bs x (by simpa using h)]
    ring
  | [], _ :: _, _, h => by simp at h
  | _ :: _, [], _, h => by simp at h

theorem prod_map_eraseIdx {s : List ℕ} (hs : s.Nodup) {j i : ℕ} (hj : s[j]? = some i)
    (g : ℕ → Sc) : ((s.eraseIdx j).map g).prod = ∏ k ∈ s.toFinset.erase i, g k := by
  obtain ⟨hj1, hj2⟩ := List.getElem?_eq_some_iff.1 hj
  have h1 : s.eraseIdx j = s.erase i := by
    rw [← hj2, hs.erase_getElem]
  rw [h1, List.prod_map_erase_toFinset_aux hs]
where
  List.prod_map_erase_toFinset_aux {s : List ℕ} (hs : s.Nodup) {i : ℕ} {g : ℕ → Sc} :
    ((s.erase i).map g).prod = ∏ k ∈ s.toFinset.erase i, g k := by
    rw [← List.prod_toFinset g (hs.erase i)]
    congr 1
    ext k
    simp [hs.mem_erase_iff]

/-- The Lagrange coefficient computed by the code is the textbook one. -/
theorem mapShareToNewParams_eq {s : List ℕ} {n index : ℕ} (hs : s.Nodup) (hi : index ∈ s)
    (hlt : ∀ x ∈ s, x < n) (hn : n < q) :
    mapShareToNewParams index s =
      some (Spec.lagrangeCoeff ((s.map (· + 1)).toFinset) (index + 1)) := by
  unfold mapShareToNewParams
  obtain ⟨j, hj⟩ : ∃ j, s.findIdx? (fun x => decide (x = index)) = some j := by
    rw [← Option.isSome_iff_exists, List.findIdx?_isSome]
    simpa using hi
  rw [hj]
  simp only
  have hj2 : s[j]? = some index := by
    have := List.of_findIdx?_eq_some hj
    cases h : s[j]? with
    | none => rw [h] at this; simp at this
    | some a => rw [h] at this; simpa using this
  unfold lagrangeBasisAtZero
  rw [List.getElem?_map, hj2]
  simp only [Option.map_some, Option.bind_eq_bind, Option.bind_some]
  have e1 : ((s.map (fun x => ((x + 1 : ℕ) : Sc))).eraseIdx j) =
      (s.eraseIdx j).map (fun x => ((x + 1 : ℕ) : Sc)) := List.eraseIdx_map _ _ _ |>.symm ▸ rfl
  rw [e1, List.map_map, List.map_map, prod_map_eraseIdx hs hj2, prod_map_eraseIdx hs hj2]
  have hne : (∏ k ∈ s.toFinset.erase index,
      (((index + 1 : ℕ) : Sc) - ((k + 1 : ℕ) : Sc))) ≠ 0 := by
    rw [Finset.prod_ne_zero_iff]
    intro k hk
    simp only [Finset.mem_erase, List.mem_toFinset] at hk
    rw [sub_ne_zero]
    intro h
    have := Spec.natCast_inj_of_lt (by have := hlt _ hi; omega) (by have := hlt _ hk.2; omega) h
    omega
  simp only [Function.comp_def]
  rw [if_neg hne]
  congr 1
  rw [← Finset.prod_inv_distrib, ← Finset.prod_mul_distrib]
  have e2 : (s.map (· + 1)).toFinset.erase (index + 1) =
      (s.toFinset.erase index).image (· + 1) := by
    ext k
    simp only [Finset.mem_erase, List.mem_toFinset, List.mem_map, Finset.mem_image]
    constructor
    · rintro ⟨h1, a, h2, rfl⟩
      exact ⟨a, ⟨by simpa using h1, h2⟩, rfl⟩
    · rintro ⟨a, ⟨h1, h2⟩, rfl⟩
      exact ⟨by simpa using h1, a, h2, rfl⟩
  rw [Spec.lagrangeCoeff, e2, Finset.prod_image (fun a _ b _ h => by simpa using h)]
  refine Finset.prod_congr rfl fun k _ => ?_
  rw [div_eq_mul_inv, ← neg_sub ((index + 1 : ℕ) : Sc) ((k + 1 : ℕ) : Sc), inv_neg]
  ring


theorem feldmanEval_map (f : List Sc) (x : Sc) :
    Spec.feldmanEval (f.map (fun c => c • G)) x = evalPoly f x • G := by
  have h : ∀ f : List Sc, evalPoly f x = ∑ k : Fin f.length, x ^ (k : ℕ) * f[k] := by
    intro f
    induction f with
    | nil => simp
    | cons c cs ih =>
      rw [evalPoly_cons, ih]
      simp only [List.length_cons, Fin.sum_univ_succ, Finset.mul_sum]
      simp [pow_succ, mul_assoc, mul_comm]
  rw [h, Finset.sum_smul]
  unfold Spec.feldmanEval
  refine Fintype.sum_equiv (finCongr (by simp)) _ _ fun k => ?_
  simp [mul_smul]

theorem pointCommitment_eq {cs : List Pt} (h : cs ≠ []) (i : ℕ) :
    pointCommitment cs i = some (Spec.feldmanEval cs (i : Sc)) := by
  obtain ⟨f, rfl⟩ := exists_coefs cs
  rw [pointCommitment_map (by simpa using h), feldmanEval_map]

theorem validateShare_eq {ε : Type} {v : Vss} (h : v.commitments ≠ []) (s : Sc) (i : ℕ) :
    (v.validateShare s i : Res ε Bool) =
      .ok (decide (Spec.feldmanEval v.commitments (i : Sc) = s • G)) := by
  unfold Vss.validateShare
  rw [pointCommitment_eq h]
  rfl

end Verif
