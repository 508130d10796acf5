import Verif.Model.GG20.KeygenRounds
import Verif.Lemmas.Vss
import Verif.Spec.Keygen
import Verif.Lemmas.Signature

/-! Helper lemmas on the GG20 key generation functions. -/

namespace Verif.GG20

open EC Crypto Spec

section
variable [EC]

theorem addCommitments_isSome {a b : List Pt} :
    (addCommitments a b).isSome ↔ b.length ≤ a.length := by
  induction a generalizing b with
  | nil => cases b <;> simp [addCommitments]
  | cons x a ih => cases b <;> simp [addCommitments, ih]

theorem addCommitments_spec {a b c : List Pt} (h : addCommitments a b = some c) :
    c.length = a.length ∧ ∀ x : Sc,
      Spec.feldmanEval c x = Spec.feldmanEval a x + Spec.feldmanEval b x := by
  have cons_eval : ∀ (p : Pt) (l : List Pt) (x : Sc),
      Spec.feldmanEval (p :: l) x = p + x • Spec.feldmanEval l x := by
    intro p l x
    unfold Spec.feldmanEval
    simp only [List.length_cons, Fin.sum_univ_succ, Finset.smul_sum]
    simp [pow_succ', mul_smul]
  induction a generalizing b c with
  | nil =>
    cases b with
    | nil => simp [addCommitments] at h; subst h; simp [Spec.feldmanEval]
    | cons y b => simp [addCommitments] at h
  | cons p a ih =>
    cases b with
    | nil => simp [addCommitments] at h; subst h; simp [Spec.feldmanEval]
    | cons y b =>
      simp only [addCommitments, Option.map_eq_some_iff] at h
      obtain ⟨r, hr, rfl⟩ := h
      obtain ⟨h1, h2⟩ := ih hr
      refine ⟨by simp [h1], fun x => ?_⟩
      rw [cons_eval, cons_eval, cons_eval, h2, smul_add]
      abel

theorem foldlM_addCommitments {vs : List Vss} {a : List Pt} :
    ((vs.foldlM (fun g v => addCommitments g v.commitments) a).isSome ↔
      ∀ v ∈ vs, v.commitments.length ≤ a.length) ∧
    ∀ c, vs.foldlM (fun g v => addCommitments g v.commitments) a = some c →
      c.length = a.length ∧ ∀ x : Sc, Spec.feldmanEval c x =
        Spec.feldmanEval a x + (vs.map (fun v => Spec.feldmanEval v.commitments x)).sum := by
  induction vs generalizing a with
  | nil => simp
  | cons v vs ih =>
    simp only [List.foldlM_cons, List.forall_mem_cons, Option.bind_eq_bind]
    cases h : addCommitments a v.commitments with
    | none =>
      have h1 : ¬ v.commitments.length ≤ a.length := by
        rw [← addCommitments_isSome, h]; simp
      simp only [Option.bind_none, Option.isSome_none, Bool.false_eq_true, false_iff, not_and]
      exact ⟨fun h2 => absurd h2 h1, fun c hc => by cases hc⟩
    | some c0 =>
      have h1 : v.commitments.length ≤ a.length := by
        rw [← addCommitments_isSome, h]; rfl
      obtain ⟨h2, h3⟩ := addCommitments_spec h
      simp only [Option.bind_some]
      rw [ih.1, h2]
      refine ⟨by simp [h1], fun c hc => ?_⟩
      obtain ⟨h4, h5⟩ := ih.2 c hc
      refine ⟨h4.trans h2, fun x => ?_⟩
      rw [h5, h3, List.map_cons, List.sum_cons, add_assoc]

omit [EC] in
theorem mapM_some_eq {α β : Type} {f : α → Option β} {g : α → β} {l : List α}
    (h : ∀ a ∈ l, f a = some (g a)) : l.mapM f = some (l.map g) := by
  induction l with
  | nil => rfl
  | cons a l ih =>
    simp [List.mapM_cons, h a (by simp), ih (fun b hb => h b (by simp [hb]))]

/-- Value of `get_commitments_to_xi` when it does not panic. -/
theorem get_commitments_to_xi_eq {v0 : Vss} {vs : List Vss} (h0 : v0.commitments ≠ [])
    (hl : ∀ v ∈ vs, v.commitments.length ≤ v0.commitments.length) :
    get_commitments_to_xi (v0 :: vs) = some ((List.range (vs.length + 1)).map (fun i =>
      ((v0 :: vs).map (fun v => Spec.feldmanEval v.commitments ((i + 1 : ℕ) : Sc))).sum)) := by
  obtain ⟨c, hc⟩ := Option.isSome_iff_exists.1 (foldlM_addCommitments.1.2 hl)
  obtain ⟨h1, h2⟩ := foldlM_addCommitments.2 c hc
  unfold get_commitments_to_xi
  simp only [hc, Option.bind_eq_bind, Option.bind_some, List.length_cons]
  refine mapM_some_eq fun i _ => ?_
  have hc0 : c ≠ [] := by
    intro h; rw [h] at h1; exact h0 (List.length_eq_zero_iff.1 h1.symm)
  rw [pointCommitment_eq hc0, h2, List.map_cons, List.sum_cons]

theorem get_commitments_to_xi_eq_none {v0 : Vss} {vs : List Vss} :
    get_commitments_to_xi (v0 :: vs) = none ↔
      v0.commitments = [] ∨ ∃ v ∈ vs, v0.commitments.length < v.commitments.length := by
  by_cases hl : ∀ v ∈ vs, v.commitments.length ≤ v0.commitments.length
  · by_cases h0 : v0.commitments = []
    · simp only [h0, true_or, iff_true]
      obtain ⟨c, hc⟩ := Option.isSome_iff_exists.1 (foldlM_addCommitments.1.2 hl)
      obtain ⟨h1, -⟩ := foldlM_addCommitments.2 c hc
      rw [h0] at h1
      have hc0 : c = [] := by simpa using h1
      unfold get_commitments_to_xi
      rw [hc0] at hc
      simp only [hc, Option.bind_eq_bind, Option.bind_some, List.length_cons]
      rw [List.range_succ_eq_map, List.mapM_cons, pointCommitment_nil]
      rfl
    · rw [get_commitments_to_xi_eq h0 hl]
      simp only [reduceCtorEq, h0, false_or, false_iff, not_exists, not_and, not_lt]
      exact hl
  · have : vs.foldlM (fun g v => addCommitments g v.commitments) v0.commitments = none := by
      rw [← Option.not_isSome_iff_eq_none, foldlM_addCommitments.1]
      exact hl
    unfold get_commitments_to_xi
    simp only [this, Option.bind_eq_bind, Option.bind_none, true_iff]
    push Not at hl
    exact Or.inr hl

end

variable [Crypto]

theorem phase1_test_iff {bc : KeyGenBroadcastMessage1} {decom : KeyGenDecommitMessage1} :
    phase1_test bc decom = some true ↔ ValidBroadcast bc decom := by
  simp only [phase1_test, andOpt_eq_true, Option.some.injEq, Bool.and_eq_true, decide_eq_true_eq]
  simp only [PAILLIER_MIN_BIT_LENGTH, PAILLIER_MAX_BIT_LENGTH]
  constructor
  · rintro ⟨h1, h2, ⟨⟨⟨h3, h4⟩, h5⟩, h6⟩, h7, h8⟩
    exact ⟨h1, h2, by omega, by omega, h7, h8⟩
  · rintro ⟨h1, h2, h3, h4, h7, h8⟩
    exact ⟨h1, h2, ⟨⟨⟨by omega, by omega⟩, by omega⟩, by omega⟩, h7, h8⟩

theorem phase1_test_none {bc : KeyGenBroadcastMessage1} {decom : KeyGenDecommitMessage1} :
    phase1_test bc decom = none ↔ PanickingBroadcast bc decom := by
  simp only [phase1_test, andOpt_eq_none, Option.some.injEq, Bool.and_eq_true, decide_eq_true_eq,
    reduceCtorEq, false_or, PanickingBroadcast]
  simp only [PAILLIER_MIN_BIT_LENGTH, PAILLIER_MAX_BIT_LENGTH]
  refine and_congr_right fun _ => or_congr_right (and_congr_right fun _ => ?_)
  rw [← and_assoc]
  refine and_congr_left fun _ => ?_
  omega

theorem validBroadcastAt_iff {n : ℕ} {decoms : List KeyGenDecommitMessage1}
    {bcs : List KeyGenBroadcastMessage1}
    (h1 : decoms.length = n) (h2 : bcs.length = n) {i : ℕ} (hi : i < n) :
    ValidBroadcastAt bcs decoms i ↔
      phase1_test (bcs[i]'(h2 ▸ hi)) (decoms[i]'(h1 ▸ hi)) = some true := by
  unfold ValidBroadcastAt
  rw [List.getElem?_eq_getElem (h2 ▸ hi), List.getElem?_eq_getElem (h1 ▸ hi), phase1_test_iff]
  simp

theorem panickingBroadcastAt_iff {n : ℕ} {decoms : List KeyGenDecommitMessage1}
    {bcs : List KeyGenBroadcastMessage1}
    (h1 : decoms.length = n) (h2 : bcs.length = n) {i : ℕ} (hi : i < n) :
    PanickingBroadcastAt bcs decoms i ↔
      phase1_test (bcs[i]'(h2 ▸ hi)) (decoms[i]'(h1 ▸ hi)) = none := by
  unfold PanickingBroadcastAt
  rw [List.getElem?_eq_getElem (h2 ▸ hi), List.getElem?_eq_getElem (h1 ▸ hi), phase1_test_none]
  simp

omit [Crypto] in
theorem res_ok_true_iff {ε : Type} {b : Bool} : (Res.ok b : Res ε Bool) = .ok true ↔ b = true := by
  simp

omit [Crypto] in
/-- The first index with a property -/
theorem exists_first {n : ℕ} {P : ℕ → Prop} (h : ¬ ∀ i < n, P i) :
    ∃ i < n, ¬ P i ∧ ∀ j < i, P j := by
  push Not at h
  classical
  refine ⟨Nat.find h, (Nat.find_spec h).1, (Nat.find_spec h).2, fun j hj => ?_⟩
  by_contra hc
  exact Nat.find_min h hj ⟨by have := (Nat.find_spec h).1; omega, hc⟩

/-- The three outcomes of the round-1 check. -/
theorem phase1_cases (k : Keys) {t n : ℕ} (ht : t < n) {decoms : List KeyGenDecommitMessage1}
    {bcs : List KeyGenBroadcastMessage1} (coefs : List Sc)
    (h1 : decoms.length = n) (h2 : bcs.length = n) :
    ((∀ i < n, ValidBroadcastAt bcs decoms i) ∧
      k.phase1_verify_distribute ⟨t, n⟩ decoms bcs coefs =
        .ok (⟨t, n, (k.u_i :: coefs).map (fun c => c • G)⟩,
          (List.range n).map (fun i => evalPoly (k.u_i :: coefs) ((i + 1 : ℕ) : Sc)),
          k.party_index)) ∨
    ∃ i < n, ¬ ValidBroadcastAt bcs decoms i ∧ (∀ j < i, ValidBroadcastAt bcs decoms j) ∧
      ((¬ PanickingBroadcastAt bcs decoms i ∧
        k.phase1_verify_distribute ⟨t, n⟩ decoms bcs coefs = .err ⟨"invalid key", [i]⟩) ∨
      (PanickingBroadcastAt bcs decoms i ∧
        k.phase1_verify_distribute ⟨t, n⟩ decoms bcs coefs = .panic)) := by
  generalize htest : (fun i => do
      let bc ← Res.get bcs i
      let decom ← Res.get decoms i
      Res.ofOption (phase1_test bc decom) : ℕ → Res ErrorType Bool) = test
  have hstep : ∀ i (hi : i < n), test i =
      Res.ofOption (phase1_test (bcs[i]'(h2 ▸ hi)) (decoms[i]'(h1 ▸ hi))) := by
    intro i hi
    subst htest
    dsimp only
    rw [Res.get_of_lt (h2 ▸ hi), Res.bind_ok, Res.get_of_lt (h1 ▸ hi), Res.bind_ok]
  have hval : ∀ i < n, ValidBroadcastAt bcs decoms i → test i = .ok true := by
    intro i hi h
    rw [hstep i hi, (validBroadcastAt_iff h1 h2 hi).1 h]
    rfl
  unfold Keys.phase1_verify_distribute
  rw [h1, h2, htest]
  by_cases hall : ∀ i < n, ValidBroadcastAt bcs decoms i
  · left
    refine ⟨hall, ?_⟩
    have : allPush test (List.range n) = .ok (true, []) := by
      rw [allPush_range_true]
      exact ⟨rfl, fun i hi => hval i hi (hall i hi)⟩
    simp only [decide_true, Res.assert_true, Res.bind_ok, this, Vss.share, ht, if_true]
  · right
    obtain ⟨i, hi, hbad, hprev⟩ := exists_first hall
    refine ⟨i, hi, hbad, hprev, ?_⟩
    by_cases hp : PanickingBroadcastAt bcs decoms i
    · refine .inr ⟨hp, ?_⟩
      have : allPush test (List.range n) = .panic := by
        rw [allPush_range_panic]
        refine ⟨i, hi, ?_, fun j hj => hval j (by omega) (hprev j hj)⟩
        rw [hstep i hi, (panickingBroadcastAt_iff h1 h2 hi).1 hp]
        rfl
      simp only [decide_true, Res.assert_true, Res.bind_ok, this, Res.bind_panic]
    · refine .inl ⟨hp, ?_⟩
      have : allPush test (List.range n) = .ok (false, [i]) := by
        rw [allPush_range_false]
        refine ⟨i, hi, rfl, ?_, fun j hj => hval j (by omega) (hprev j hj)⟩
        rw [hstep i hi]
        rw [validBroadcastAt_iff h1 h2 hi] at hbad
        rw [panickingBroadcastAt_iff h1 h2 hi] at hp
        cases hb : phase1_test (bcs[i]'(h2 ▸ hi)) (decoms[i]'(h1 ▸ hi)) with
        | none => exact absurd hb hp
        | some b =>
          rw [hb] at hbad
          cases b
          · rfl
          · exact absurd rfl hbad
      simp only [decide_true, Res.assert_true, Res.bind_ok, this, Vss.share, ht, if_true,
        Bool.false_eq_true, if_false]

/-- The per-sender test of `phase2_verify_vss`. -/
def phase2_test (ys : List Pt) (shares : List Sc) (vss : List Vss) (index i : ℕ) :
    Res ErrorType Bool := do
  let v ← Res.get vss i
  let sh ← Res.get shares i
  if (← v.validateShare sh index) then
    let c0 ← Res.get v.commitments 0
    let yi ← Res.get ys i
    .ok (decide (c0 = yi))
  else .ok false

theorem phase2_test_spec {n : ℕ} {ys : List Pt} {shares : List Sc} {vss : List Vss} (index : ℕ)
    (h1 : ys.length = n) (h2 : shares.length = n) (h3 : vss.length = n) {i : ℕ} (hi : i < n) :
    (phase2_test ys shares vss index i = .ok true ↔ ValidShareAt ys shares vss index i) ∧
    (phase2_test ys shares vss index i = .panic ↔ (vss[i]'(h3 ▸ hi)).commitments = []) ∧
    (∀ e, phase2_test ys shares vss index i ≠ .err e) := by
  have g1 : ys[i]? = some (ys[i]'(h1 ▸ hi)) := List.getElem?_eq_getElem _
  have g2 : shares[i]? = some (shares[i]'(h2 ▸ hi)) := List.getElem?_eq_getElem _
  have g3 : vss[i]? = some (vss[i]'(h3 ▸ hi)) := List.getElem?_eq_getElem _
  generalize ys[i]'(h1 ▸ hi) = y at *
  generalize shares[i]'(h2 ▸ hi) = s at *
  generalize vss[i]'(h3 ▸ hi) = v at *
  unfold phase2_test ValidShareAt
  simp only [Res.get, g1, g2, g3, Res.ofOption_some, Res.bind_ok, Option.some.injEq]
  by_cases hc : v.commitments = []
  · have : (v.validateShare s index : Res ErrorType Bool) = .panic := validateShare_eq_panic.2 hc
    rw [this]
    simp only [Res.bind_panic, reduceCtorEq, hc, ne_eq, not_false_eq_true,
      implies_true, and_true, false_iff, not_exists, not_and]
    rintro _ _ v' - - rfl -
    simp [hc]
  · rw [validateShare_eq hc]
    obtain ⟨c, cs, hcs⟩ := List.exists_cons_of_ne_nil hc
    simp only [Res.bind_ok, hc, iff_false]
    have e : (∃ y' s' v', y = y' ∧ s = s' ∧ v = v' ∧
        feldmanEval v'.commitments (index : Sc) = s' • G ∧ v'.commitments.head? = some y') ↔
        feldmanEval v.commitments (index : Sc) = s • G ∧ c = y := by
      constructor
      · rintro ⟨_, _, _, rfl, rfl, rfl, h4, h5⟩
        refine ⟨h4, ?_⟩
        rw [hcs] at h5; simpa using h5
      · rintro ⟨h4, h5⟩
        exact ⟨y, s, v, rfl, rfl, rfl, h4, by rw [hcs]; simpa using h5⟩
    rw [e]
    by_cases hf : feldmanEval v.commitments (index : Sc) = s • G
    · have hh : (v.commitments)[0]? = some c := by rw [hcs]; rfl
      simp [hf, hh]
    · simp [hf]

theorem phase2_eq (t n : ℕ) (ys : List Pt) (shares : List Sc) (vss : List Vss) (index : ℕ)
    (nonce : Sc) (h1 : ys.length = n) (h2 : shares.length = n) (h3 : vss.length = n) :
    Keys.phase2_verify_vss ⟨t, n⟩ ys shares vss index nonce = (do
      let (correct, bad) ← allPush (phase2_test ys shares vss index) (List.range n)
      if correct then
        match ys with
        | [] => .panic
        | head :: tail =>
          let y := tail.foldl (· + ·) head
          let x_i := shares.foldl (· + ·) 0
          .ok (⟨y, x_i⟩, DLogProof.prove x_i nonce)
      else .err ⟨"invalid vss", bad⟩) := by
  unfold Keys.phase2_verify_vss
  simp only [h1, h2, h3, decide_true, Res.assert_true, Res.bind_ok]
  rfl

omit [Crypto] in
theorem foldl_add_head {M : Type} [AddCommMonoid M] (h : M) (t : List M) :
    t.foldl (· + ·) h = (h :: t).sum := by
  rw [List.sum_cons]
  induction t generalizing h with
  | nil => simp
  | cons a t ih => rw [List.foldl_cons, ih, List.sum_cons, add_assoc]

omit [Crypto] in
theorem foldl_add_zero {M : Type} [AddCommMonoid M] (t : List M) :
    t.foldl (· + ·) 0 = t.sum := by rw [foldl_add_head]; simp

/-- The outcomes of the round-3 check. -/
theorem phase2_cases {t n : ℕ} (hn : 0 < n) {ys : List Pt} {shares : List Sc} {vss : List Vss}
    (index : ℕ) (nonce : Sc) (h1 : ys.length = n) (h2 : shares.length = n)
    (h3 : vss.length = n) :
    ((∀ i < n, ValidShareAt ys shares vss index i) ∧
      Keys.phase2_verify_vss ⟨t, n⟩ ys shares vss index nonce =
        .ok (⟨ys.sum, shares.sum⟩, DLogProof.prove shares.sum nonce)) ∨
    (∃ i < n, ¬ ValidShareAt ys shares vss index i ∧ (vss[i]?.map (·.commitments) ≠ some []) ∧
      (∀ j < i, ValidShareAt ys shares vss index j) ∧
      Keys.phase2_verify_vss ⟨t, n⟩ ys shares vss index nonce = .err ⟨"invalid vss", [i]⟩) ∨
    (∃ i < n, vss[i]?.map (·.commitments) = some [] ∧
      (∀ j < i, ValidShareAt ys shares vss index j) ∧
      Keys.phase2_verify_vss ⟨t, n⟩ ys shares vss index nonce = .panic) := by
  rw [phase2_eq t n ys shares vss index nonce h1 h2 h3]
  have hs := fun i (hi : i < n) => phase2_test_spec (ys := ys) (shares := shares) (vss := vss)
    index h1 h2 h3 hi
  by_cases hall : ∀ i < n, ValidShareAt ys shares vss index i
  · left
    refine ⟨hall, ?_⟩
    have : allPush (phase2_test ys shares vss index) (List.range n) = .ok (true, []) := by
      rw [allPush_range_true]
      exact ⟨rfl, fun i hi => (hs i hi).1.2 (hall i hi)⟩
    rw [this]
    simp only [Res.bind_ok, if_true]
    cases ys with
    | nil => simp at h1; omega
    | cons head tail => rw [foldl_add_zero]; simp only [foldl_add_head]
  · right
    push Not at hall
    obtain ⟨i, ⟨hi, hbad⟩, hmin⟩ : ∃ i, (i < n ∧ ¬ ValidShareAt ys shares vss index i) ∧
        ∀ j < i, ¬ (j < n ∧ ¬ ValidShareAt ys shares vss index j) := by
      classical
      exact ⟨Nat.find hall, Nat.find_spec hall, fun j hj => Nat.find_min hall hj⟩
    have hprev : ∀ j < i, ValidShareAt ys shares vss index j := by
      intro j hj
      by_contra hc
      exact hmin j hj ⟨by omega, hc⟩
    have hprev' : ∀ j < i, phase2_test ys shares vss index j = .ok true :=
      fun j hj => (hs j (by omega)).1.2 (hprev j hj)
    have g3 : vss[i]? = some (vss[i]'(h3 ▸ hi)) := List.getElem?_eq_getElem _
    by_cases hc : (vss[i]'(h3 ▸ hi)).commitments = []
    · right
      refine ⟨i, hi, by rw [g3]; simp [hc], hprev, ?_⟩
      have : allPush (phase2_test ys shares vss index) (List.range n) = .panic := by
        rw [allPush_range_panic]
        exact ⟨i, hi, (hs i hi).2.1.2 hc, hprev'⟩
      rw [this]; rfl
    · left
      refine ⟨i, hi, hbad, by rw [g3]; simp [hc], hprev, ?_⟩
      have : allPush (phase2_test ys shares vss index) (List.range n) = .ok (false, [i]) := by
        rw [allPush_range_false]
        refine ⟨i, hi, rfl, ?_, hprev'⟩
        have a1 := (hs i hi).1.not.2 hbad
        have a2 := (hs i hi).2.1.not.2 hc
        have a3 := (hs i hi).2.2
        match hr : phase2_test ys shares vss index i with
        | .ok true => exact absurd hr a1
        | .ok false => rfl
        | .panic => exact absurd hr a2
        | .err e => exact absurd hr (a3 e)
      rw [this]; rfl

/-- The outcomes of the round-4 check. -/
theorem phase4_cases {t n : ℕ} (hn : 0 < n) {proofs : List DLogProof} {ys : List Pt}
    {vss : List Vss} (h1 : ys.length = n) (h2 : proofs.length = n) (h3 : vss.length = n) :
    (get_commitments_to_xi vss = none ∧
      verify_dlog_proofs_check_against_vss ⟨t, n⟩ proofs ys vss = .panic) ∨
    ((get_commitments_to_xi vss).isSome ∧
      (((∀ i < n, ValidKeyProofAt proofs vss i) ∧
        verify_dlog_proofs_check_against_vss ⟨t, n⟩ proofs ys vss = .ok ()) ∨
       (∃ i < n, ¬ ValidKeyProofAt proofs vss i ∧ (∀ j < i, ValidKeyProofAt proofs vss j) ∧
        verify_dlog_proofs_check_against_vss ⟨t, n⟩ proofs ys vss =
          .err ⟨"bad dlog proof", [i]⟩))) := by
  cases hg : get_commitments_to_xi vss with
  | none =>
    left
    refine ⟨rfl, ?_⟩
    unfold verify_dlog_proofs_check_against_vss
    simp [h1, h2, hg]
  | some cs =>
    right
    refine ⟨rfl, ?_⟩
    obtain ⟨v0, vs, rfl⟩ : ∃ v0 vs, vss = v0 :: vs := by
      cases vss with
      | nil => simp at h3; omega
      | cons v0 vs => exact ⟨v0, vs, rfl⟩
    have hne : ¬ (get_commitments_to_xi (v0 :: vs) = none) := by rw [hg]; simp
    rw [get_commitments_to_xi_eq_none] at hne
    push Not at hne
    have hcs := get_commitments_to_xi_eq hne.1 hne.2
    rw [hg, Option.some.injEq] at hcs
    have hlen : vs.length + 1 = n := by simpa using h3
    rw [hlen] at hcs
    have hstep : ∀ i (hi : i < n), ((do
        let pf ← Res.get proofs i
        let c ← Res.get cs i
        Res.ok (pf.verify && decide (c = pf.pk)) : Res ErrorType Bool) = .ok true ↔
          ValidKeyProofAt proofs (v0 :: vs) i) ∧ ∃ b, (do
        let pf ← Res.get proofs i
        let c ← Res.get cs i
        Res.ok (pf.verify && decide (c = pf.pk)) : Res ErrorType Bool) = .ok b := by
      intro i hi
      have hci : cs[i]? = some (((v0 :: vs).map
          (fun v => feldmanEval v.commitments ((i + 1 : ℕ) : Sc))).sum) := by
        rw [hcs]; simp [hi]
      have hpi : proofs[i]? = some (proofs[i]'(h2 ▸ hi)) := List.getElem?_eq_getElem _
      unfold ValidKeyProofAt
      simp only [Res.get, hci, hpi, Res.ofOption_some, Res.bind_ok, Option.some.injEq,
        Res.ok.injEq, Bool.and_eq_true, decide_eq_true_eq, exists_eq_left', and_true,
        exists_eq']
      constructor
      · rintro ⟨a, b⟩; exact ⟨a, b.symm⟩
      · rintro ⟨a, b⟩; exact ⟨a, b.symm⟩
    unfold verify_dlog_proofs_check_against_vss
    simp only [h1, h2, hg, decide_true, Res.assert_true, Res.bind_ok, Res.ofOption_some]
    by_cases hall : ∀ i < n, ValidKeyProofAt proofs (v0 :: vs) i
    · left
      refine ⟨hall, ?_⟩
      rw [(allPush_range_true (bad := [])).2 ⟨rfl, fun i hi => (hstep i hi).1.2 (hall i hi)⟩]
      rfl
    · right
      push Not at hall
      obtain ⟨i, ⟨hi, hbad⟩, hmin⟩ : ∃ i, (i < n ∧ ¬ ValidKeyProofAt proofs (v0 :: vs) i) ∧
          ∀ j < i, ¬ (j < n ∧ ¬ ValidKeyProofAt proofs (v0 :: vs) j) := by
        classical
        exact ⟨Nat.find hall, Nat.find_spec hall, fun j hj => Nat.find_min hall hj⟩
      have hprev : ∀ j < i, ValidKeyProofAt proofs (v0 :: vs) j := by
        intro j hj
        by_contra hc
        exact hmin j hj ⟨by omega, hc⟩
      refine ⟨i, hi, hbad, hprev, ?_⟩
      rw [(allPush_range_false (bad := [i])).2 ⟨i, hi, rfl, ?_, fun j hj =>
        (hstep j (by omega)).1.2 (hprev j hj)⟩]
      · rfl
      · obtain ⟨b, hb⟩ := (hstep i hi).2
        cases b with
        | false => exact hb
        | true => exact absurd ((hstep i hi).1.1 hb) hbad

end Verif.GG20
