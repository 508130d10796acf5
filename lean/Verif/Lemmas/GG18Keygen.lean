import Verif.Spec.GG18
import Verif.Lemmas.GG20Keygen

/-! Helper lemmas on the GG18 key generation functions. -/

namespace Verif.GG18

open EC Crypto Spec

variable [Crypto]

theorem phase1_test_iff {bc : KeyGenBroadcastMessage1} {decom : KeyGenDecommitMessage1} :
    phase1_test bc decom = some true ↔
      hashCom (ser decom.y_i) decom.blind_factor = bc.com ∧
        ckVerify bc.correct_key_proof bc.e = some true := by
  simp [phase1_test, andOpt_eq_true]

theorem phase1_test_none {bc : KeyGenBroadcastMessage1} {decom : KeyGenDecommitMessage1} :
    phase1_test bc decom = none ↔
      hashCom (ser decom.y_i) decom.blind_factor = bc.com ∧
        ckVerify bc.correct_key_proof bc.e = none := by
  simp [phase1_test, andOpt_eq_none]

theorem validBroadcastAt_iff {n : ℕ} {decoms : List KeyGenDecommitMessage1}
    {bcs : List KeyGenBroadcastMessage1}
    (h1 : decoms.length = n) (h2 : bcs.length = n) {i : ℕ} (hi : i < n) :
    Spec.GG18.ValidBroadcastAt bcs decoms i ↔
      phase1_test (bcs[i]'(h2 ▸ hi)) (decoms[i]'(h1 ▸ hi)) = some true := by
  unfold Spec.GG18.ValidBroadcastAt
  rw [List.getElem?_eq_getElem (h2 ▸ hi), List.getElem?_eq_getElem (h1 ▸ hi), phase1_test_iff]
  simp

theorem panickingBroadcastAt_iff {n : ℕ} {decoms : List KeyGenDecommitMessage1}
    {bcs : List KeyGenBroadcastMessage1}
    (h1 : decoms.length = n) (h2 : bcs.length = n) {i : ℕ} (hi : i < n) :
    Spec.GG18.PanickingBroadcastAt bcs decoms i ↔
      phase1_test (bcs[i]'(h2 ▸ hi)) (decoms[i]'(h1 ▸ hi)) = none := by
  unfold Spec.GG18.PanickingBroadcastAt
  rw [List.getElem?_eq_getElem (h2 ▸ hi), List.getElem?_eq_getElem (h1 ▸ hi), phase1_test_none]
  simp

/-- The outcomes of the first check. -/
theorem phase1_cases (k : Keys) {t n : ℕ} (ht : t < n) {decoms : List KeyGenDecommitMessage1}
    {bcs : List KeyGenBroadcastMessage1} (coefs : List Sc)
    (h1 : decoms.length = n) (h2 : bcs.length = n) :
    ((∀ i < n, Spec.GG18.ValidBroadcastAt bcs decoms i) ∧
      k.phase1_verify_distribute ⟨t, n⟩ decoms bcs coefs =
        .ok (⟨t, n, (k.u_i :: coefs).map (fun c => c • G)⟩,
          (List.range n).map (fun i => evalPoly (k.u_i :: coefs) ((i + 1 : ℕ) : Sc)),
          k.party_index)) ∨
    ∃ i < n, ¬ Spec.GG18.ValidBroadcastAt bcs decoms i ∧
      (∀ j < i, Spec.GG18.ValidBroadcastAt bcs decoms j) ∧
      ((¬ Spec.GG18.PanickingBroadcastAt bcs decoms i ∧
        k.phase1_verify_distribute ⟨t, n⟩ decoms bcs coefs = .err .InvalidKey) ∨
      (Spec.GG18.PanickingBroadcastAt bcs decoms i ∧
        k.phase1_verify_distribute ⟨t, n⟩ decoms bcs coefs = .panic)) := by
  generalize htest : (fun i => do
      let bc ← Res.get bcs i
      let decom ← Res.get decoms i
      Res.ofOption (phase1_test bc decom) : ℕ → Res Error Bool) = test
  have hstep : ∀ i (hi : i < n), test i =
      Res.ofOption (phase1_test (bcs[i]'(h2 ▸ hi)) (decoms[i]'(h1 ▸ hi))) := by
    intro i hi
    subst htest
    dsimp only
    rw [Res.get_of_lt (h2 ▸ hi), Res.bind_ok, Res.get_of_lt (h1 ▸ hi), Res.bind_ok]
  have hval : ∀ i < n, Spec.GG18.ValidBroadcastAt bcs decoms i → test i = .ok true := by
    intro i hi h
    rw [hstep i hi, (validBroadcastAt_iff h1 h2 hi).1 h]
    rfl
  unfold Keys.phase1_verify_distribute
  rw [h1, h2, htest]
  by_cases hall : ∀ i < n, Spec.GG18.ValidBroadcastAt bcs decoms i
  · left
    refine ⟨hall, ?_⟩
    have : allRes test (List.range n) = .ok true := by
      rw [allRes_range_true]
      exact fun i hi => hval i hi (hall i hi)
    simp only [decide_true, Res.assert_true, Res.bind_ok, this, Vss.share, ht, if_true]
  · right
    obtain ⟨i, hi, hbad, hprev⟩ := GG20.exists_first hall
    refine ⟨i, hi, hbad, hprev, ?_⟩
    by_cases hp : Spec.GG18.PanickingBroadcastAt bcs decoms i
    · refine .inr ⟨hp, ?_⟩
      have : allRes test (List.range n) = .panic := by
        rw [allRes_range_panic]
        refine ⟨i, hi, ?_, fun j hj => hval j (by omega) (hprev j hj)⟩
        rw [hstep i hi, (panickingBroadcastAt_iff h1 h2 hi).1 hp]
        rfl
      simp only [decide_true, Res.assert_true, Res.bind_ok, this, Res.bind_panic]
    · refine .inl ⟨hp, ?_⟩
      have : allRes test (List.range n) = .ok false := by
        rw [allRes_range_false]
        refine ⟨i, hi, ?_, fun j hj => hval j (by omega) (hprev j hj)⟩
        rw [hstep i hi]
        rw [validBroadcastAt_iff h1 h2 hi] at hbad
        rw [panickingBroadcastAt_iff h1 h2 hi] at hp
        cases hb : phase1_test (bcs[i]'(h2 ▸ hi)) (decoms[i]'(h1 ▸ hi)) with
        | none => exact absurd hb hp
        | some b =>
          rw [hb] at hbad
          cases b
          · rfl
          · exact absurd rfl hbad
      simp only [decide_true, Res.assert_true, Res.bind_ok, this, Vss.share, ht, if_true,
        Bool.false_eq_true, if_false]

theorem phase2_test_spec {n : ℕ} {ys : List Pt} {shares : List Sc} {vss : List Vss} (index : ℕ)
    (h1 : ys.length = n) (h2 : shares.length = n) (h3 : vss.length = n) {i : ℕ} (hi : i < n) :
    (phase2_test ys shares vss index i = .ok true ↔ ValidShareAt ys shares vss index i) ∧
    (phase2_test ys shares vss index i = .panic ↔ (vss[i]'(h3 ▸ hi)).commitments = []) ∧
    (∀ e, phase2_test ys shares vss index i ≠ .err e) := by
  have g1 : ys[i]? = some (ys[i]'(h1 ▸ hi)) := List.getElem?_eq_getElem _
  have g2 : shares[i]? = some (shares[i]'(h2 ▸ hi)) := List.getElem?_eq_getElem _
  have g3 : vss[i]? = some (vss[i]'(h3 ▸ hi)) := List.getElem?_eq_getElem _
  generalize ys[i]'(h1 ▸ hi) = y at *
  generalize shares[i]'(h2 ▸ hi) = s at *
  generalize vss[i]'(h3 ▸ hi) = v at *
  unfold phase2_test ValidShareAt
  simp only [Res.get, g1, g2, g3, Res.ofOption_some, Res.bind_ok, Option.some.injEq]
  by_cases hc : v.commitments = []
  · have : (v.validateShare s index : Res Error Bool) = .panic := validateShare_eq_panic.2 hc
    rw [this]
    simp only [Res.bind_panic, reduceCtorEq, hc, ne_eq, not_false_eq_true,
      implies_true, and_true, false_iff, not_exists, not_and]
    rintro _ _ v' - - rfl -
    simp [hc]
  · rw [validateShare_eq hc]
    obtain ⟨c, cs, hcs⟩ := List.exists_cons_of_ne_nil hc
    simp only [Res.bind_ok, hc, iff_false]
    have e : (∃ y' s' v', y = y' ∧ s = s' ∧ v = v' ∧
        feldmanEval v'.commitments (index : Sc) = s' • G ∧ v'.commitments.head? = some y') ↔
        feldmanEval v.commitments (index : Sc) = s • G ∧ c = y := by
      constructor
      · rintro ⟨_, _, _, rfl, rfl, rfl, h4, h5⟩
        refine ⟨h4, ?_⟩
        rw [hcs] at h5; simpa using h5
      · rintro ⟨h4, h5⟩
        exact ⟨y, s, v, rfl, rfl, rfl, h4, by rw [hcs]; simpa using h5⟩
    rw [e]
    by_cases hf : feldmanEval v.commitments (index : Sc) = s • G
    · have hh : (v.commitments)[0]? = some c := by rw [hcs]; rfl
      simp [hf, hh]
    · simp [hf]

/-- The outcomes of the share check. -/
theorem phase2_cases {t n : ℕ} {ys : List Pt} {shares : List Sc} {vss : List Vss}
    (index : ℕ) (nonce : Sc) (h1 : ys.length = n) (h2 : shares.length = n)
    (h3 : vss.length = n) :
    ((∀ i < n, ValidShareAt ys shares vss index i) ∧
      Keys.phase2_verify_vss ⟨t, n⟩ ys shares vss index nonce =
        .ok (⟨ys.sum, shares.sum⟩, DLogProof.prove shares.sum nonce)) ∨
    (∃ i < n, ¬ ValidShareAt ys shares vss index i ∧ (vss[i]?.map (·.commitments) ≠ some []) ∧
      (∀ j < i, ValidShareAt ys shares vss index j) ∧
      Keys.phase2_verify_vss ⟨t, n⟩ ys shares vss index nonce = .err .InvalidSS) ∨
    (∃ i < n, vss[i]?.map (·.commitments) = some [] ∧
      (∀ j < i, ValidShareAt ys shares vss index j) ∧
      Keys.phase2_verify_vss ⟨t, n⟩ ys shares vss index nonce = .panic) := by
  unfold Keys.phase2_verify_vss
  simp only [h1, h2, h3, decide_true, Res.assert_true, Res.bind_ok]
  have hs := fun i (hi : i < n) => phase2_test_spec (ys := ys) (shares := shares) (vss := vss)
    index h1 h2 h3 hi
  by_cases hall : ∀ i < n, ValidShareAt ys shares vss index i
  · left
    refine ⟨hall, ?_⟩
    have : allRes (phase2_test ys shares vss index) (List.range n) = .ok true := by
      rw [allRes_range_true]
      exact fun i hi => (hs i hi).1.2 (hall i hi)
    rw [this]
    rfl
  · right
    push Not at hall
    obtain ⟨i, ⟨hi, hbad⟩, hmin⟩ : ∃ i, (i < n ∧ ¬ ValidShareAt ys shares vss index i) ∧
        ∀ j < i, ¬ (j < n ∧ ¬ ValidShareAt ys shares vss index j) := by
      classical
      exact ⟨Nat.find hall, Nat.find_spec hall, fun j hj => Nat.find_min hall hj⟩
    have hprev : ∀ j < i, ValidShareAt ys shares vss index j := by
      intro j hj
      by_contra hc
      exact hmin j hj ⟨by omega, hc⟩
    have hprev' : ∀ j < i, phase2_test ys shares vss index j = .ok true :=
      fun j hj => (hs j (by omega)).1.2 (hprev j hj)
    have g3 : vss[i]? = some (vss[i]'(h3 ▸ hi)) := List.getElem?_eq_getElem _
    by_cases hc : (vss[i]'(h3 ▸ hi)).commitments = []
    · right
      refine ⟨i, hi, by rw [g3]; simp [hc], hprev, ?_⟩
      have : allRes (phase2_test ys shares vss index) (List.range n) = .panic := by
        rw [allRes_range_panic]
        exact ⟨i, hi, (hs i hi).2.1.2 hc, hprev'⟩
      rw [this]; rfl
    · left
      refine ⟨i, hi, hbad, by rw [g3]; simp [hc], hprev, ?_⟩
      have : allRes (phase2_test ys shares vss index) (List.range n) = .ok false := by
        rw [allRes_range_false]
        refine ⟨i, hi, ?_, hprev'⟩
        have a1 := (hs i hi).1.not.2 hbad
        have a2 := (hs i hi).2.1.not.2 hc
        have a3 := (hs i hi).2.2
        match hr : phase2_test ys shares vss index i with
        | .ok true => exact absurd hr a1
        | .ok false => rfl
        | .panic => exact absurd hr a2
        | .err e => exact absurd hr (a3 e)
      rw [this]; rfl

/-- The outcomes of the last check. -/
theorem dlog_cases {t n : ℕ} {proofs : List DLogProof} {ys : List Pt}
    (h1 : ys.length = n) (h2 : proofs.length = n) :
    ((∀ i < n, Spec.GG18.ValidProofAt proofs i) ∧ verify_dlog_proofs ⟨t, n⟩ proofs ys = .ok ()) ∨
    ((∃ i < n, ¬ Spec.GG18.ValidProofAt proofs i) ∧
      verify_dlog_proofs ⟨t, n⟩ proofs ys = .err .InvalidKey) := by
  unfold verify_dlog_proofs
  simp only [h1, h2, decide_true, Res.assert_true, Res.bind_ok]
  have hstep : ∀ i (hi : i < n), (do
      let pf ← Res.get proofs i
      Res.ok pf.verify : Res Error Bool) = .ok (proofs[i]'(h2 ▸ hi)).verify := fun i hi => by
    rw [Res.get_of_lt (h2 ▸ hi)]; rfl
  have hiff : ∀ i (hi : i < n), Spec.GG18.ValidProofAt proofs i ↔
      (proofs[i]'(h2 ▸ hi)).verify = true := fun i hi => by
    unfold Spec.GG18.ValidProofAt
    rw [List.getElem?_eq_getElem (h2 ▸ hi)]
    simp
  by_cases hall : ∀ i < n, Spec.GG18.ValidProofAt proofs i
  · left
    refine ⟨hall, ?_⟩
    rw [allRes_range_true.2 fun i hi => by
      rw [hstep i hi, GG20.res_ok_true_iff]; exact (hiff i hi).1 (hall i hi)]
    rfl
  · right
    push Not at hall
    refine ⟨hall, ?_⟩
    obtain ⟨i, ⟨hi, hbad⟩, hmin⟩ : ∃ i, (i < n ∧ ¬ Spec.GG18.ValidProofAt proofs i) ∧
        ∀ j < i, ¬ (j < n ∧ ¬ Spec.GG18.ValidProofAt proofs j) := by
      classical
      exact ⟨Nat.find hall, Nat.find_spec hall, fun j hj => Nat.find_min hall hj⟩
    rw [allRes_range_false.2 ⟨i, hi, by rw [hstep i hi]; rw [hiff i hi] at hbad; simpa using hbad,
      fun j hj => by
        rw [hstep j (by omega), GG20.res_ok_true_iff]
        refine (hiff j (by omega)).1 ?_
        by_contra hc
        exact hmin j hj ⟨by omega, hc⟩⟩]
    rfl

/-- The public share of party `i + 1` under all the polynomial commitments together. -/
theorem get_commitments_to_xi_eq {ε : Type} {n : ℕ} (v : ℕ → Vss) (hn : n < 65536)
    (hne : ∀ j < n, (v j).commitments ≠ []) :
    (get_commitments_to_xi ((List.range n).map v) : Res ε (List Pt)) =
      .ok ((List.range n).map (fun i =>
        ((List.range n).map (fun j => feldmanEval (v j).commitments ((i + 1 : ℕ) : Sc))).sum)) := by
  unfold get_commitments_to_xi
  rw [List.length_map, List.length_range]
  have : (toU16 n : Res ε ℕ) = .ok n := by simp [toU16, hn]
  rw [this, Res.bind_ok]
  refine Res.mapM_ok_of_forall fun i _ => ?_
  rw [Res.mapM_ok_of_forall (g := fun j => feldmanEval (v j).commitments ((i + 1 : ℕ) : Sc))]
  · rfl
  · intro j hj
    have hj : j < n := by simpa using hj
    have : (Res.get ((List.range n).map v) j : Res ε Vss) = .ok (v j) := by simp [Res.get, hj]
    rw [this, Res.bind_ok, pointCommitment_eq (hne j hj)]
    rfl

end Verif.GG18
