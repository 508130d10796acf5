import Verif.Spec.MixedThresholds
import Verif.Lemmas.KeygenRun
import Verif.Props.Keygen
import Verif.Props.GG18Malicious

/-!
# C122: parties that were started with different thresholds notice it
-/

namespace Verif.Props

open EC Crypto Spec GG20 GG20.Keygen

section
variable [Crypto]

variable {τ : ℕ → ℕ} {n : ℕ} {rnd : ℕ → KeygenRandomness}

theorem mixed_round3 {k : ℕ} (hn : 0 < n) (hk : k < n) :
    (rSt3 (τ k) n rnd k).proceed (((List.range n).filter (fun j => decide (j ≠ k))).map
      (fun j => (rVss (τ j) n rnd j, rShare rnd j k))) (rnd k) =
      .ok ({ rSt4 (τ k) n rnd k with vss_vec := (List.range n).map fun j => rVss (τ j) n rnd j },
        [⟨k + 1, none, rPf n rnd k⟩]) := by
  simp only [rSt3, Round3.proceed]
  rw [intoVecIncludingMe_filter hk (fun j => (rVss (τ j) n rnd j, rShare rnd j k))]
  simp only [List.map_map, Function.comp_def]
  have hv : ∀ i < n, ValidShareAt ((List.range n).map (fun j => (rnd j).u • G))
      ((List.range n).map (fun j => rShare rnd j k)) ((List.range n).map fun j => rVss (τ j) n rnd j)
      (k + 1) i := fun i hi =>
    ⟨(rnd i).u • G, rShare rnd i k, rVss (τ i) n rnd i, by simp [hi], by simp [hi], by simp [hi],
      by rw [rVss, feldmanEval_map]; rfl, by simp [rVss]⟩
  rcases phase2_cases (t := τ k) hn (ys := (List.range n).map (fun j => (rnd j).u • G))
    (shares := (List.range n).map (fun j => rShare rnd j k))
    (vss := (List.range n).map fun j => rVss (τ j) n rnd j) (k + 1) (rnd k).dlogNonce (by simp) (by simp)
    (by simp) with ⟨-, h⟩ | ⟨i, hi, hbad, -⟩ | ⟨i, hi, hbad, -⟩
  · rw [h]
    simp only [Res.mapErr_ok, Res.bind_ok]
    rfl
  · exact absurd (hv i hi) hbad
  · simp [hi, rVss] at hbad

theorem mixed_none (hlen : ∀ k < n, (rnd k).coefs.length = τ k) (hn : 0 < n) :
    get_commitments_to_xi ((List.range n).map fun j => rVss (τ j) n rnd j) = none ↔ ∃ k < n, τ 0 < τ k := by
  obtain ⟨m, rfl⟩ : ∃ m, n = m + 1 := ⟨n - 1, by omega⟩
  rw [List.range_succ_eq_map, List.map_cons, get_commitments_to_xi_eq_none]
  simp only [rVss, List.map_cons, reduceCtorEq, List.map_map, List.mem_map, List.mem_range, Function.comp_apply,
    false_or, List.length_cons, List.length_map, hlen 0 hn]
  constructor
  · rintro ⟨v, ⟨a, ha, rfl⟩, h⟩
    refine ⟨a + 1, by omega, ?_⟩
    simpa [hlen (a + 1) (by omega)] using h
  · rintro ⟨k, hk, h⟩
    obtain ⟨a, rfl⟩ : ∃ a, k = a + 1 := ⟨k - 1, by rcases k with _ | k <;> omega⟩
    exact ⟨_, ⟨a, by omega, rfl⟩, by simpa [hlen (a + 1) hk] using h⟩

theorem mixed_round4_panic {k : ℕ} (hlen : ∀ k < n, (rnd k).coefs.length = τ k) (hn : 0 < n) (hk : k < n)
    (h : ∃ k < n, τ 0 < τ k) :
    ({ rSt4 (τ k) n rnd k with vss_vec := (List.range n).map fun j => rVss (τ j) n rnd j } : Round4).proceed
      (((List.range n).filter (fun j => decide (j ≠ k))).map (rPf n rnd)) = .panic := by
  simp only [rSt4, Round4.proceed, intoVecIncludingMe_filter hk]
  rcases GG20.phase4_cases (t := τ k) hn (proofs := (List.range n).map (rPf n rnd))
    (ys := (List.range n).map (fun j => (rnd j).u • G)) (vss := (List.range n).map fun j => rVss (τ j) n rnd j)
    (by simp) (by simp) (by simp) with ⟨-, h2⟩ | ⟨h1, -⟩
  · rw [h2]; rfl
  · rw [(mixed_none hlen hn).2 h] at h1
    cases h1

theorem mixed_round4 {k : ℕ} (hlen : ∀ k < n, (rnd k).coefs.length = τ k) (hn : 0 < n) (hk : k < n)
    (h : ∀ k < n, τ k ≤ τ 0) :
    ({ rSt4 (τ k) n rnd k with vss_vec := (List.range n).map fun j => rVss (τ j) n rnd j } : Round4).proceed
      (((List.range n).filter (fun j => decide (j ≠ k))).map (rPf n rnd)) = .ok (rKey (τ k) n rnd k) := by
  simp only [rSt4, Round4.proceed, intoVecIncludingMe_filter hk]
  have hv : ∀ i < n, ValidKeyProofAt ((List.range n).map (rPf n rnd))
      ((List.range n).map fun j => rVss (τ j) n rnd j) i := fun i hi =>
    ⟨rPf n rnd i, by simp [hi], DLogProof.verify_prove _ _, by
      rw [rPf, DLogProof.prove_pk, rX, List.sum_smul, List.map_map, List.map_map]
      congr 1
      refine List.map_congr_left fun j _ => ?_
      simp only [Function.comp_apply, rVss, feldmanEval_map, rShare]⟩
  rcases GG20.phase4_cases (t := τ k) hn (proofs := (List.range n).map (rPf n rnd))
    (ys := (List.range n).map (fun j => (rnd j).u • G)) (vss := (List.range n).map fun j => rVss (τ j) n rnd j)
    (by simp) (by simp) (by simp) with ⟨h1, -⟩ | ⟨-, ⟨-, h1⟩ | ⟨i, hi, hbad, -⟩⟩
  · obtain ⟨j, hj, hlt⟩ := (mixed_none hlen hn).1 h1
    exact absurd (h j hj) (by omega)
  · rw [h1]
    simp only [Res.mapErr_ok, Res.bind_ok]
    rw [Res.mapM_ok_of_forall (g := fun j => rX n rnd j • G)
      (fun j hj => by rw [get_map_range (by simpa using hj)]; rfl), Res.bind_ok]
    rw [Res.mapM_ok_of_forall (g := fun j => (rnd j).dk.n)
      (fun j hj => by rw [get_map_range (by simpa using hj)]; rfl), Res.bind_ok]
    rw [Nat.add_sub_cancel, get_map_range hk, Res.bind_ok]
    obtain ⟨m, rfl⟩ : ∃ m, n = m + 1 := ⟨n - 1, by omega⟩
    unfold rKey
    simp only [List.map_map]
    generalize hys : (List.range (m + 1)).map (fun j => (rnd j).u • (G : Pt)) = ys
    cases ys with
    | nil => simp at hys
    | cons a l => simp only [foldl_add_head]; rfl
  · exact absurd (hv i hi) hbad

theorem mixed_run_eq (hτ : ∀ k < n, τ k < n) (hon : ∀ k < n, HonestRandomness (τ k) (rnd k)) :
    mixedRun τ n rnd = .ok ((List.range n).map fun k =>
      ({ rSt4 (τ k) n rnd k with vss_vec := (List.range n).map fun j => rVss (τ j) n rnd j } : Round4).proceed
        (((List.range n).filter (fun j => decide (j ≠ k))).map (rPf n rnd))) := by
  unfold mixedRun
  rw [Res.mapM_ok_of_forall (g := fun k =>
      (rSt1 (τ k) n rnd k, [(⟨k + 1, none, rBc rnd k⟩ : Msg KeyGenBroadcastMessage1)]))
    (fun k _ => honest_round0 (τ k) n rnd k), Res.bind_ok]
  rw [Res.mapM_ok_of_forall (g := fun k =>
      (rSt2 (τ k) n rnd k, [(⟨k + 1, none, rDec rnd k⟩ : Msg KeyGenDecommitMessage1)]))
    (fun k hk => by
      have hk : k < n := by simpa using hk
      rw [get_map_range hk, Res.bind_ok, List.map_map]
      simp only [Function.comp_def]
      rw [inbox_broadcast]
      exact honest_round1 hk), Res.bind_ok]
  rw [Res.mapM_ok_of_forall (g := fun k => (rSt3 (τ k) n rnd k, rOut3 (τ k) n rnd k))
    (fun k hk => by
      have hk : k < n := by simpa using hk
      rw [get_map_range hk, Res.bind_ok, List.map_map]
      simp only [Function.comp_def]
      rw [inbox_broadcast]
      exact dealers_round2 (hτ k hk) (fun k hk => ⟨_, hon k hk⟩) hk), Res.bind_ok]
  rw [Res.mapM_ok_of_forall (g := fun k =>
      (({ rSt4 (τ k) n rnd k with vss_vec := (List.range n).map fun j => rVss (τ j) n rnd j } : Round4),
        [(⟨k + 1, none, rPf n rnd k⟩ : Msg DLogProof)]))
    (fun k hk => by
      have hk : k < n := by simpa using hk
      rw [get_map_range hk, Res.bind_ok, List.map_map]
      simp only [Function.comp_def, rOut3]
      rw [inbox_p2p hk (fun j i => (rVss (τ j) n rnd j, rShare rnd j i))]
      exact mixed_round3 (by omega) hk), Res.bind_ok]
  congr 1
  refine List.map_congr_left fun k hk => ?_
  have hk : k < n := by simpa using hk
  rw [get_map_range hk, Res.bind_ok, List.map_map]
  simp only [Function.comp_def]
  rw [inbox_broadcast]

/-- **C122** (what holds). If some party's threshold is above that of party 1, no party gets a key: the program
crashes in the last round of every party. -/
theorem C122_crash (hτ : ∀ k < n, τ k < n) (hon : ∀ k < n, HonestRandomness (τ k) (rnd k))
    (h : ∃ k < n, τ 0 < τ k) : mixedRun τ n rnd = .ok ((List.range n).map fun _ => .panic) := by
  rw [mixed_run_eq hτ hon]
  congr 1
  refine List.map_congr_left fun k hk => ?_
  have hk : k < n := by simpa using hk
  exact mixed_round4_panic (fun k hk => (hon k hk).coefs_len) (by omega) hk h

/-- Of a polynomial of degree `T`, exactly `T` values do not give the value at zero by interpolation. -/
theorem too_few_shares {F : Polynomial Sc} {T n : ℕ} (hn : n < q) (hF : F.degree < (T + 1 : ℕ)) (hc : F.coeff T ≠ 0)
    (hT : 0 < T) (S : Finset ℕ) (hS : ∀ i ∈ S, 1 ≤ i ∧ i ≤ n) (hcard : S.card = T) :
    ∑ i ∈ S, lagrangeCoeff S i * F.eval (i : Sc) ≠ F.eval 0 := by
  set P : Polynomial Sc := ∏ i ∈ S, (Polynomial.X - Polynomial.C (i : Sc)) with hP
  have hmonic : P.Monic := Polynomial.monic_prod_of_monic _ _ fun i _ => Polynomial.monic_X_sub_C _
  have hdeg : P.natDegree = T := by rw [hP, Polynomial.natDegree_finsetProd_X_sub_C_eq_card, hcard]
  set g := F - Polynomial.C (F.coeff T) * P with hg
  have hgd : g.degree < (T - 1 + 1 : ℕ) := by
    rw [Nat.sub_add_cancel hT, Polynomial.degree_lt_iff_coeff_zero]
    intro m hm
    rw [hg, Polynomial.coeff_sub, Polynomial.coeff_C_mul]
    rcases Nat.eq_or_lt_of_le hm with rfl | hm
    · have := hmonic.coeff_natDegree
      rw [hdeg] at this
      rw [this, mul_one, sub_self]
    · rw [(Polynomial.degree_lt_iff_coeff_zero _ _).1 hF m (by omega),
        Polynomial.coeff_eq_zero_of_natDegree_lt (p := P) (by omega), mul_zero, sub_zero]
  have hrec := (show OnPolynomial (T - 1) n (fun i => g.eval (i : Sc)) g from ⟨hgd, fun _ _ _ => rfl⟩).reconstructs hn S hS
    (by omega)
  have hPS : ∀ i ∈ S, P.eval (i : Sc) = 0 := fun i hi => by
    rw [hP, Polynomial.eval_prod]
    exact Finset.prod_eq_zero hi (by simp)
  have hP0 : P.eval 0 ≠ 0 := by
    rw [hP, Polynomial.eval_prod]
    refine Finset.prod_ne_zero_iff.2 fun i hi => ?_
    simp only [Polynomial.eval_sub, Polynomial.eval_X, Polynomial.eval_C, zero_sub, neg_ne_zero]
    intro e
    have := natCast_inj_of_lt (i := i) (j := 0) (by have := hS i hi; omega) q_pos (by simpa using e)
    have := hS i hi
    omega
  intro h
  have h2 : ∑ i ∈ S, lagrangeCoeff S i * g.eval (i : Sc) = ∑ i ∈ S, lagrangeCoeff S i * F.eval (i : Sc) := by
    refine Finset.sum_congr rfl fun i hi => ?_
    rw [hg, Polynomial.eval_sub, Polynomial.eval_mul, hPS i hi, mul_zero, sub_zero]
  rw [h2, h, hg, Polynomial.eval_sub, Polynomial.eval_mul, Polynomial.eval_C] at hrec
  have : F.coeff T * P.eval 0 = 0 := by linear_combination hrec
  exact (mul_ne_zero hc hP0) this

/-- **C122 is violated**. If no party's threshold is above that of party 1, every party gets a key, in which the
party's own threshold is recorded.  All of them have the same public key, and it takes as many parties to
reconstruct its private key `d` as party 1's threshold demands.  No set of exactly `τ 0` parties is enough, and the
smaller thresholds that others have recorded are wrong, unless the leading coefficients that the parties drew
cancel. -/
theorem C122_unnoticed (hn : n < q) (hpos : 0 < n) (hτ : ∀ k < n, τ k < n)
    (hon : ∀ k < n, HonestRandomness (τ k) (rnd k)) (h : ∀ k < n, τ k ≤ τ 0) :
    ∃ (keys : ℕ → LocalKey) (d : Sc), mixedRun τ n rnd = .ok ((List.range n).map fun k => .ok (keys (k + 1))) ∧
      (∀ k < n, (keys (k + 1)).t = τ k ∧ (keys (k + 1)).n = n ∧ (keys (k + 1)).public_key = d • G) ∧
      Reconstructs (τ 0) n (fun i => (keys i).keys_linear.x_i) d ∧
      (∑ k ∈ Finset.range n, ((rnd k).u :: (rnd k).coefs).getD (τ 0) 0 ≠ 0 →
        (∀ S : Finset ℕ, (∀ i ∈ S, 1 ≤ i ∧ i ≤ n) → S.card = τ 0 → 0 < τ 0 →
          ∑ i ∈ S, lagrangeCoeff S i * (keys i).keys_linear.x_i ≠ d) ∧
        ∀ k < n, τ k < τ 0 → ¬ Reconstructs (τ k) n (fun i => (keys i).keys_linear.x_i) d) := by
  set F : Polynomial Sc := ∑ j ∈ Finset.range n, toPoly ((rnd j).u :: (rnd j).coefs) with hF
  have hdeg : F.degree < (τ 0 + 1 : ℕ) := by
    refine lt_of_le_of_lt (Polynomial.degree_sum_le _ _) ?_
    rw [Finset.sup_lt_iff (WithBot.bot_lt_coe _)]
    intro j hj
    have hj : j < n := by simpa using hj
    refine lt_of_lt_of_le (degree_toPoly_lt ((rnd j).u :: (rnd j).coefs)) ?_
    rw [List.length_cons, (hon j hj).coefs_len]
    exact_mod_cast Nat.succ_le_succ (h j hj)
  have hx : ∀ i, 1 ≤ i → i ≤ n → rX n rnd (i - 1) = F.eval (i : Sc) := by
    intro i h1 h2
    simp only [hF, rX, sum_map_range_eq, Polynomial.eval_finsetSum, eval_toPoly, rShare, Nat.sub_add_cancel h1]
  have h0 : F.eval 0 = ∑ j ∈ Finset.range n, (rnd j).u := by
    simp only [hF, Polynomial.eval_finsetSum, eval_toPoly, evalPoly_zero_cons]
  refine ⟨fun i => rKey (τ (i - 1)) n rnd (i - 1), F.eval 0, ?_, ?_, ?_, ?_⟩
  · rw [mixed_run_eq hτ hon]
    congr 1
    refine List.map_congr_left fun k hk => ?_
    have hk : k < n := by simpa using hk
    exact mixed_round4 (fun k hk => (hon k hk).coefs_len) hpos hk h
  · intro k hk
    refine ⟨rfl, rfl, ?_⟩
    show ((List.range n).map (fun j => (rnd j).u • (G : Pt))).sum = _
    rw [sum_map_range_eq, ← Finset.sum_smul, h0]
  · exact (show OnPolynomial (τ 0) n (fun i => rX n rnd (i - 1)) F from ⟨hdeg, hx⟩).reconstructs hn
  · intro hlead
    have hc : F.coeff (τ 0) ≠ 0 := by
      rw [hF, Polynomial.finsetSum_coeff]
      simpa only [coeff_toPoly] using hlead
    have few : ∀ S : Finset ℕ, (∀ i ∈ S, 1 ≤ i ∧ i ≤ n) → S.card = τ 0 → 0 < τ 0 →
        ∑ i ∈ S, lagrangeCoeff S i * rX n rnd (i - 1) ≠ F.eval 0 := by
      intro S hS hcard hT
      rw [Finset.sum_congr rfl fun i hi => by rw [hx i (hS i hi).1 (hS i hi).2]]
      exact too_few_shares hn hdeg hc hT S hS hcard
    refine ⟨few, fun k hk hlt hrec => ?_⟩
    have hτ0 := hτ 0 hpos
    have hS : ∀ i ∈ Finset.Icc 1 (τ 0), 1 ≤ i ∧ i ≤ n := fun i hi => by
      have := Finset.mem_Icc.1 hi
      omega
    exact few (Finset.Icc 1 (τ 0)) hS (by simp) (by omega) (hrec _ hS (by simp; omega))

/-! ### GG18 -/

open Demo Demo.Keygen in
theorem mixed_clients_eq (A : Aead) {τ : ℕ → ℕ} {n : ℕ} {rnd : ℕ → Demo.Keygen.Rand}
    (hτ : ∀ i, 1 ≤ i → i ≤ n → τ i < n) (hon : ∀ i, 1 ≤ i → i ≤ n → Spec.GG18.HonestKeygenRand (τ i) (rnd i)) :
    mixedClients A τ n rnd = .ok ((List.range n).map fun k =>
      { kFile (τ (k + 1)) n rnd k with
        vss_scheme_vec := (List.range n).map fun j => kVss (τ (j + 1)) n rnd j }) := by
  have hon : ∀ k < n, ∃ t', Spec.GG18.HonestKeygenRand t' (rnd (k + 1)) := fun k hk =>
    ⟨_, hon (k + 1) (by omega) (by omega)⟩
  have h4 : ∀ k (hk : k < n), Demo.Keygen.round4 A ⟨τ (k + 1), n⟩ (k + 1) _ _ = _ := fun k hk =>
    round4_ok (t := τ (k + 1)) A hon hk
  have h5 : ∀ k, k < n → Demo.Keygen.round5 ⟨τ (k + 1), n⟩ rnd (k + 1) ⟨kKeys rnd k, (List.range n).map (kBc rnd),
      (List.range n).map (kY rnd), ((List.range n).map (kY rnd)).sum, kVss (τ (k + 1)) n rnd k,
      (List.range n).map (fun j => kShare rnd j k)⟩ ((GG20.Sign.others n k).map fun j => kVss (τ (j + 1)) n rnd j) =
      .ok (⟨kKeys rnd k, (List.range n).map (kBc rnd), (List.range n).map (kY rnd),
          ((List.range n).map (kY rnd)).sum, (List.range n).map fun j => kVss (τ (j + 1)) n rnd j,
          ⟨((List.range n).map (kY rnd)).sum, kX n rnd k⟩, kPf n rnd k⟩, [⟨k + 1, none, kPf n rnd k⟩]) := by
    intro k _
    unfold Demo.Keygen.round5
    simp only [reassemble_others n k fun j => kVss (τ (j + 1)) n rnd j, Res.bind_ok]
    have hv : ∀ i < n, ValidShareAt ((List.range n).map (kY rnd))
        ((List.range n).map (fun j => kShare rnd j k)) ((List.range n).map fun j => kVss (τ (j + 1)) n rnd j)
        (k + 1) i := fun i hi =>
      ⟨kY rnd i, kShare rnd i k, kVss (τ (i + 1)) n rnd i, by simp [hi], by simp [hi], by simp [hi],
        by rw [kVss, feldmanEval_map]; rfl, by simp [kVss, kY]⟩
    rcases GG18.phase2_cases (t := τ (k + 1)) (n := n) (ys := (List.range n).map (kY rnd))
      (shares := (List.range n).map (fun j => kShare rnd j k))
      (vss := (List.range n).map fun j => kVss (τ (j + 1)) n rnd j) (k + 1) (rnd (k + 1)).dlogNonce (by simp) (by simp)
      (by simp) with ⟨-, h⟩ | ⟨i, hi, hbad, -⟩ | ⟨i, hi, hbad, -⟩
    · rw [h]; rfl
    · exact absurd (hv i hi) hbad
    · simp [hi, kVss] at hbad
  have h6 : ∀ k, k < n → Demo.Keygen.finish ⟨τ (k + 1), n⟩ (k + 1) ⟨kKeys rnd k, (List.range n).map (kBc rnd),
      (List.range n).map (kY rnd), ((List.range n).map (kY rnd)).sum,
      (List.range n).map fun j => kVss (τ (j + 1)) n rnd j, ⟨((List.range n).map (kY rnd)).sum, kX n rnd k⟩, kPf n rnd k⟩
      ((GG20.Sign.others n k).map (kPf n rnd)) = .ok { kFile (τ (k + 1)) n rnd k with
        vss_scheme_vec := (List.range n).map fun j => kVss (τ (j + 1)) n rnd j } := by
    intro k _
    unfold Demo.Keygen.finish
    simp only [reassemble_others, Res.bind_ok]
    have hv : ∀ i < n, Spec.GG18.ValidProofAt ((List.range n).map (kPf n rnd)) i := fun i hi =>
      ⟨kPf n rnd i, by simp [hi], DLogProof.verify_prove _ _⟩
    rcases GG18.dlog_cases (t := τ (k + 1)) (n := n) (proofs := (List.range n).map (kPf n rnd))
      (ys := (List.range n).map (kY rnd)) (by simp) (by simp) with ⟨-, h⟩ | ⟨⟨i, hi, hbad⟩, -⟩
    · rw [h]
      simp only [Res.unwrap, Res.bind_ok]
      rw [Res.mapM_ok_of_forall (g := fun j => (rnd (j + 1)).dk.n)
        (fun j hj => by rw [GG20.Keygen.get_map_range (by simpa using hj)]; rfl), Res.bind_ok]
      rfl
    · exact absurd (hv i hi) hbad
  unfold mixedClients
  have s1 : (List.range n).map (fun k => Demo.Keygen.start (k + 1) (rnd (k + 1))) =
      (List.range n).map (fun k => ((⟨kKeys rnd k, kBc rnd k, kDec rnd k⟩ : St1),
        [(⟨k + 1, none, kBc rnd k⟩ : Msg GG18.KeyGenBroadcastMessage1)])) := rfl
  simp only [s1]
  rw [runRound_broadcast _ _ _ fun k hk => round2_ok hk, Res.bind_ok,
    runRound_broadcast _ _ _ fun k hk => round3_ok A (hτ (k + 1) (by omega) (by omega)) hon hk, Res.bind_ok,
    runRound_p2p _ (kCt A rnd) _ h4, Res.bind_ok, runRound_broadcast _ _ _ h5, Res.bind_ok, runRound_broadcast _ _ _ h6]

/-- **C122 is violated** by the GG18 demo, whatever the thresholds: every client stores a key file, all with the same
public key, and it takes as many parties to reconstruct its private key `d` as the largest threshold `T` demands: no
set of exactly `T` parties is enough, unless the leading coefficients that the parties drew cancel. -/
theorem C122_gg18_unnoticed (A : Aead) {τ : ℕ → ℕ} {n T : ℕ} {rnd : ℕ → Demo.Keygen.Rand} (hn : n < q)
    (hτ : ∀ i, 1 ≤ i → i ≤ n → τ i ≤ T) (hT : T < n)
    (hon : ∀ i, 1 ≤ i → i ≤ n → Spec.GG18.HonestKeygenRand (τ i) (rnd i)) :
    ∃ (file : ℕ → Demo.Keygen.KeyFile) (d : Sc),
      mixedClients A τ n rnd = .ok ((List.range n).map fun k => file (k + 1)) ∧
      (∀ i, 1 ≤ i → i ≤ n → (file i).y_sum = d • G) ∧
      Reconstructs T n (fun i => (file i).shared_keys.x_i) d ∧
      (∑ i ∈ Finset.Icc 1 n, ((rnd i).u :: (rnd i).coefs).getD T 0 ≠ 0 →
        (∀ S : Finset ℕ, (∀ i ∈ S, 1 ≤ i ∧ i ≤ n) → S.card = T → 0 < T →
          ∑ i ∈ S, lagrangeCoeff S i * (file i).shared_keys.x_i ≠ d) ∧
        ∀ k, 1 ≤ k → k ≤ n → τ k < T → ¬ Reconstructs (τ k) n (fun i => (file i).shared_keys.x_i) d) := by
  set F : Polynomial Sc := ∑ j ∈ Finset.range n, toPoly ((rnd (j + 1)).u :: (rnd (j + 1)).coefs) with hF
  have hdeg : F.degree < (T + 1 : ℕ) := by
    refine lt_of_le_of_lt (Polynomial.degree_sum_le _ _) ?_
    rw [Finset.sup_lt_iff (WithBot.bot_lt_coe _)]
    intro j hj
    have hj : j < n := by simpa using hj
    refine lt_of_lt_of_le (degree_toPoly_lt ((rnd (j + 1)).u :: (rnd (j + 1)).coefs)) ?_
    rw [List.length_cons, (hon (j + 1) (by omega) (by omega)).coefs_len]
    exact_mod_cast Nat.succ_le_succ (hτ (j + 1) (by omega) (by omega))
  have hx : ∀ i, 1 ≤ i → i ≤ n → Demo.Keygen.kX n rnd (i - 1) = F.eval (i : Sc) := by
    intro i h1 h2
    simp only [hF, Demo.Keygen.kX, sum_map_range_eq, Polynomial.eval_finsetSum, eval_toPoly, Demo.Keygen.kShare,
      Nat.sub_add_cancel h1]
  have h0 : F.eval 0 = ∑ j ∈ Finset.range n, (rnd (j + 1)).u := by
    simp only [hF, Polynomial.eval_finsetSum, eval_toPoly, evalPoly_zero_cons]
  refine ⟨fun i => { Demo.Keygen.kFile (τ (i - 1 + 1)) n rnd (i - 1) with
      vss_scheme_vec := (List.range n).map fun j => Demo.Keygen.kVss (τ (j + 1)) n rnd j }, F.eval 0, ?_, ?_, ?_, ?_⟩
  · exact mixed_clients_eq A (fun i h1 h2 => lt_of_le_of_lt (hτ i h1 h2) hT) hon
  · intro i h1 h2
    rw [h0]
    exact Demo.Keygen.kY_sum n rnd
  · exact (show OnPolynomial T n (fun i => Demo.Keygen.kX n rnd (i - 1)) F from ⟨hdeg, hx⟩).reconstructs hn
  · intro hlead
    have hc : F.coeff T ≠ 0 := by
      rw [hF, Polynomial.finsetSum_coeff]
      rw [sum_Icc_one] at hlead
      simpa only [coeff_toPoly] using hlead
    have few : ∀ S : Finset ℕ, (∀ i ∈ S, 1 ≤ i ∧ i ≤ n) → S.card = T → 0 < T →
        ∑ i ∈ S, lagrangeCoeff S i * Demo.Keygen.kX n rnd (i - 1) ≠ F.eval 0 := by
      intro S hS hcard hT
      rw [Finset.sum_congr rfl fun i hi => by rw [hx i (hS i hi).1 (hS i hi).2]]
      exact too_few_shares hn hdeg hc hT S hS hcard
    refine ⟨few, fun k h1 h2 hlt hrec => ?_⟩
    have hS : ∀ i ∈ Finset.Icc 1 T, 1 ≤ i ∧ i ≤ n := fun i hi => by
      have := Finset.mem_Icc.1 hi
      omega
    exact few (Finset.Icc 1 T) hS (by simp) (by omega) (hrec _ hS (by simp; omega))

end

/-! ### Examples: the 31-point group -/

section
attribute [local instance] Toy.crypto

/-- Three parties, of which the first was started with threshold 2 and the others with threshold 1: all of them get a
key, and two parties do not hold it, as the second and third believe.  With the first and second exchanged, the
program crashes. -/
example : ∃ (rnd rnd' : ℕ → KeygenRandomness) (keys : ℕ → LocalKey) (d : ZMod 31),
    mixedRun (fun k => if k = 0 then 2 else 1) 3 rnd = .ok [.ok (keys 1), .ok (keys 2), .ok (keys 3)] ∧
    (keys 1).t = 2 ∧ (keys 2).t = 1 ∧ (keys 3).t = 1 ∧ (keys 2).public_key = d • (G : Pt) ∧
    ¬ Reconstructs 1 3 (fun i => (keys i).keys_linear.x_i) d ∧
    mixedRun (fun k => if k = 1 then 2 else 1) 3 rnd' = .ok [.panic, .panic, .panic] := by
  obtain ⟨r1, a1, u1, c1⟩ := honestRandomness_exists 1 (5 : ZMod 31) [(7 : ZMod 31)] rfl
  obtain ⟨r2, a2, u2, c2⟩ := honestRandomness_exists 2 (5 : ZMod 31) [(7 : ZMod 31), (4 : ZMod 31)] rfl
  obtain ⟨keys, d, h1, h2, -, h4⟩ := C122_unnoticed (τ := fun k => if k = 0 then 2 else 1) (n := 3)
    (rnd := fun k => if k = 0 then r2 else r1) (by decide) (by decide) (fun k _ => by split <;> decide)
    (fun k _ => by split <;> assumption) (fun k _ => by split <;> decide)
  have h5 := (h4 (by
    simp only [Finset.sum_range_succ, Finset.sum_range_zero]
    simp [u1, u2, c1, c2]
    decide)).2 1 (by decide) (by decide)
  have h6 := C122_crash (τ := fun k => if k = 1 then 2 else 1) (n := 3) (rnd := fun k => if k = 1 then r2 else r1)
    (fun k _ => by split <;> decide) (fun k _ => by split <;> assumption)
    ⟨1, by decide, by decide⟩
  exact ⟨_, _, keys, d, h1, (h2 0 (by decide)).1, (h2 1 (by decide)).1, (h2 2 (by decide)).1,
    (h2 1 (by decide)).2.2, h5, h6⟩

/-- Three clients of the GG18 demo, of which the second was started with threshold 2 and the others with threshold 1. -/
example : ∃ (rnd : ℕ → Demo.Keygen.Rand) (file : ℕ → Demo.Keygen.KeyFile) (d : ZMod 31),
    mixedClients toyAead (fun i => if i = 2 then 2 else 1) 3 rnd = .ok [file 1, file 2, file 3] ∧
    (file 1).y_sum = d • (G : Pt) ∧ ¬ Reconstructs 1 3 (fun i => (file i).shared_keys.x_i) d := by
  obtain ⟨file, d, h1, h2, -, h4⟩ := C122_gg18_unnoticed toyAead (τ := fun i => if i = 2 then 2 else 1) (n := 3) (T := 2)
    (rnd := fun i => if i = 2 then { toyKg 2 with coefs := [(7 : ZMod 31), (4 : ZMod 31)] } else toyKg i) (by decide)
    (fun i _ _ => by split <;> decide) (by decide) (fun i i1 i2 => by
      split
      · exact ⟨by decide, toyKey3_valid, toyKey3_large, rfl⟩
      · exact toyKg_honest i1 i2)
  exact ⟨_, file, d, h1, h2 1 (by decide) (by decide), (h4 (by decide)).2 1 (by decide) (by decide) (by decide)⟩

end
end Verif.Props
