import Verif.Props.Keygen

/-!
# Properties C14, C15 (GG20 part), C18: malicious dealers, panics, refresh
-/

namespace Verif.Props

open EC Crypto Spec GG20

section
variable [Crypto]

/-- **C14.** The keys of the honest parties fit together whatever the dealers sent.

`honest` parties checked their shares (`keys i`, `pf i` are party `i`'s round-3 results, `views i` the
commitment vectors it received) and broadcast their proofs; one honest party `h` completed
round 4.  If in addition `h` received no commitment vector longer than `t + 1` then any `t + 1` honest
parties reconstruct the discrete logarithm of the public key, and all honest parties hold the same
public key.

Missing with respect to the property: the code does not check the extra hypothesis `hlen`; without
it the statement is false, see `C14_threshold_raised`. -/
theorem C14_honest_shares_usable_partial {t n : ℕ} (hn : n < q) (honest : Finset ℕ)
    (hrange : ∀ i ∈ honest, 1 ≤ i ∧ i ≤ n)
    (ys : List Pt) (views : ℕ → List Vss) (shares : ℕ → List Sc) (nonces : ℕ → Sc)
    (keys : ℕ → SharedKeys) (pf : ℕ → DLogProof) (proofs : List DLogProof)
    (hround3 : ∀ i ∈ honest,
      Keys.phase2_verify_vss ⟨t, n⟩ ys (shares i) (views i) i (nonces i) = .ok (keys i, pf i))
    (hbcast : ∀ i ∈ honest, proofs[i - 1]? = some (pf i))
    (h : ℕ) (hh : h ∈ honest)
    (hround4 : verify_dlog_proofs_check_against_vss ⟨t, n⟩ proofs ys (views h) = .ok ())
    (hlen : ∀ v ∈ views h, v.commitments.length ≤ t + 1) :
    ∃ d : Sc, (∀ i ∈ honest, (keys i).y = d • G) ∧
      ∀ S ⊆ honest, t + 1 ≤ S.card → ∑ i ∈ S, lagrangeCoeff S i * (keys i).x_i = d := by
  have hn0 : 0 < n := by have := hrange h hh; omega
  -- lengths follow from the assertions
  have lens : ∀ i ∈ honest, ys.length = n ∧ (shares i).length = n ∧ (views i).length = n := by
    intro i hi
    have := hround3 i hi
    unfold Keys.phase2_verify_vss at this
    simp only [Res.bind_eq_ok, Res.assert_eq_ok, decide_eq_true_eq] at this
    obtain ⟨_, a, _, b, _, c, -⟩ := this
    exact ⟨a, b, c⟩
  have lenp : proofs.length = n := by
    unfold verify_dlog_proofs_check_against_vss at hround4
    simp only [Res.bind_eq_ok, Res.assert_eq_ok, decide_eq_true_eq] at hround4
    obtain ⟨_, -, _, b, -⟩ := hround4
    exact b
  have r3 : ∀ i ∈ honest, (∀ j < n, ValidShareAt ys (shares i) (views i) i j) ∧
      (keys i).x_i = (shares i).sum ∧ (keys i).y = ys.sum ∧ (pf i).pk = (keys i).x_i • G := by
    intro i hi
    obtain ⟨a, b, c⟩ := lens i hi
    have := C12_accepts_iff (t := t) hn0 ys (shares i) (views i) i (nonces i) a b c
    obtain ⟨e1, e2, -, e4⟩ := this.2 _ _ (hround3 i hi)
    exact ⟨this.1.1 ⟨_, hround3 i hi⟩, e1, e2, e4⟩
  obtain ⟨ly, -, lv⟩ := lens h hh
  have r4 : ∀ i < n, ValidKeyProofAt proofs (views h) i := by
    rcases phase4_cases (t := t) hn0 ly lenp lv with ⟨-, e⟩ | ⟨-, ⟨a, -⟩ | ⟨i, _, _, _, e⟩⟩
    · rw [e] at hround4; cases hround4
    · exact a
    · rw [e] at hround4; cases hround4
  -- the polynomials behind h's view
  choose f hf using fun v : Vss => exists_coefs v.commitments
  let F : Polynomial Sc := ((views h).map (fun v => toPoly (f v))).sum
  have hFdeg : F.degree < (t + 1 : ℕ) := by
    have key : ∀ l : List Vss, (∀ v ∈ l, v.commitments.length ≤ t + 1) →
        ((l.map (fun v => toPoly (f v))).sum).degree < (t + 1 : ℕ) := by
      intro l
      induction l with
      | nil => intro _; simp only [List.map_nil, List.sum_nil, Polynomial.degree_zero]
               exact WithBot.bot_lt_coe _
      | cons v l ih =>
        intro hl
        rw [List.map_cons, List.sum_cons]
        refine lt_of_le_of_lt (Polynomial.degree_add_le _ _) (max_lt ?_ ?_)
        · refine lt_of_lt_of_le (degree_toPoly_lt (f v)) ?_
          have h1 : (f v).length = v.commitments.length := by
            conv_rhs => rw [hf v]
            simp
          have := hl v (by simp)
          exact_mod_cast h1 ▸ this
        · exact ih (fun w hw => hl w (by simp [hw]))
    exact key _ hlen
  have hFeval : ∀ x : Sc, F.eval x • (G : Pt) =
      ((views h).map (fun v => feldmanEval v.commitments x)).sum := by
    intro x
    have key : ∀ l : List Vss, (((l.map (fun v => toPoly (f v))).sum).eval x) • (G : Pt) =
        (l.map (fun v => feldmanEval v.commitments x)).sum := by
      intro l
      induction l with
      | nil => simp
      | cons v l ih =>
        rw [List.map_cons, List.sum_cons, Polynomial.eval_add, add_smul, ih, List.map_cons,
          List.sum_cons]
        congr 1
        rw [eval_toPoly, ← feldmanEval_map, ← hf v]
    exact key _
  have hx : ∀ i ∈ honest, (keys i).x_i = F.eval (i : Sc) := by
    intro i hi
    obtain ⟨p, hp1, -, hp3⟩ := r4 (i - 1) (by have := hrange i hi; omega)
    rw [hbcast i hi, Option.some.injEq] at hp1
    subst hp1
    rw [Nat.sub_add_cancel (hrange i hi).1, (r3 i hi).2.2.2, ← hFeval, smul_G_inj] at hp3
    exact hp3
  have hy : ys.sum = F.eval 0 • G := by
    rw [hFeval]
    congr 1
    refine List.ext_getElem (by simp [ly, lv]) fun j h1 h2 => ?_
    obtain ⟨y, s, v, e1, -, e3, -, e5⟩ := (r3 h hh).1 j (by omega)
    rw [List.getElem?_eq_getElem h1, Option.some.injEq] at e1
    have h3 : j < (views h).length := by omega
    rw [List.getElem?_eq_getElem h3, Option.some.injEq] at e3
    rw [e1, List.getElem_map, e3]
    obtain ⟨c, cs, hc⟩ : ∃ c cs, v.commitments = c :: cs := by
      cases hv : v.commitments with
      | nil => rw [hv] at e5; simp at e5
      | cons c cs => exact ⟨c, cs, rfl⟩
    rw [hc] at e5
    simp only [List.head?_cons, Option.some.injEq] at e5
    have hfv := hf v
    cases hfl : f v with
    | nil => rw [hfl, hc] at hfv; simp at hfv
    | cons c' cs' =>
      rw [hfl, hc, List.map_cons, List.cons.injEq] at hfv
      rw [hf v, feldmanEval_map, hfl, evalPoly_zero_cons, ← hfv.1, e5]
  refine ⟨F.eval 0, fun i hi => (r3 i hi).2.2.1.trans hy, fun S hS hc => ?_⟩
  have hon : OnPolynomial t n (fun i => F.eval (i : Sc)) F := ⟨hFdeg, fun _ _ _ => rfl⟩
  have := hon.reconstructs hn S (fun i hi => hrange i (hS hi)) hc
  rw [← this]
  refine Finset.sum_congr rfl fun i hi => ?_
  rw [hx i (hS hi)]

/-- **C14** (party 1's vector is not too long). Then the lengths of the others need not be assumed: with a
longer one the last round would have panicked. -/
theorem C14_honest_shares_usable_party_one {t n : ℕ} (hn : n < q) (honest : Finset ℕ)
    (hrange : ∀ i ∈ honest, 1 ≤ i ∧ i ≤ n)
    (ys : List Pt) (views : ℕ → List Vss) (shares : ℕ → List Sc) (nonces : ℕ → Sc)
    (keys : ℕ → SharedKeys) (pf : ℕ → DLogProof) (proofs : List DLogProof)
    (hround3 : ∀ i ∈ honest,
      Keys.phase2_verify_vss ⟨t, n⟩ ys (shares i) (views i) i (nonces i) = .ok (keys i, pf i))
    (hbcast : ∀ i ∈ honest, proofs[i - 1]? = some (pf i))
    (h : ℕ) (hh : h ∈ honest)
    (hround4 : verify_dlog_proofs_check_against_vss ⟨t, n⟩ proofs ys (views h) = .ok ())
    (hfirst : ∀ v, (views h)[0]? = some v → v.commitments.length ≤ t + 1) :
    ∃ d : Sc, (∀ i ∈ honest, (keys i).y = d • G) ∧
      ∀ S ⊆ honest, t + 1 ≤ S.card → ∑ i ∈ S, lagrangeCoeff S i * (keys i).x_i = d := by
  refine C14_honest_shares_usable_partial hn honest hrange ys views shares nonces keys pf proofs hround3
    hbcast h hh hround4 fun v hv => ?_
  have hg : get_commitments_to_xi (views h) ≠ none := by
    intro hg
    unfold verify_dlog_proofs_check_against_vss at hround4
    simp [hg, Res.bind_eq_ok] at hround4
  cases hvs : views h with
  | nil => rw [hvs] at hv; cases hv
  | cons v0 vs =>
    rw [hvs] at hv hg hfirst
    rw [ne_eq, get_commitments_to_xi_eq_none] at hg
    push Not at hg
    have := hfirst v0 rfl
    rcases List.mem_cons.1 hv with rfl | hv
    · exact this
    · exact (hg.2 v hv).trans this

/-- **C14** (violation). The commitment vectors' lengths are not checked: among three parties with
threshold 1, party 1 can deal a polynomial of degree 2.  Every check of every party passes, all get the
same public key, but two parties do not hold the key any more. -/
theorem C14_threshold_raised (nonces : ℕ → Sc) :
    ∃ (ys : List Pt) (vss : List Vss) (shares : ℕ → List Sc) (keys : ℕ → SharedKeys)
      (pf : ℕ → DLogProof) (proofs : List DLogProof) (d : Sc),
      (∀ i, 1 ≤ i → i ≤ 3 →
        Keys.phase2_verify_vss ⟨1, 3⟩ ys (shares i) vss i (nonces i) = .ok (keys i, pf i) ∧
        proofs[i - 1]? = some (pf i) ∧ (keys i).y = d • G) ∧
      verify_dlog_proofs_check_against_vss ⟨1, 3⟩ proofs ys vss = .ok () ∧
      ¬ Reconstructs 1 3 (fun i => (keys i).x_i) d := by
  -- party 1 deals x², the others deal the zero polynomial
  let vss : List Vss := [⟨1, 3, [(0 : Sc) • G, (0 : Sc) • G, (1 : Sc) • G]⟩,
    ⟨1, 3, [(0 : Sc) • G, (0 : Sc) • G]⟩, ⟨1, 3, [(0 : Sc) • G, (0 : Sc) • G]⟩]
  let shares : ℕ → List Sc := fun i => [(i : Sc) ^ 2, 0, 0]
  let pf : ℕ → DLogProof := fun i => DLogProof.prove ((i : Sc) ^ 2) (nonces i)
  have e1 : ∀ x : Sc, feldmanEval [(0 : Sc) • G, (0 : Sc) • G, (1 : Sc) • G] x = x ^ 2 • G := by
    intro x
    have := feldmanEval_map [0, 0, 1] x
    simp only [List.map_cons, List.map_nil] at this
    rw [this]; simp [pow_two]
  have e2 : ∀ x : Sc, feldmanEval [(0 : Sc) • G, (0 : Sc) • G] x = (0 : Sc) • G := by
    intro x
    have := feldmanEval_map [0, 0] x
    simp only [List.map_cons, List.map_nil] at this
    rw [this]; simp
  refine ⟨[0, 0, 0], vss, shares, fun i => ⟨0, (i : Sc) ^ 2⟩, pf, [pf 1, pf 2, pf 3], 0, ?_, ?_, ?_⟩
  · intro i h1 h3
    have hv : ∀ j < 3, ValidShareAt [0, 0, 0] (shares i) vss i j := by
      intro j hj
      interval_cases j
      · exact ⟨_, _, _, rfl, rfl, rfl, e1 _, by simp⟩
      · exact ⟨_, _, _, rfl, rfl, rfl, e2 _, by simp⟩
      · exact ⟨_, _, _, rfl, rfl, rfl, e2 _, by simp⟩
    refine ⟨?_, ?_, by simp⟩
    · rcases phase2_cases (t := 1) (n := 3) (by norm_num) (ys := [0, 0, 0]) (shares := shares i)
        (vss := vss) i (nonces i) rfl rfl rfl with ⟨-, h⟩ | ⟨j, hj, hb, -⟩ | ⟨j, hj, hb, -⟩
      · rw [h]
        simp [shares, pf]
      · exact absurd (hv j hj) hb
      · interval_cases j <;> simp [vss] at hb
    · interval_cases i <;> rfl
  · have hv : ∀ j < 3, ValidKeyProofAt [pf 1, pf 2, pf 3] vss j := by
      intro j hj
      have key : ((vss.map (fun v => feldmanEval v.commitments ((j + 1 : ℕ) : Sc))).sum) =
          (((j + 1 : ℕ) : Sc) ^ 2) • G := by
        simp only [vss, List.map_cons, List.map_nil, e1, e2, List.sum_cons, List.sum_nil]
        simp
      refine ⟨pf (j + 1), ?_, DLogProof.verify_prove _ _, by rw [key]; rfl⟩
      interval_cases j <;> rfl
    rcases phase4_cases (t := 1) (n := 3) (by norm_num) (proofs := [pf 1, pf 2, pf 3])
      (ys := [0, 0, 0]) (vss := vss) rfl rfl rfl with ⟨h, -⟩ | ⟨-, ⟨-, h⟩ | ⟨j, hj, hb, -⟩⟩
    · rw [get_commitments_to_xi_eq (by simp) (by simp)] at h
      cases h
    · exact h
    · exact absurd (hv j hj) hb
  · intro h
    have := h {1, 2} (by simp) (by simp)
    have p1 : ({1, 2} : Finset ℕ).erase 1 = {2} := by decide
    have p2 : ({1, 2} : Finset ℕ).erase 2 = {1} := by decide
    rw [Finset.sum_pair (by norm_num), lagrangeCoeff, lagrangeCoeff, p1, p2,
      Finset.prod_singleton, Finset.prod_singleton] at this
    have h21 : ((2 : ℕ) : Sc) - ((1 : ℕ) : Sc) = 1 := by push_cast; ring
    have h12 : ((1 : ℕ) : Sc) - ((2 : ℕ) : Sc) = -1 := by push_cast; ring
    rw [h21, h12] at this
    have h2 : (2 : Sc) = 0 := by
      have h3 : (2 : Sc) / 1 * 1 ^ 2 + 1 / (-1) * 2 ^ 2 = 0 := by simpa using this
      rw [div_one, div_neg, div_one] at h3
      linear_combination -h3
    exact two_ne_zero h2

/-- **C15.** With vectors of the right length, the GG20 round-3 check panics exactly when some peer's
commitment vector is empty and all earlier peers pass. -/
theorem C15_round3_panics_iff {t n : ℕ} (hn : 0 < n) (ys : List Pt) (shares : List Sc)
    (vss : List Vss) (index : ℕ) (nonce : Sc) (h1 : ys.length = n) (h2 : shares.length = n)
    (h3 : vss.length = n) :
    Keys.phase2_verify_vss ⟨t, n⟩ ys shares vss index nonce = .panic ↔
      ∃ i < n, vss[i]?.map (·.commitments) = some [] ∧
        ∀ j < i, ValidShareAt ys shares vss index j := by
  rcases phase2_cases (t := t) hn index nonce h1 h2 h3 with
    ⟨h, he⟩ | ⟨i, hi, hb, hne, hp, he⟩ | ⟨i, hi, hc, hp, he⟩
  · rw [he]
    simp only [reduceCtorEq, false_iff, not_exists, not_and]
    intro i hi hc
    obtain ⟨y, s, v, -, -, hv, -, hh⟩ := h i hi
    rw [hv] at hc
    simp only [Option.map_some, Option.some.injEq] at hc
    rw [hc] at hh
    simp at hh
  · rw [he]
    simp only [reduceCtorEq, false_iff, not_exists, not_and]
    intro l hl hc hpl
    rcases lt_trichotomy i l with h | h | h
    · exact hb (hpl i h)
    · exact hne (h ▸ hc)
    · obtain ⟨y, s, v, -, -, hv, -, hh⟩ := hp l h
      rw [hv] at hc
      simp only [Option.map_some, Option.some.injEq] at hc
      rw [hc] at hh
      simp at hh
  · simp only [he, true_iff]
    exact ⟨i, hi, hc, hp⟩

/-- **C15.** With vectors of the right length, the GG20 round-4 check panics exactly when the first
party's commitment vector is empty or some later one is longer than the first party's. -/
theorem C15_round4_panics_iff {t n : ℕ} (proofs : List DLogProof) (ys : List Pt) (v0 : Vss)
    (vs : List Vss) (h1 : ys.length = n) (h2 : proofs.length = n) (h3 : (v0 :: vs).length = n) :
    verify_dlog_proofs_check_against_vss ⟨t, n⟩ proofs ys (v0 :: vs) = .panic ↔
      v0.commitments = [] ∨ ∃ v ∈ vs, v0.commitments.length < v.commitments.length := by
  have hn : 0 < n := by rw [← h3]; simp
  rw [← get_commitments_to_xi_eq_none]
  rcases phase4_cases (t := t) hn h1 h2 h3 with ⟨h, he⟩ | ⟨h, ⟨-, he⟩ | ⟨i, -, -, -, he⟩⟩
  · simp [h, he]
  · rw [he]
    simp only [reduceCtorEq, false_iff]
    intro hc; rw [hc] at h; simp at h
  · rw [he]
    simp only [reduceCtorEq, false_iff]
    intro hc; rw [hc] at h; simp at h

/-- **C15** (violation). A running party can be brought down by a single peer: if party 1's round-3
message carries an empty commitment vector, `Round3::proceed` of any other party panics. -/
theorem C15_peer_panics_round3 (r : Keygen.Round3) (input : List (Vss × Sc))
    (rnd : KeygenRandomness) (hi : 2 ≤ r.party_i) (hy : r.y_vec.length = r.n)
    (hlen : input.length + 1 = r.n) (hle : r.party_i ≤ r.n) (v : Vss) (s : Sc)
    (hfirst : input.head? = some (v, s)) (hv : v.commitments = []) :
    r.proceed input rnd = .panic := by
  have hl : (intoVecIncludingMe input r.party_i (r.own_vss, r.own_share)).length = r.n := by
    rw [intoVecIncludingMe, List.length_insertIdx_of_le_length (by omega), hlen]
  have h0 : (intoVecIncludingMe input r.party_i (r.own_vss, r.own_share))[0]? = some (v, s) := by
    obtain ⟨a, l, rfl⟩ : ∃ a l, input = a :: l := by
      cases input with
      | nil => simp at hfirst
      | cons a l => exact ⟨a, l, rfl⟩
    obtain ⟨k, hk⟩ : ∃ k, r.party_i - 1 = k + 1 := ⟨r.party_i - 2, by omega⟩
    simp only [List.head?_cons, Option.some.injEq] at hfirst
    simp [intoVecIncludingMe, hk, hfirst]
  unfold Keygen.Round3.proceed
  have := (C15_round3_panics_iff (t := r.t) (n := r.n) (by omega) r.y_vec
    ((intoVecIncludingMe input r.party_i (r.own_vss, r.own_share)).map Prod.snd)
    ((intoVecIncludingMe input r.party_i (r.own_vss, r.own_share)).map Prod.fst) r.party_i
    rnd.dlogNonce hy (by simpa using hl) (by simpa using hl)).2
    ⟨0, by omega, by rw [List.getElem?_map, h0]; simp [hv], by simp⟩
  simp only [this]
  rfl

/-- **C15** (violation). If any later party dealt a longer commitment vector than party 1,
`Round4::proceed` panics, whatever else was received. -/
theorem C15_peer_panics_round4 (r : Keygen.Round4) (input : List DLogProof)
    (hy : r.y_vec.length = r.n) (hlen : input.length + 1 = r.n) (hle : r.party_i ≤ r.n)
    (v0 : Vss) (vs : List Vss) (hvs : r.vss_vec = v0 :: vs) (hvl : r.vss_vec.length = r.n)
    (v : Vss) (hv : v ∈ vs) (hlong : v0.commitments.length < v.commitments.length) :
    r.proceed input = .panic := by
  have hl : (intoVecIncludingMe input r.party_i r.own_dlog_proof).length = r.n := by
    rw [intoVecIncludingMe, List.length_insertIdx_of_le_length (by omega), hlen]
  unfold Keygen.Round4.proceed
  have := (C15_round4_panics_iff (t := r.t) (n := r.n)
    (intoVecIncludingMe input r.party_i r.own_dlog_proof) r.y_vec v0 vs hy hl (hvs ▸ hvl)).2
    (Or.inr ⟨v, hv, hlong⟩)
  rw [hvs]
  simp only [this]
  rfl

/-- **C15** (GG20). The round-1 check panics exactly when, for the first party whose data is not valid, the
verification of one of the three proofs panics. -/
theorem C15_round1_panics_iff (k : Keys) {t n : ℕ} (ht : t < n)
    (decoms : List KeyGenDecommitMessage1) (bcs : List KeyGenBroadcastMessage1) (coefs : List Sc)
    (h1 : decoms.length = n) (h2 : bcs.length = n) :
    k.phase1_verify_distribute ⟨t, n⟩ decoms bcs coefs = .panic ↔
      ∃ i < n, PanickingBroadcastAt bcs decoms i ∧ ∀ j < i, ValidBroadcastAt bcs decoms j := by
  have hdisj : ∀ i < n, PanickingBroadcastAt bcs decoms i → ¬ ValidBroadcastAt bcs decoms i := by
    intro i hi h
    rw [panickingBroadcastAt_iff h1 h2 hi] at h
    rw [validBroadcastAt_iff h1 h2 hi, h]
    simp
  rcases phase1_cases k ht coefs h1 h2 with ⟨h, he⟩ | ⟨i, hi, hb, hp, ⟨hc, he⟩ | ⟨hc, he⟩⟩
  · rw [he]
    simp only [reduceCtorEq, false_iff, not_exists, not_and]
    exact fun i hi hc => absurd (h i hi) (hdisj i hi hc)
  · rw [he]
    simp only [reduceCtorEq, false_iff, not_exists, not_and]
    intro j hj hcj hpj
    rcases lt_trichotomy i j with h | rfl | h
    · exact absurd (hpj i h) hb
    · exact hc hcj
    · exact absurd (hp j h) (hdisj j hj hcj)
  · exact ⟨fun _ => ⟨i, hi, hc, hp⟩, fun _ => he⟩

/-- **C15** (GG20). What holds: the round-1 check does not panic when no verification of a proof by the
dependency panics, and the checks of rounds 3 and 4 do not panic when all commitment vectors have one and the same positive length, as those of honest
dealers have. -/
theorem C15_no_panic_partial (k : Keys) {t n : ℕ} (ht : t < n)
    (decoms : List KeyGenDecommitMessage1) (bcs : List KeyGenBroadcastMessage1) (coefs : List Sc)
    (ys : List Pt) (shares : List Sc) (vss : List Vss) (index : ℕ) (nonce : Sc)
    (proofs : List DLogProof)
    (h1 : decoms.length = n) (h2 : bcs.length = n) (h3 : ys.length = n) (h4 : shares.length = n)
    (h5 : vss.length = n) (h6 : proofs.length = n) :
    ((∀ i < n, ¬ PanickingBroadcastAt bcs decoms i) →
      k.phase1_verify_distribute ⟨t, n⟩ decoms bcs coefs ≠ .panic) ∧
    ((∀ v ∈ vss, v.commitments.length = t + 1) →
      Keys.phase2_verify_vss ⟨t, n⟩ ys shares vss index nonce ≠ .panic ∧
      verify_dlog_proofs_check_against_vss ⟨t, n⟩ proofs ys vss ≠ .panic) := by
  have hn : 0 < n := by omega
  refine ⟨fun hp => ?_, fun hv => ⟨?_, ?_⟩⟩
  · rw [ne_eq, C15_round1_panics_iff k ht decoms bcs coefs h1 h2]
    rintro ⟨i, hi, hc, -⟩
    exact hp i hi hc
  · rw [ne_eq, C15_round3_panics_iff hn ys shares vss index nonce h3 h4 h5]
    rintro ⟨i, hi, hc, -⟩
    rw [List.getElem?_eq_getElem (h5 ▸ hi)] at hc
    simp only [Option.map_some, Option.some.injEq] at hc
    have := hv _ (List.getElem_mem (h5 ▸ hi))
    rw [hc] at this
    simp at this
  · obtain ⟨v0, vs, rfl⟩ : ∃ v0 vs, vss = v0 :: vs := by
      cases vss with
      | nil => simp at h5; omega
      | cons v0 vs => exact ⟨v0, vs, rfl⟩
    rw [ne_eq, C15_round4_panics_iff proofs ys v0 vs h3 h6 h5]
    rintro (h | ⟨v, hv', hl⟩)
    · have := hv v0 (by simp)
      rw [h] at this; simp at this
    · have a := hv v0 (by simp)
      have b := hv v (by simp [hv'])
      omega

/-- **C18.** Updating every party with shares (of the same threshold) of `δ` shifts the shared
secret by exactly `δ`; `δ = 0` leaves it unchanged. -/
theorem C18_update_shifts_secret {t n : ℕ} (hn : n < q) (k : ℕ → Keys) (sk : ℕ → SharedKeys)
    (fu fx : ℕ → Sc) (f g : Polynomial Sc)
    (hf : OnPolynomial t n (fun i => (sk i).x_i) f) (hg : OnPolynomial t n fx g) :
    let pp := fun i => PartyPrivate.set_private (k i) (sk i)
    Reconstructs t n (fun i => (pp i).x_i) (f.eval 0) ∧
    Reconstructs t n (fun i => ((pp i).update_private_key (fu i) (fx i)).x_i)
      (f.eval 0 + g.eval 0) ∧
    ∀ i, ((pp i).update_private_key (fu i) (fx i)).u_i = (k i).u_i + fu i ∧
      (pp i).public_y_i = (k i).u_i • G ∧
      ((pp i).update_private_key (fu i) (fx i)).public_y_i = (pp i).public_y_i + fu i • G ∧
      ((pp i).update_private_key (fu i) (fx i)).dk = (k i).dk := by
  intro pp
  refine ⟨hf.reconstructs hn, ?_, fun i => ⟨rfl, rfl, add_smul _ _ _, rfl⟩⟩
  have : OnPolynomial t n (fun i => ((pp i).update_private_key (fu i) (fx i)).x_i) (f + g) := by
    refine ⟨lt_of_le_of_lt (Polynomial.degree_add_le _ _) (max_lt hf.1 hg.1), fun i h1 h2 => ?_⟩
    rw [Polynomial.eval_add, ← hf.2 i h1 h2, ← hg.2 i h1 h2]
    rfl
  simpa using this.reconstructs hn

/-- **C18** (refresh). Re-running key generation with every party's additive secret refreshed by a
factor yields a public key shifted by the sum of the factors. -/
theorem C18_refresh_shifts_public_key {t n : ℕ} (ht : t < n) (hn : n < q)
    (rnd rnd' : ℕ → KeygenRandomness) (pp : ℕ → PartyPrivate) (factor : ℕ → Sc)
    (hpp : ∀ k < n, (pp k).u_i = (rnd k).u)
    (hrefresh : ∀ k < n,
      Keys.create (k + 1) (rnd' k).u (rnd' k).dk (rnd' k).aux =
        (pp k).refresh_private_key (factor k) (k + 1) (rnd' k).dk (rnd' k).aux)
    (hon : ∀ k < n, Keygen.HonestRandomness t (rnd k))
    (hon' : ∀ k < n, Keygen.HonestRandomness t (rnd' k)) :
    ∃ keys keys', Keygen.run t n rnd = .ok keys ∧ Keygen.run t n rnd' = .ok keys' ∧
      ∀ (k : ℕ) (key key' : LocalKey), keys[k]? = some key → keys'[k]? = some key' →
        key'.public_key = key.public_key + (∑ k ∈ Finset.range n, factor k) • G := by
  obtain ⟨keys, d, x, pails, sts, h1, -, hd, -, h2⟩ := C10_honest_keygen ht hn rnd hon
  obtain ⟨keys', d', x', pails', sts', h1', -, hd', -, h2'⟩ := C10_honest_keygen ht hn rnd' hon'
  refine ⟨keys, keys', h1, h1', fun k key key' hk hk' => ?_⟩
  rw [(h2 k key hk).1, (h2' k key' hk').1, hd, hd', ← add_smul, ← Finset.sum_add_distrib]
  congr 1
  refine Finset.sum_congr rfl fun k hk => ?_
  have hk : k < n := by simpa using hk
  have := congrArg Keys.u_i (hrefresh k hk)
  rw [← hpp k hk]
  exact this

/-- C18's hypotheses on the factors: any two polynomials of degree at most `t` will do. -/
example (t n : ℕ) (f g : Polynomial Sc) (hf : f.degree < (t + 1 : ℕ)) (hg : g.degree < (t + 1 : ℕ))
    (dk : DecKey) :
    ∃ (pp : ℕ → PartyPrivate) (fx : ℕ → Sc), OnPolynomial t n (fun i => (pp i).x_i) f ∧
      OnPolynomial t n fx g :=
  ⟨fun i => ⟨0, f.eval (i : Sc), dk⟩, fun i => g.eval (i : Sc), ⟨hf, fun _ _ _ => rfl⟩,
    ⟨hg, fun _ _ _ => rfl⟩⟩

end

section
attribute [local instance] Toy.crypto

/-- C14: the hypotheses are met by a run with two dealers dealing `3 + 4x` and `5 + 6x`. -/
example :
    let vs : List Vss := [⟨1, 2, [(3 : ZMod 31), (4 : ZMod 31)]⟩, ⟨1, 2, [(5 : ZMod 31), (6 : ZMod 31)]⟩]
    let ys : List (ZMod 31) := [3, 5]
    let pf1 := DLogProof.prove (18 : ZMod 31) (7 : ZMod 31)
    let pf2 := DLogProof.prove (28 : ZMod 31) (9 : ZMod 31)
    Keys.phase2_verify_vss ⟨1, 2⟩ ys [(7 : ZMod 31), (11 : ZMod 31)] vs 1 (7 : ZMod 31) =
      .ok (⟨(8 : ZMod 31), (18 : ZMod 31)⟩, pf1) ∧
    Keys.phase2_verify_vss ⟨1, 2⟩ ys [(11 : ZMod 31), (17 : ZMod 31)] vs 2 (9 : ZMod 31) =
      .ok (⟨(8 : ZMod 31), (28 : ZMod 31)⟩, pf2) ∧
    verify_dlog_proofs_check_against_vss ⟨1, 2⟩ [pf1, pf2] ys vs = .ok () ∧
    ∀ v ∈ vs, v.commitments.length ≤ 1 + 1 := by
  intro vs ys pf1 pf2
  exact ⟨rfl, rfl, by decide +kernel, by simp [vs]⟩

/-- C14: the same run, as party 1 sees it. -/
example := C14_honest_shares_usable_party_one (t := 1) (n := 2) (by decide) {1, 2} (by decide)
  [(3 : ZMod 31), (5 : ZMod 31)]
  (fun _ => [⟨1, 2, [(3 : ZMod 31), (4 : ZMod 31)]⟩, ⟨1, 2, [(5 : ZMod 31), (6 : ZMod 31)]⟩])
  (fun i => if i = 1 then [(7 : ZMod 31), (11 : ZMod 31)] else [(11 : ZMod 31), (17 : ZMod 31)])
  (fun i => if i = 1 then (7 : ZMod 31) else (9 : ZMod 31))
  (fun i => ⟨(8 : ZMod 31), if i = 1 then (18 : ZMod 31) else (28 : ZMod 31)⟩)
  (fun i => if i = 1 then DLogProof.prove (18 : ZMod 31) (7 : ZMod 31)
    else DLogProof.prove (28 : ZMod 31) (9 : ZMod 31))
  [DLogProof.prove (18 : ZMod 31) (7 : ZMod 31), DLogProof.prove (28 : ZMod 31) (9 : ZMod 31)]
  (by
    intro i hi
    rcases Finset.mem_insert.1 hi with rfl | hi
    · rfl
    · obtain rfl := Finset.mem_singleton.1 hi
      rfl)
  (by
    intro i hi
    rcases Finset.mem_insert.1 hi with rfl | hi
    · rfl
    · obtain rfl := Finset.mem_singleton.1 hi
      rfl)
  2 (by decide) (by decide +kernel) (by
    intro v hv
    obtain rfl := Option.some.inj hv
    decide)

/-- C18: two parties refresh their secrets 3 and 5 with the factors 4 and 6. -/
example : ∃ (rnd rnd' : ℕ → KeygenRandomness) (keys keys' : List LocalKey), Keygen.run 1 2 rnd = .ok keys ∧
    Keygen.run 1 2 rnd' = .ok keys' ∧ ∀ (k : ℕ) (key key' : LocalKey), keys[k]? = some key →
      keys'[k]? = some key' →
        key'.public_key = key.public_key + (∑ k ∈ Finset.range 2, ((4 + 2 * k : ℕ) : ZMod 31)) • (G : Pt) := by
  choose rnd h hu hc using fun k : ℕ => honestRandomness_exists 1 ((3 + 2 * k : ℕ) : ZMod 31) [(7 : ZMod 31)] rfl
  choose rnd' h' hu' hc' using fun k : ℕ =>
    honestRandomness_exists 1 (((3 + 2 * k : ℕ) : ZMod 31) + ((4 + 2 * k : ℕ) : ZMod 31)) [(9 : ZMod 31)] rfl
  obtain ⟨keys, keys', hk⟩ := C18_refresh_shifts_public_key (t := 1) (n := 2) (by decide) (by decide) rnd rnd'
    (fun k => ⟨(rnd k).u, (0 : ZMod 31), ⟨43, 47⟩⟩) (fun k => ((4 + 2 * k : ℕ) : ZMod 31)) (fun _ _ => rfl)
    (fun k _ => by
      show Keys.create _ _ _ _ = Keys.create _ _ _ _
      rw [hu' k, hu k]) (fun k _ => h k) (fun k _ => h' k)
  exact ⟨rnd, rnd', keys, keys', hk⟩

/-- C15: party 1 dealt two commitments, party 3 three. -/
example (keys : Keys) (pf : DLogProof) :
    let r : Keygen.Round4 := ⟨keys, [(3 : ZMod 31), (5 : ZMod 31), (6 : ZMod 31)], [],
      ⟨(14 : ZMod 31), (2 : ZMod 31)⟩, pf,
      [⟨1, 3, [(3 : ZMod 31), (4 : ZMod 31)]⟩, ⟨1, 3, [(5 : ZMod 31), (6 : ZMod 31)]⟩,
        ⟨1, 3, [(6 : ZMod 31), (6 : ZMod 31), (7 : ZMod 31)]⟩], 2, 1, 3⟩
    r.proceed [pf, pf] = .panic := by
  intro r
  exact C15_peer_panics_round4 r _ rfl rfl (show 2 ≤ 3 by decide) _ _ rfl rfl
    ⟨1, 3, [(6 : ZMod 31), (6 : ZMod 31), (7 : ZMod 31)]⟩ (by simp) (by decide)

/-- C15: vectors as honest dealers send them. -/
example (k : Keys) (decoms : List KeyGenDecommitMessage1) (bcs : List KeyGenBroadcastMessage1)
    (h1 : decoms.length = 2) (h2 : bcs.length = 2) :=
  C15_no_panic_partial k (t := 1) (n := 2) (by decide) decoms bcs [(4 : ZMod 31)]
    [(3 : ZMod 31), (5 : ZMod 31)] [(7 : ZMod 31), (11 : ZMod 31)]
    [⟨1, 2, [(3 : ZMod 31), (4 : ZMod 31)]⟩, ⟨1, 2, [(5 : ZMod 31), (6 : ZMod 31)]⟩] 1 (7 : ZMod 31)
    [DLogProof.prove (18 : ZMod 31) (7 : ZMod 31), DLogProof.prove (28 : ZMod 31) (9 : ZMod 31)]
    h1 h2 rfl rfl rfl rfl

end

end Verif.Props
