import Verif.Lemmas.DemoChecks

/-! # Lemmas on GG18 key generation clients with dishonest dealers -/

namespace Verif

open EC Spec

section

variable [EC]

/-- The polynomial behind a list of commitment vectors. -/
theorem exists_sum_poly {m : ℕ} (l : List (List Pt)) (hl : ∀ v ∈ l, v.length ≤ m) :
    ∃ F : Polynomial Sc, F.degree < (m : ℕ) ∧
      ∀ x : Sc, F.eval x • (G : Pt) = (l.map (fun v => feldmanEval v x)).sum := by
  induction l with
  | nil => exact ⟨0, by rw [Polynomial.degree_zero]; exact WithBot.bot_lt_coe _, fun x => by simp⟩
  | cons v l ih =>
    obtain ⟨F, f1, f2⟩ := ih fun w hw => hl w (by simp [hw])
    obtain ⟨f, hf⟩ := exists_coefs v
    refine ⟨toPoly f + F, lt_of_le_of_lt (Polynomial.degree_add_le _ _) (max_lt ?_ f1), fun x => ?_⟩
    · refine lt_of_lt_of_le (degree_toPoly_lt f) ?_
      have h1 : f.length = v.length := by rw [hf]; simp
      have := hl v (by simp)
      exact_mod_cast h1 ▸ this
    · rw [Polynomial.eval_add, add_smul, f2, List.map_cons, List.sum_cons, eval_toPoly, hf,
        feldmanEval_map]

/-- Interpolating a polynomial of degree exactly `t + 1` at `t + 1` non-zero points misses its value at
zero. -/
theorem interpolation_misses {t n : ℕ} (hn : n < q) {F : Polynomial Sc} (hF : F.degree = (t + 1 : ℕ))
    {S : Finset ℕ} (hS : ∀ i ∈ S, 1 ≤ i ∧ i ≤ n) (hc : S.card = t + 1) :
    ∑ i ∈ S, lagrangeCoeff S i * F.eval (i : Sc) ≠ F.eval 0 := by
  intro h
  have hinj : Set.InjOn (fun i : ℕ => (i : Sc)) S := by
    intro i hi j hj hij
    exact natCast_inj_of_lt (lt_of_le_of_lt (hS i hi).2 hn) (lt_of_le_of_lt (hS j hj).2 hn) hij
  let g := Lagrange.interpolate S (fun i : ℕ => (i : Sc)) (fun i => F.eval (i : Sc))
  have gdeg : g.degree < (t + 1 : ℕ) := by
    have := Lagrange.degree_interpolate_lt (fun i : ℕ => F.eval (i : Sc)) hinj
    rwa [hc] at this
  have gval : ∀ i ∈ S, g.eval (i : Sc) = F.eval (i : Sc) := fun i hi =>
    Lagrange.eval_interpolate_at_node (fun i : ℕ => F.eval (i : Sc)) hinj hi
  have gon : OnPolynomial t n (fun i => g.eval (i : Sc)) g := ⟨gdeg, fun _ _ _ => rfl⟩
  have g0 : g.eval 0 = F.eval 0 := by
    rw [← gon.reconstructs hn S hS (by omega), ← h]
    exact Finset.sum_congr rfl fun i hi => by dsimp only; rw [gval i hi]
  have h0 : 0 ∉ S := fun h => by have := (hS 0 h).1; omega
  have hinj' : Set.InjOn (fun i : ℕ => (i : Sc)) (insert 0 S : Finset ℕ) := by
    intro i hi j hj hij
    have hb : ∀ i ∈ insert 0 S, i < q := by
      intro i hi
      rcases Finset.mem_insert.1 hi with rfl | hi
      · omega
      · exact lt_of_le_of_lt (hS i hi).2 hn
    exact natCast_inj_of_lt (hb i hi) (hb j hj) hij
  have hFg : F = g := by
    refine Polynomial.eq_of_degrees_lt_of_eval_index_eq (insert 0 S) (v := fun i : ℕ => (i : Sc)) hinj'
      ?_ ?_ ?_
    · rw [Finset.card_insert_of_notMem h0, hc, hF]
      exact_mod_cast Nat.lt_succ_self _
    · rw [Finset.card_insert_of_notMem h0, hc]
      exact gdeg.trans (by exact_mod_cast Nat.lt_succ_self _)
    · intro i hi
      rcases Finset.mem_insert.1 hi with rfl | hi
      · simpa using g0.symm
      · exact (gval i hi).symm
  rw [hFg] at hF
  exact absurd hF (ne_of_lt gdeg)

theorem degree_toPoly {cs : List Sc} {c : Sc} (hc : c ≠ 0) :
    (toPoly (cs ++ [c])).degree = (cs.length : ℕ) := by
  induction cs with
  | nil => simp [Polynomial.degree_C hc]
  | cons a cs ih =>
    rw [List.cons_append, toPoly_cons, List.length_cons]
    have h1 : (Polynomial.X * toPoly (cs ++ [c])).degree = ((cs.length + 1 : ℕ) : WithBot ℕ) := by
      rw [Polynomial.degree_mul, Polynomial.degree_X, ih]
      push_cast
      rw [add_comm]
    rw [Polynomial.degree_add_eq_right_of_degree_lt, h1]
    rw [h1]
    exact lt_of_le_of_lt Polynomial.degree_C_le (by exact_mod_cast Nat.succ_pos _)

end

namespace Demo.Keygen

open Crypto GG18

variable [Crypto] {A : Aead} {t n i : ℕ} {rnd : ℕ → Rand} {b : Posted A} {file : KeyFile}

theorem keygenRun_client {o1 o2 o3 o4 o5} (h : Spec.GG18.KeygenRun A t n rnd i b o1 o2 o3 o4 o5 file) :
    client A t n rnd i b = .ok file := by
  obtain ⟨st1, st2, st3, st4, st5, h1, h2, h3, h4, h5, h6⟩ := h
  unfold client
  rw [h1]
  simp only [h2, h3, h4, h5, h6, Res.bind_ok]

/-- What a client posts in round 4 is the commitment that its file has for itself. -/
theorem keygenRun_o4 {k : ℕ} (hk : k < n) {o1 o2 o3 o4 o5}
    (h : Spec.GG18.KeygenRun A t n rnd (k + 1) b o1 o2 o3 o4 o5 file) {v : Vss}
    (hv : ⟨k + 1, none, v⟩ ∈ o4) : file.vss_scheme_vec[k]? = some v := by
  obtain ⟨st1, st2, st3, st4, st5, -, -, -, h4, h5, h6⟩ := h
  unfold round4 at h4
  obtain ⟨_, -, h4⟩ := Res.bind_eq_ok.1 h4
  obtain ⟨_, -, h4⟩ := Res.bind_eq_ok.1 h4
  obtain ⟨_, -, h4⟩ := Res.bind_eq_ok.1 h4
  simp only [Res.ok.injEq, Prod.mk.injEq] at h4
  obtain ⟨rfl, rfl⟩ := h4
  unfold round5 at h5
  simp only [reassemble_poll, Res.bind_ok] at h5
  obtain ⟨⟨_, _⟩, -, h5⟩ := Res.bind_eq_ok.1 h5
  simp only [Res.ok.injEq, Prod.mk.injEq] at h5
  obtain ⟨rfl, -⟩ := h5
  unfold finish at h6
  obtain ⟨_, -, h6⟩ := Res.bind_eq_ok.1 h6
  obtain ⟨_, -, h6⟩ := Res.bind_eq_ok.1 h6
  obtain ⟨_, -, h6⟩ := Res.bind_eq_ok.1 h6
  injection h6 with h6
  subst h6
  rw [List.mem_singleton, Msg.mk.injEq] at hv
  rw [hv.2.2]
  exact fill_own hk _ _

/-- The public key and the own share of a finished client, from the polynomial commitments in its file. -/
theorem file_shares {k : ℕ} {share : ℕ → Sc} (hk : k < n)
    (h : Spec.GG18.KeygenChecks A n (k + 1) (rnd (k + 1)) b share file) :
    file.shared_keys.x_i • G =
      (file.vss_scheme_vec.map (fun v => feldmanEval v.commitments ((k + 1 : ℕ) : Sc))).sum ∧
    file.y_sum = (file.vss_scheme_vec.map (fun v => feldmanEval v.commitments (0 : Sc))).sum := by
  obtain ⟨hl, v, hv, hc⟩ := h.own
  rw [Nat.add_sub_cancel] at hv
  have hlist : file.vss_scheme_vec = fill n k v b.b4 := by
    refine List.ext_getElem (by simp [hl]) fun j h1 h2 => ?_
    have hj : j < n := by omega
    rw [← Option.some.injEq, ← List.getElem?_eq_getElem, ← List.getElem?_eq_getElem]
    by_cases e : j = k
    · subst e; rw [hv, fill_own hj]
    · rw [fill_peer hj e]
      have hm : j + 1 ∈ peers (k + 1) n := by
        rw [peers_eq_others]
        exact List.mem_map.2 ⟨j, GG20.Sign.mem_others.2 ⟨hj, e⟩, rfl⟩
      simpa using (h.keys.2.2.2 (j + 1) hm).2
  constructor
  · rw [hlist, map_fill, sum_fill hk, hc, feldmanEval_map, h.secret, add_smul]
    congr 1
    have hs : ∀ l : List ℕ, (∀ j ∈ l, feldmanEval (b.b4 j).commitments ((k + 1 : ℕ) : Sc) = share j • G) →
        (l.map share).sum • G =
          (l.map (fun j => feldmanEval (b.b4 j).commitments ((k + 1 : ℕ) : Sc))).sum := by
      intro l
      induction l with
      | nil => intro _; simp
      | cons a l ih =>
        intro hl
        simp only [List.map_cons, List.sum_cons, add_smul]
        rw [ih fun j hj => hl j (by simp [hj]), hl a (by simp)]
    exact hs _ fun j hj => (h.shares j hj).1
  · rw [hlist, map_fill, sum_fill hk, hc, feldmanEval_map, evalPoly_zero_cons, h.public_key.1]
    congr 2
    refine List.map_congr_left fun j hj => ?_
    have := (h.shares j hj).2
    cases hv : (b.b4 j).commitments with
    | nil => rw [hv] at this; cases this
    | cons c cs =>
      rw [hv, List.head?_cons, Option.some.injEq] at this
      obtain ⟨f, hf⟩ := exists_coefs (c :: cs)
      cases f with
      | nil => cases hf
      | cons a f =>
        rw [hf, feldmanEval_map, evalPoly_zero_cons, ← this]
        rw [List.map_cons, List.cons.injEq] at hf
        exact hf.1

/-- The last round does not care what the others' proofs are about. -/
theorem finish_any {st : St5} {k : ℕ} {b5 b5' : ℕ → DLogProof}
    (h : finish ⟨t, n⟩ (k + 1) st (poll (k + 1) n b5) = .ok file) (hy : st.point_vec.length = n)
    (hv : ∀ j ∈ peers (k + 1) n, (b5' j).verify = true) :
    finish ⟨t, n⟩ (k + 1) st (poll (k + 1) n b5') = .ok file := by
  unfold finish at h ⊢
  simp only [reassemble_poll, Res.bind_ok] at h ⊢
  obtain ⟨_, hdl, h⟩ := Res.bind_eq_ok.1 h
  rw [Res.unwrap_eq_ok] at hdl
  have hds : ∀ i < n, Spec.GG18.ValidProofAt (fill n k st.dlog_proof b5) i := by
    rcases dlog_cases (t := t) (n := n) (proofs := fill n k st.dlog_proof b5) (ys := st.point_vec)
      hy (by simp) with ⟨hds, -⟩ | ⟨-, he⟩
    · exact hds
    · rw [he] at hdl; cases hdl
  rcases dlog_cases (t := t) (n := n) (proofs := fill n k st.dlog_proof b5') (ys := st.point_vec)
    hy (by simp) with ⟨-, he⟩ | ⟨⟨l, hl, hb⟩, -⟩
  · rw [he]; exact h
  · refine absurd ?_ hb
    by_cases e : l = k
    · subst e
      obtain ⟨pf, e1, e2⟩ := hds l hl
      rw [fill_own hl] at e1
      exact ⟨pf, by rw [fill_own hl, e1], e2⟩
    · refine ⟨_, fill_peer hl e _ _, hv _ ?_⟩
      rw [peers_eq_others]
      exact List.mem_map.2 ⟨l, GG20.Sign.mem_others.2 ⟨hl, e⟩, rfl⟩

/-- Client `k + 1` in a world where everybody deals honestly, only that the last proofs it reads are
arbitrary valid ones. -/
theorem run_in_world (A : Aead) {k : ℕ} (ht : t < n) {rnd : ℕ → Rand}
    (hon : ∀ k < n, ∃ t', Spec.GG18.HonestKeygenRand t' (rnd (k + 1))) (hk : k < n) {rnd0 : ℕ → Rand}
    (h0 : rnd0 (k + 1) = rnd (k + 1)) {b5 : ℕ → DLogProof}
    (h5 : ∀ j ∈ peers (k + 1) n, (b5 j).verify = true) :
    Spec.GG18.KeygenRun A t n rnd0 (k + 1)
      ⟨fun j => kBc rnd (j - 1), fun j => kDec rnd (j - 1), fun j => kCt A rnd (j - 1) k,
        fun j => kVss t n rnd (j - 1), b5⟩
      [⟨k + 1, none, kBc rnd k⟩] [⟨k + 1, none, kDec rnd k⟩]
      ((GG20.Sign.others n k).map (fun i => ⟨k + 1, some (i + 1), kCt A rnd k i⟩))
      [⟨k + 1, none, kVss t n rnd k⟩] [⟨k + 1, none, kPf n rnd k⟩] (kFile t n rnd k) := by
  have e3 : ∀ st ans, round3 A ⟨t, n⟩ rnd0 (k + 1) st ans = round3 A ⟨t, n⟩ rnd (k + 1) st ans := by
    intro st ans; unfold round3; rw [h0]
  have e5 : ∀ st ans, round5 ⟨t, n⟩ rnd0 (k + 1) st ans = round5 ⟨t, n⟩ rnd (k + 1) st ans := by
    intro st ans; unfold round5; rw [h0]
  refine ⟨⟨kKeys rnd k, kBc rnd k, kDec rnd k⟩,
    ⟨kKeys rnd k, (List.range n).map (kBc rnd), kDec rnd k⟩,
    ⟨kKeys rnd k, (List.range n).map (kBc rnd), (List.range n).map (kY rnd),
          (GG20.Sign.others n k).map (kEnc rnd k), ((List.range n).map (kY rnd)).sum,
          kVss t n rnd k, (List.range n).map (kShare rnd k)⟩,
    ⟨kKeys rnd k, (List.range n).map (kBc rnd), (List.range n).map (kY rnd),
          ((List.range n).map (kY rnd)).sum, kVss t n rnd k,
          (List.range n).map (fun j => kShare rnd j k)⟩,
    ⟨kKeys rnd k, (List.range n).map (kBc rnd), (List.range n).map (kY rnd),
          ((List.range n).map (kY rnd)).sum, (List.range n).map (kVss t n rnd),
          ⟨((List.range n).map (kY rnd)).sum, kX n rnd k⟩, kPf n rnd k⟩,
    by rw [h0]; rfl, ?_, ?_, ?_, ?_, ?_⟩
  · simp only [poll_eq, Nat.add_sub_cancel]; exact round2_ok hk
  · simp only [poll_eq, Nat.add_sub_cancel]; rw [e3]; exact round3_ok A ht hon hk
  · simp only [poll_eq, Nat.add_sub_cancel]; exact round4_ok A hon hk
  · simp only [poll_eq, Nat.add_sub_cancel]; rw [e5]; exact round5_ok
  · refine finish_any (b5 := fun j => kPf n rnd (j - 1)) ?_ (by simp) h5
    simp only [poll_eq, Nat.add_sub_cancel]; exact finish_ok

end Demo.Keygen

end Verif
