import Verif.Lemmas.KeygenBlame
import Verif.Lemmas.KeygenEquiv
import Verif.Props.Keygen

/-!
# C112: whom key generation accuses
-/

namespace Verif.Props

open EC Crypto GG20 Spec

section
variable [Crypto] {t n : ℕ} {rnd : ℕ → KeygenRandomness}
  {b1 : ℕ → ℕ → KeyGenBroadcastMessage1} {b2 : ℕ → ℕ → KeyGenDecommitMessage1}
  {b3 : ℕ → ℕ → Vss × Sc} {b4 : ℕ → ℕ → DLogProof} {key : ℕ → LocalKey}

/-- **C112** (a party does not accuse itself). Whatever the others send, a party that drew its random
values as the program does is not among the parties its own error accuses. -/
theorem C112_not_itself (ht : t < n) {i : ℕ} (hi1 : 1 ≤ i) (hin : i ≤ n) {r : KeygenRandomness}
    (hr : Keygen.HonestRandomness t r) {c1 : ℕ → KeyGenBroadcastMessage1}
    {c2 : ℕ → KeyGenDecommitMessage1} {c3 : ℕ → Vss × Sc} {c4 : ℕ → DLogProof}
    {e : Keygen.ProceedError} (h : (keygenLine r i t n c1 c2 c3 c4).2 = .err e) :
    i ∉ accused e := by
  obtain ⟨k, rfl⟩ : ∃ k, i = k + 1 := ⟨i - 1, by omega⟩
  rcases Keygen.keygenLine_cases (rnd := r) ht hin c1 c2 c3 c4 with
    ⟨j, hj, hbad, hl | hl⟩ | ⟨-, j, hj, hbad, hl | ⟨-, hl⟩⟩ |
      ⟨-, hVS, ⟨j, hj, hbad, -, -, hl⟩ | ⟨-, r', hr', hl⟩⟩ <;> rw [hl] at h
  · cases h
    simp only [accused, List.map_cons, List.map_nil, List.mem_singleton, Nat.add_right_cancel_iff]
    rintro rfl
    refine hbad ⟨_, _, Keygen.assemble_get _ _ hj, Keygen.assemble_get _ _ hj, ?_⟩
    simp only [if_true]
    exact Keygen.honest_validBroadcast (rnd := fun _ => r) (k := k) hr
  · cases h
  · cases h
    simp only [accused, List.map_cons, List.map_nil, List.mem_singleton, Nat.add_right_cancel_iff]
    rintro rfl
    refine hbad ⟨_, _, _, Keygen.assemble_get _ _ hj, by
      rw [List.getElem?_map, Keygen.dealt, Keygen.assemble_get _ _ hj]; rfl, by
      rw [List.getElem?_map, Keygen.dealt, Keygen.assemble_get _ _ hj]; rfl, ?_, ?_⟩
    · simp only [if_true, Keygen.ownDeal, feldmanEval_map]
    · simp [Keygen.ownDeal]
  · cases h
  · cases h
    simp only [accused, List.map_cons, List.map_nil, List.mem_singleton, Nat.add_right_cancel_iff]
    rintro rfl
    refine hbad ⟨_, Keygen.assemble_get _ _ hj, ?_⟩
    simp only [if_true]
    exact ⟨DLogProof.verify_prove _ _, Keygen.ownPf_pk hVS⟩
  · exact absurd h (hr' e)

/-- **C112** (what holds). Party `p` ran the program, and what party `i` received from it until `i`'s
key generation failed is what it sent: then `i`'s error does not accuse `p`.  For the error of the last
round (about the proofs of the key shares) it is also needed that no dealer sent commitments to `i` that
differ from those it sent to `p`.

Missing with respect to the property: the last condition is not checked, see
`C112_anyone_can_be_framed`. -/
theorem C112_honest_not_accused_partial (ht : t < n) {i p : ℕ} (hi1 : 1 ≤ i) (hin : i ≤ n)
    (hp1 : 1 ≤ p) (hpn : p ≤ n) (hne : p ≠ i) (hp : Keygen.HonestRandomness t (rnd p))
    {e : Keygen.ProceedError}
    (h : (keygenLine (rnd i) i t n (b1 i) (b2 i) (b3 i) (b4 i)).2 = .err e)
    (hg : GenuineUpTo (accusedAfter e) (keygenLine (rnd p) p t n (b1 p) (b2 p) (b3 p) (b4 p)).1 i p
      (b1 i p) (b2 i p) (b3 i p) (b4 i p))
    (hsame : accusedAfter e = 4 →
      (⟨i, some p, .Round3 (b3 p i)⟩ : Msg Keygen.M) ∈
        (keygenLine (rnd i) i t n (b1 i) (b2 i) (b3 i) (b4 i)).1 ∧
      ∀ d, 1 ≤ d → d ≤ n → d ≠ i → d ≠ p → (b3 i d).1.commitments = (b3 p d).1.commitments) :
    p ∉ accused e := by
  obtain ⟨k, rfl⟩ : ∃ k, i = k + 1 := ⟨i - 1, by omega⟩
  obtain ⟨l, rfl⟩ : ∃ l, p = l + 1 := ⟨p - 1, by omega⟩
  have hlk : l ≠ k := by omega
  have hsent := Keygen.sent_unique (rnd := rnd (l + 1)) ht hpn (b1 (l + 1)) (b2 (l + 1)) (b3 (l + 1))
    (b4 (l + 1))
  have hsenti := Keygen.sent_unique (rnd := rnd (k + 1)) ht hin (b1 (k + 1)) (b2 (k + 1)) (b3 (k + 1))
    (b4 (k + 1))
  rcases Keygen.keygenLine_cases (rnd := rnd (k + 1)) ht hin (b1 (k + 1)) (b2 (k + 1)) (b3 (k + 1))
      (b4 (k + 1)) with
    ⟨j, hj, hbad, hl | hl⟩ | ⟨-, j, hj, hbad, hl | ⟨-, hl⟩⟩ |
      ⟨-, hVS, ⟨j, hj, hbad, -, -, hl⟩ | ⟨-, r', hr', hl⟩⟩ <;> rw [hl] at h
  · cases h
    simp only [accused, List.map_cons, List.map_nil, List.mem_singleton, Nat.add_right_cancel_iff]
    rintro rfl
    refine hbad ⟨_, _, Keygen.assemble_get _ _ hj, Keygen.assemble_get _ _ hj, ?_⟩
    rw [if_neg hlk, if_neg hlk, hsent.1 _ (hg.1 (by simp [accusedAfter])), hsent.2.1 _ (hg.2.1 (by simp [accusedAfter]))]
    exact Keygen.honest_validBroadcast (rnd := fun _ => rnd (l + 1)) (k := l) hp
  · cases h
  · cases h
    simp only [accused, List.map_cons, List.map_nil, List.mem_singleton, Nat.add_right_cancel_iff]
    rintro rfl
    refine hbad ⟨_, _, _, Keygen.assemble_get _ _ hj, by
      rw [List.getElem?_map, Keygen.dealt, Keygen.assemble_get _ _ hj, if_neg hlk]; rfl, by
      rw [List.getElem?_map, Keygen.dealt, Keygen.assemble_get _ _ hj, if_neg hlk]; rfl, ?_, ?_⟩
    · rw [hsent.2.2.1 _ _ (hg.2.2.1 (by simp [accusedAfter]))]
      simp only [Keygen.ownDeal, feldmanEval_map]
    · rw [hsent.2.2.1 _ _ (hg.2.2.1 (by simp [accusedAfter])), if_neg hlk, hsent.2.1 _ (hg.2.1 (by simp [accusedAfter]))]
      simp [Keygen.ownDeal, Keygen.ownBc, Keys.phase1_broadcast, Keys.create]
  · cases h
  · cases h
    simp only [accused, List.map_cons, List.map_nil, List.mem_singleton, Nat.add_right_cancel_iff]
    rintro rfl
    obtain ⟨hback, hsame⟩ := hsame rfl
    obtain ⟨hpf, hVSp⟩ := hsent.2.2.2 _ (hg.2.2.2 (by simp [accusedAfter]))
    refine hbad ⟨_, Keygen.assemble_get _ _ hj, ?_⟩
    rw [if_neg hlk, hpf]
    refine ⟨DLogProof.verify_prove _ _, ?_⟩
    rw [Keygen.ownPf_pk hVSp]
    congr 1
    unfold Keygen.dealt Keygen.assemble
    simp only [List.map_map]
    refine List.map_congr_left fun d hd => ?_
    have hd : d < n := by simpa using hd
    simp only [Function.comp_apply]
    congr 1
    by_cases e1 : d = l
    · subst e1
      rw [if_pos rfl, if_neg hlk, hsent.2.2.1 _ _ (hg.2.2.1 (by simp [accusedAfter]))]
      rfl
    · rw [if_neg e1]
      by_cases e2 : d = k
      · subst e2
        rw [if_pos rfl, hsenti.2.2.1 _ _ hback]
        rfl
      · rw [if_neg e2]
        exact (hsame (d + 1) (by omega) (by omega) (by omega) (by omega)).symm
  · exact absurd h (hr' e)

/-- **C112** (violation). All `n` parties ran the program and completed key generation.  Changing a single
message makes party `v` stop and accuse party `j`, whose messages are all genuine: the commitments to the
polynomial of party 1 that `v` receives (the share that comes with them is the right one).  `j` can be any
party but party 1 and `v`.  `v` sends the same messages as before, so that nobody else notices. -/
theorem C112_anyone_can_be_framed (ht : t < n) (hn : n < q)
    (h : HonestKeygens t n (Finset.Icc 1 n) rnd b1 b2 b3 b4 key) {v j : ℕ} (hv : 2 ≤ v) (hvn : v ≤ n)
    (hj : 2 ≤ j) (hjn : j ≤ n) (hne : j ≠ v) :
    ∃ V : Vss, keygenLine (rnd v) v t n (b1 v) (b2 v)
      (Function.update (b3 v) 1 (V, (b3 v 1).2)) (b4 v) =
      ((keygenLine (rnd v) v t n (b1 v) (b2 v) (b3 v) (b4 v)).1,
        .err (.Round4VerifyDLogProof ⟨"bad dlog proof", [j - 1]⟩)) := by
  obtain ⟨k, rfl⟩ : ∃ k, v = k + 1 := ⟨v - 1, by omega⟩
  obtain ⟨l, rfl⟩ : ∃ l, j = l + 1 := ⟨j - 1, by omega⟩
  have hc := h.completed (k + 1) (Finset.mem_Icc.2 ⟨by omega, hvn⟩)
  obtain ⟨bcs, ys, all, pfs, hs⟩ := Keygen.keygenLine_seen ht hvn hc
  obtain rfl : all = Keygen.dealt (rnd (k + 1)) k t n (b3 (k + 1)) := hs.all_eq
  -- the polynomial that vanishes at all indices but that of the framed party
  let g : Polynomial Sc := ∏ i ∈ (Finset.range (n + 1)).erase (l + 1),
    (Polynomial.X - Polynomial.C ((i : ℕ) : Sc))
  have hg0 : ∀ i ≤ n, i ≠ l + 1 → g.eval ((i : ℕ) : Sc) = 0 := by
    intro i hi hil
    simp only [g, Polynomial.eval_prod, Polynomial.eval_sub, Polynomial.eval_X, Polynomial.eval_C]
    exact Finset.prod_eq_zero (Finset.mem_erase.2 ⟨hil, Finset.mem_range.2 (by omega)⟩) (sub_self _)
  have hgl : g.eval ((l + 1 : ℕ) : Sc) ≠ 0 := by
    simp only [g, Polynomial.eval_prod, Polynomial.eval_sub, Polynomial.eval_X, Polynomial.eval_C]
    refine Finset.prod_ne_zero_iff.2 fun i hi e => ?_
    obtain ⟨h1, h2⟩ := Finset.mem_erase.1 hi
    exact h1 (natCast_inj_of_lt (by have := Finset.mem_range.1 h2; omega) (by omega)
      (sub_eq_zero.1 e).symm)
  have hgd : g.degree < (n + 1 : ℕ) := by
    rw [Polynomial.degree_prod]
    simp only [Polynomial.degree_X_sub_C, Finset.sum_const, nsmul_eq_mul, mul_one]
    rw [Finset.card_erase_of_mem (Finset.mem_range.2 (by omega)), Finset.card_range]
    exact_mod_cast (by omega : n + 1 - 1 < n + 1)
  obtain ⟨v0, e0, hle⟩ := hs.le_first (by omega)
  rw [Keygen.dealt, Keygen.assemble_get _ _ (by omega), if_neg (by omega), Option.some.injEq] at e0
  obtain ⟨f, hf⟩ := exists_coefs v0.1.commitments
  obtain ⟨L, hL, hLp⟩ : ∃ L : List Sc, L.length = n + 1 + v0.1.commitments.length ∧
      toPoly L = toPoly f + g := by
    refine exists_toPoly (lt_of_le_of_lt (Polynomial.degree_add_le _ _) (max_lt ?_ ?_))
    · refine lt_of_lt_of_le (degree_toPoly_lt f) ?_
      rw [hf, List.length_map]
      exact_mod_cast (by omega)
    · refine lt_of_lt_of_le hgd ?_
      exact_mod_cast (by omega)
  have hev : ∀ x, feldmanEval (L.map (fun c => c • (G : Pt))) x =
      feldmanEval v0.1.commitments x + g.eval x • G := by
    intro x
    rw [hf, feldmanEval_map, feldmanEval_map, ← add_smul, ← eval_toPoly, ← eval_toPoly, hLp,
      Polynomial.eval_add]
  refine ⟨⟨t, n, L.map (fun c => c • G)⟩, ?_⟩
  generalize hb3 : Function.update (b3 (k + 1)) 1
    ((⟨t, n, L.map (fun c => c • G)⟩ : Vss), (b3 (k + 1) 1).2) = c3
  obtain ⟨m, rfl⟩ : ∃ m, n = m + 1 := ⟨n - 1, by omega⟩
  obtain ⟨tl, hA, hB⟩ : ∃ tl, Keygen.dealt (rnd (k + 1)) k t (m + 1) (b3 (k + 1)) = v0 :: tl ∧
      Keygen.dealt (rnd (k + 1)) k t (m + 1) c3 = (⟨t, m + 1, L.map (fun c => c • G)⟩, v0.2) :: tl := by
    refine ⟨(List.range m).map (fun i => if i + 1 = k then Keygen.ownDeal (rnd (k + 1)) t (m + 1) k else
      b3 (k + 1) (i + 2)), ?_, ?_⟩
    · rw [Keygen.dealt, Keygen.assemble, List.range_succ_eq_map, List.map_cons, if_neg (by omega), e0,
        List.map_map]
      rfl
    · rw [Keygen.dealt, Keygen.assemble, List.range_succ_eq_map, List.map_cons, if_neg (by omega),
        List.map_map, ← hb3]
      congr 1
      rw [← e0]; simp
  have hshares := hs.shares
  have hproofs := hs.proofs
  have hcases := Keygen.keygenLine_cases (rnd := rnd (k + 1)) ht hvn (b1 (k + 1)) (b2 (k + 1))
    (b3 (k + 1)) (b4 (k + 1))
  have hcases' := Keygen.keygenLine_cases (rnd := rnd (k + 1)) ht hvn (b1 (k + 1)) (b2 (k + 1)) c3
    (b4 (k + 1))
  have hpf : Keygen.ownPf (rnd (k + 1)) k t (m + 1) c3 =
      Keygen.ownPf (rnd (k + 1)) k t (m + 1) (b3 (k + 1)) := by
    rw [Keygen.ownPf, Keygen.ownPf, hA, hB, List.map_cons, List.map_cons]
  have hys := hs.ys_eq
  have hpfs : pfs = Keygen.assemble (m + 1) k (Keygen.ownPf (rnd (k + 1)) k t (m + 1) (b3 (k + 1)))
      (b4 (k + 1)) := hs.pfs_eq
  simp only [← hys, hpf, ← hpfs] at hcases hcases'
  rw [hA] at hshares hproofs hcases hle
  rw [hB] at hcases'
  simp only [List.map_cons] at hshares hproofs hcases hcases'
  obtain ⟨hVB, sent_eq⟩ : (∀ j < m + 1, ValidBroadcastAt
      (Keygen.assemble (m + 1) k (Keygen.ownBc (rnd (k + 1)) k).1 (b1 (k + 1)))
      (Keygen.assemble (m + 1) k (Keygen.ownBc (rnd (k + 1)) k).2 (b2 (k + 1))) j) ∧
      (keygenLine (rnd (k + 1)) (k + 1) t (m + 1) (b1 (k + 1)) (b2 (k + 1)) (b3 (k + 1))
        (b4 (k + 1))).1 = Keygen.sent12 (rnd (k + 1)) k ++ Keygen.sent3 (rnd (k + 1)) k t (m + 1) ++
        [⟨k + 1, none, .Round4 (Keygen.ownPf (rnd (k + 1)) k t (m + 1) (b3 (k + 1)))⟩] := by
    rcases hcases with ⟨_, -, -, hl | hl⟩ | ⟨-, _, -, -, hl | ⟨-, hl⟩⟩ |
      ⟨hVB, -, ⟨_, -, -, -, -, hl⟩ | ⟨-, _, -, hl⟩⟩
    · rw [hl] at hc; cases hc
    · rw [hl] at hc; cases hc
    · rw [hl] at hc; cases hc
    · rw [hl] at hc; cases hc
    · rw [hl] at hc; cases hc
    · exact ⟨hVB, by rw [hl]⟩
  rw [sent_eq]
  have hVS : ∀ i < m + 1, ValidShareAt ys (v0.2 :: tl.map Prod.snd)
      ((⟨t, m + 1, L.map (fun c => c • G)⟩ : Vss) :: tl.map Prod.fst) (k + 1) i := by
    intro i hi
    obtain ⟨y, s, w, e1, e2, e3, e4, e5⟩ := hshares i hi
    cases i with
    | succ i => exact ⟨y, s, w, e1, e2, e3, e4, e5⟩
    | zero =>
      simp only [List.getElem?_cons_zero, Option.some.injEq] at e2 e3
      subst e2 e3
      refine ⟨y, v0.2, _, e1, rfl, rfl, ?_, ?_⟩
      · dsimp only
        rw [hev, hg0 (k + 1) hvn (fun e => hne e.symm), zero_smul, add_zero, e4]
      · dsimp only
        have h0 := hev 0
        have hz := hg0 0 (by omega) (by omega)
        rw [Nat.cast_zero] at hz
        rw [hz, zero_smul, add_zero, hf, feldmanEval_map, feldmanEval_map] at h0
        cases L with
        | nil => rw [List.length_nil] at hL; omega
        | cons a L' =>
          cases f with
          | nil => rw [hf] at e5; cases e5
          | cons b f' =>
            rw [evalPoly_zero_cons, evalPoly_zero_cons] at h0
            rw [hf] at e5
            simp only [List.map_cons, List.head?_cons] at e5 ⊢
            rw [h0, e5]
  have hVK : ∀ i < m + 1, ValidKeyProofAt pfs
      ((⟨t, m + 1, L.map (fun c => c • G)⟩ : Vss) :: tl.map Prod.fst) i ↔ i ≠ l := by
    intro i hi
    obtain ⟨pf, e1, e2, e3⟩ := hproofs i hi
    simp only [List.map_cons, List.sum_cons] at e3
    constructor
    · rintro ⟨pf', e1', -, e3'⟩ rfl
      rw [e1, Option.some.injEq] at e1'
      subst e1'
      simp only [List.map_cons, List.sum_cons, hev] at e3'
      rw [e3, add_assoc, add_right_inj, right_eq_add] at e3'
      exact hgl (smul_G_inj.1 (e3'.trans (zero_smul _ _).symm))
    · intro hil
      refine ⟨pf, e1, e2, ?_⟩
      simp only [List.map_cons, List.sum_cons, hev]
      rw [hg0 (i + 1) (by omega) (by omega), zero_smul, add_zero, e3]
  have hgc : get_commitments_to_xi ((⟨t, m + 1, L.map (fun c => c • G)⟩ : Vss) :: tl.map Prod.fst) ≠
      none := by
    rw [ne_eq, get_commitments_to_xi_eq_none]
    push Not
    refine ⟨?_, fun w hw => ?_⟩
    · intro e
      have := congrArg List.length e
      simp [hL] at this
    · obtain ⟨a, ha, rfl⟩ := List.mem_map.1 hw
      have := hle a (List.mem_cons_of_mem _ ha)
      dsimp only
      rw [List.length_map]
      omega
  rcases hcases' with ⟨i, hi, hbad, -⟩ | ⟨-, i, hi, hbad, -⟩ | ⟨-, -, ⟨i, hi, hbad, -, -, hl⟩ | ⟨hall, -⟩⟩
  · exact absurd (hVB i hi) hbad
  · exact absurd (hVS i hi) hbad
  · rw [hVK i hi, not_not] at hbad
    rw [hl, hbad, Nat.add_sub_cancel]
  · rcases hall with hall | hall
    · exact absurd rfl ((hVK l (by omega)).1 (hall l (by omega)))
    · exact absurd hall hgc

end

section
variable [Crypto]

/-- C112: key generation by any number of parties that all run the program meets the hypotheses of the
violation; here party 2 accuses party 3. -/
example {t n : ℕ} (ht : t < n) (hn : n < q) (h3 : 3 ≤ n) {rnd : ℕ → KeygenRandomness}
    (hon : ∀ k < n, Keygen.HonestRandomness t (rnd k)) :
    ∃ b1 b2 b3 b4 key, HonestKeygens t n (Finset.Icc 1 n) (fun i => rnd (i - 1)) b1 b2 b3 b4 key ∧
      ∃ V : Vss, (keygenLine (rnd 1) 2 t n (b1 2) (b2 2) (Function.update (b3 2) 1 (V, (b3 2 1).2))
        (b4 2)).2 = .err (.Round4VerifyDLogProof ⟨"bad dlog proof", [2]⟩) := by
  have h := Keygen.all_honest ht hon
  refine ⟨_, _, _, _, _, h, ?_⟩
  obtain ⟨V, hV⟩ := C112_anyone_can_be_framed ht hn h (v := 2) (j := 3) (by omega) (by omega) (by omega)
    h3 (by omega)
  exact ⟨V, by rw [show rnd 1 = rnd (2 - 1) from rfl, hV]⟩

/-- C112 (positive part): party 1 sends party 2 a wrong share (all else as in the program); party 2 accuses
party 1, and nobody else. -/
example {t n : ℕ} (ht : t < n) (h2 : 2 ≤ n) {rnd : ℕ → KeygenRandomness}
    (hon : ∀ k < n, Keygen.HonestRandomness t (rnd k)) :
    ∃ (b1 : ℕ → ℕ → KeyGenBroadcastMessage1) (b2 : ℕ → ℕ → KeyGenDecommitMessage1)
      (b3 : ℕ → ℕ → Vss × Sc) (b4 : ℕ → ℕ → DLogProof) (e : Keygen.ProceedError),
      (keygenLine (rnd 1) 2 t n (b1 2) (b2 2) (b3 2) (b4 2)).2 = .err e ∧ accused e = [1] ∧
      ∀ p, 1 ≤ p → p ≤ n → p ≠ 2 → p ≠ 1 → GenuineUpTo (accusedAfter e)
        (keygenLine (rnd (p - 1)) p t n (b1 p) (b2 p) (b3 p) (b4 p)).1 2 p (b1 2 p) (b2 2 p) (b3 2 p)
          (b4 2 p) := by
  have h := Keygen.all_honest ht hon
  let c3 : ℕ → ℕ → Vss × Sc := fun i p =>
    if i = 2 ∧ p = 1 then (Keygen.rVss t n rnd 0, Keygen.rShare rnd 0 1 + 1)
    else (Keygen.rVss t n rnd (p - 1), Keygen.rShare rnd (p - 1) (i - 1))
  have hother : ∀ p, p ≠ 2 → c3 p = fun q => (Keygen.rVss t n rnd (q - 1), Keygen.rShare rnd (q - 1) (p - 1)) :=
    fun p hp => funext fun q => if_neg (by omega)
  refine ⟨fun _ p => Keygen.rBc rnd (p - 1), fun _ p => Keygen.rDec rnd (p - 1), c3,
    fun _ p => Keygen.rPf n rnd (p - 1), .Round3VerifyVssConstruct ⟨"invalid vss", [0]⟩, ?_, rfl,
    fun p h1 hpn hp2 hp1 => ?_⟩
  · have hd : ∀ j < n, (Keygen.dealt (rnd 1) 1 t n (c3 2))[j]? =
        some (Keygen.rVss t n rnd j, Keygen.rShare rnd j 1 + if j = 0 then 1 else 0) := by
      intro j hj
      rw [Keygen.dealt, Keygen.assemble_get _ _ hj]
      by_cases e1 : j = 1
      · subst e1; simp [Keygen.ownDeal, Keygen.rVss, Keygen.rShare]
      · rw [if_neg e1]
        by_cases e0 : j = 0
        · subst e0; simp [c3]
        · simp [c3, e0]
    rcases Keygen.keygenLine_cases (rnd := rnd 1) ht (show 1 < n from h2)
      (fun p => Keygen.rBc rnd (p - 1)) (fun p => Keygen.rDec rnd (p - 1)) (c3 2)
      (fun p => Keygen.rPf n rnd (p - 1)) with
      ⟨j, hj, hbad, -⟩ | ⟨-, j, hj, hbad, hl | ⟨hnil, -⟩⟩ | ⟨-, hVS, -⟩
    · refine absurd ⟨_, _, Keygen.assemble_get _ _ hj, Keygen.assemble_get _ _ hj, ?_⟩ hbad
      have := Keygen.honest_validBroadcast (rnd := rnd) (hon j hj)
      by_cases e1 : j = 1
      · subst e1; exact this
      · rw [if_neg e1, if_neg e1]; exact this
    · obtain rfl : j = 0 := by
        by_contra hj0
        refine hbad ⟨_, _, _, Keygen.assemble_get _ _ hj, by rw [List.getElem?_map, hd j hj]; rfl,
          by rw [List.getElem?_map, hd j hj]; rfl, ?_, ?_⟩
        · simp only [Keygen.rVss, feldmanEval_map, if_neg hj0, add_zero, Keygen.rShare]
        · by_cases e1 : j = 1
          · subst e1; simp [Keygen.rVss]
          · rw [if_neg e1]; rfl
      show (keygenLine _ _ _ _ _ _ _ _).2 = _
      rw [hl]
    · rw [List.getElem?_map, hd j hj] at hnil
      simp [Keygen.rVss] at hnil
    · obtain ⟨y, s, v, -, e2, e3, e4, -⟩ := hVS 0 (by omega)
      rw [List.getElem?_map, hd 0 (by omega)] at e2 e3
      simp only [Option.map_some, Option.some.injEq, if_true] at e2 e3
      subst e2 e3
      simp only [Keygen.rVss, feldmanEval_map, Keygen.rShare] at e4
      exact absurd (smul_G_inj.1 e4) (by simp)
  · obtain ⟨g1, g2, g3, g4⟩ := h.genuine 2 (Finset.mem_Icc.2 ⟨by omega, h2⟩) p
      (Finset.mem_Icc.2 ⟨h1, hpn⟩) hp2
    dsimp only at g1 g2 g3 g4 ⊢
    rw [hother p hp2]
    refine ⟨fun _ => g1, fun _ => g2, fun _ => ?_, fun _ => g4⟩
    have e : c3 2 p = (Keygen.rVss t n rnd (p - 1), Keygen.rShare rnd (p - 1) (2 - 1)) :=
      if_neg (by omega)
    rw [e]
    exact g3

end
end Verif.Props
