import Verif.Props.Blame
import Verif.Spec.BlameExact

/-!
# Blame is exact when everybody opens what it did: property C134
-/

namespace Verif.Props

open EC Crypto GG20 Sign Spec Res

theorem sortDedup_of_lt {l : List ℕ} (h : l.Pairwise (· < ·)) : sortDedup l = l := by
  unfold sortDedup
  rw [List.mergeSort_of_pairwise (h.imp fun h => by simpa using h.le)]
  exact List.destutter_of_isChain _ l (h.imp fun h => ne_of_lt h).isChain

theorem sortDedup_increasing (l : List ℕ) : (sortDedup l).Pairwise (· < ·) := by
  unfold sortDedup
  have h1 : (l.mergeSort.destutter (· ≠ ·)).Pairwise (· ≤ ·) :=
    ((List.pairwise_mergeSort' (· ≤ ·) l).sublist (List.destutter_sublist _ _))
  have h2 : (l.mergeSort.destutter (· ≠ ·)).IsChain (· ≠ ·) := List.isChain_destutter _ _
  rw [← List.isChain_iff_pairwise]
  rw [List.isChain_iff_getElem] at h2 ⊢
  exact fun i hi => lt_of_le_of_ne (List.pairwise_iff_getElem.1 h1 i (i + 1) _ hi (Nat.lt_succ_self i)) (h2 i hi)

example : sortDedup [2, 0, 2] = [0, 2] := by
  simp [sortDedup, List.mergeSort, List.MergeSort.Internal.splitInTwo, List.destutter, List.destutter']

theorem mem_of_mapM {ε α β : Type} {f : α → Res ε β} {l : List α} {bs : List β}
    (h : Res.mapM f l = .ok bs) {b : β} (hb : b ∈ bs) : ∃ a ∈ l, f a = .ok b := by
  obtain ⟨i, hi, rfl⟩ := List.getElem_of_mem hb
  have h1 := Res.mapM_eq_ok.1 h
  have hl := h1.length_eq
  exact ⟨_, List.getElem_mem (hl ▸ hi), (List.forall₂_iff_get.1 h1).2 i (hl ▸ hi) hi⟩

theorem mapM_total {ε α β : Type} {f : α → Res ε β} {l : List α} (h : ∀ a ∈ l, ∃ b, f a = .ok b) :
    ∃ bs, Res.mapM f l = .ok bs := by
  induction l with
  | nil => exact ⟨[], rfl⟩
  | cons a l ih =>
    obtain ⟨b, hb⟩ := h a (by simp)
    obtain ⟨bs, hbs⟩ := ih fun c hc => h c (by simp [hc])
    exact ⟨b :: bs, by simp only [Res.mapM, hb, Res.bind_ok, hbs]⟩

section

variable [Crypto]

/-- **C134** (order). Whatever was opened, the verdict of the nonce phase lists every signer at most once, in increasing
order. -/
theorem C134_nonce_order {g : GlobalStatePhase5} {e : ErrorType} (h : g.phase5_blame = .err e) :
    e.bad_actors.Pairwise (· < ·) := by
  obtain ⟨_, _, _, bad, _, _, _, rfl⟩ := phase5_blame_err h
  exact sortDedup_increasing bad

/-- **C134** (order). The same for the key phase. -/
theorem C134_key_order {g : GlobalStatePhase6} {R : Pt} {e : ErrorType} (h : g.phase6_blame R = .err e) :
    e.bad_actors.Pairwise (· < ·) := by
  obtain ⟨_, _, bad, _, _, _, rfl⟩ := phase6_blame_err h
  exact sortDedup_increasing bad

/-- When all openings reproduce the published ciphertexts, the verdict depends only on the deltas. -/
theorem blame_of_openings {g : GlobalStatePhase5} {m : ℕ} (hm : g.delta_vec.length = m)
    (hgam : ∀ i < m, g.gamma_test i = .ok true)
    (hrow : ∀ i < m, ∃ r, g.row [] i = .ok ([], r)) :
    g.phase5_blame = .err ⟨"phase6_blame", (List.range m).filter
      (fun i => g.delta_vec[i]? ≠ some (g.expected i))⟩ := by
  have h0 : failing g.gamma_test (List.range m) = .ok [] := by
    rw [failing_of (b := fun _ => true) (fun i hi => hgam i (List.mem_range.1 hi))]
    simp
  have h1 : ∀ is : List ℕ, (∀ i ∈ is, i < m) → ∃ mat, g.rows [] is = .ok ([], mat) := by
    intro is
    induction is with
    | nil => exact fun _ => ⟨[], rfl⟩
    | cons i is ih =>
      intro h
      obtain ⟨r, hr⟩ := hrow i (h i (by simp))
      obtain ⟨mat, hmat⟩ := ih fun j hj => h j (by simp [hj])
      exact ⟨r :: mat, by simp only [GlobalStatePhase5.rows, hr, Res.bind_ok, hmat]⟩
  obtain ⟨mat, hrows⟩ := h1 (List.range m) fun i hi => List.mem_range.1 hi
  rw [← hm] at hrows
  have hmat := rows_matrix (rows_nil hrows).2
  rw [hm] at hrows
  rw [hm] at hmat
  have hcell : ∀ i < m, ∀ j < m - 1, ∃ c, (getCell mat (otherInd i j) (backInd i j) :
      Res ErrorType (Sc × Sc)) = .ok c := by
    intro i hi j hj
    have hlt := otherInd_lt (k := i) hj
    have hb : backInd i j < (others m (otherInd i j)).length := by
      have : (others m (otherInd i j)).length = m - 1 := by
        unfold others; rw [← range_map_otherInd hlt]; simp
      rw [this, backInd_eq]
      exact peerPos_lt hi hlt otherInd_ne.symm
    have hr : mat[otherInd i j]? = some ((others m (otherInd i j)).map (fun a =>
        (g.K (otherInd i j) * g.Gam a + g.Tag a (otherInd i j), 0 - g.Tag a (otherInd i j)))) := by
      rw [hmat, List.getElem?_map, List.getElem?_range hlt]; rfl
    exact ⟨_, getCell_eq_ok.2 ⟨_, hr, List.getElem?_eq_getElem (by simpa using hb)⟩⟩
  have ht : ∀ i ∈ List.range m, g.delta_test mat i =
      .ok (decide (g.delta_vec[i]? = some (g.expected i))) := by
    intro i hi
    have hi' : i < m := List.mem_range.1 hi
    have hk : ∃ k gam, g.k_vec[i]? = some k ∧ g.gamma_vec[i]? = some gam := by
      have h1 := hgam i hi'
      unfold GlobalStatePhase5.gamma_test at h1
      simp only [Res.bind_eq_ok, Res.get_eq_ok] at h1
      obtain ⟨_, -, gam, h1, -⟩ := h1
      obtain ⟨r, h2⟩ := hrow i hi'
      unfold GlobalStatePhase5.row at h2
      simp only [Res.bind_eq_ok, Res.get_eq_ok] at h2
      obtain ⟨k, h2, -⟩ := h2
      exact ⟨k, gam, h2, h1⟩
    obtain ⟨k, gam, hk, hgm⟩ := hk
    have hr : mat[i]? = some ((others m i).map
        (fun a => (g.K i * g.Gam a + g.Tag a i, 0 - g.Tag a i))) := by
      rw [hmat, List.getElem?_map, List.getElem?_range hi']; rfl
    have hd : ∃ b, g.delta_test mat i = .ok b := by
      unfold GlobalStatePhase5.delta_test
      have : ∃ bs, Res.mapM (fun j => do
          let c ← getCell mat (otherInd i j) (backInd i j)
          (.ok c.2 : Res ErrorType Sc)) (List.range (g.delta_vec.length - 1)) = .ok bs := by
        refine mapM_total fun j hj => ?_
        obtain ⟨c, hc⟩ := hcell i hi' j (by rw [← hm]; exact List.mem_range.1 hj)
        exact ⟨c.2, by rw [hc]; rfl⟩
      obtain ⟨bs, hbs⟩ := this
      rw [Res.get_eq_ok.2 hk, Res.bind_ok, Res.get_eq_ok.2 hgm, Res.bind_ok, Res.get_eq_ok.2 hr, Res.bind_ok]
      simp only [hbs, Res.bind_ok, Res.get_of_lt (hm ▸ hi' : i < g.delta_vec.length)]
      exact ⟨_, rfl⟩
    obtain ⟨b, hb⟩ := hd
    obtain ⟨d, hd, hiff⟩ := delta_test_ok (hm ▸ hi') (by rw [hm]; exact hmat) hb
    rw [hb, hd]
    congr 1
    rw [Bool.eq_iff_iff, hiff]
    simp
  unfold GlobalStatePhase5.phase5_blame
  simp only [hm, h0, Res.bind_ok, hrows]
  unfold GlobalStatePhase5.delta_bad
  rw [if_pos rfl, hm, failing_of ht, Res.bind_ok]
  have hs : (List.range m).filter (fun i => !decide (g.delta_vec[i]? = some (g.expected i))) =
      (List.range m).filter (fun i => g.delta_vec[i]? ≠ some (g.expected i)) :=
    List.filter_congr fun i _ => by simp
  rw [hs, sortDedup_of_lt (List.Pairwise.filter _ List.pairwise_lt_range)]

/-- The collected state of signers that open the truth passes all tests on openings. -/
theorem true_openings {ε : Type} {eks : List ℕ} {right deltas : List Sc} {gGammas : List Pt}
    {mas : List MessageA} {mbs : List (List MessageB)} {ls : List LocalStatePhase5}
    (T : TrueNonce eks right gGammas mas mbs ls) (hlen : deltas.length = ls.length) :
    ∃ g, (GlobalStatePhase5.local_state_to_global_state eks deltas gGammas mas mbs ls :
        Res ε GlobalStatePhase5) = .ok g ∧ (∀ i < ls.length, g.gamma_test i = .ok true) ∧
      ∀ i < ls.length, ∃ r, g.row [] i = .ok ([], r) := by
  have hrand : ∀ l ∈ ls, ls.length - 1 ≤ l.beta_randomness.length := by
    intro l hl
    obtain ⟨h, hh, rfl⟩ := List.getElem_of_mem hl
    obtain ⟨dk, hon⟩ := T.each h _ (List.getElem?_eq_getElem hh)
    by_contra hlt
    push Not at hlt
    obtain ⟨N, ma, row, mb, bt, br, sts, t1, t2, beta, a1, a2, a3, a4, a5, a6, a7⟩ :=
      hon.answers _ (otherInd_lt (k := h) hlt) otherInd_ne
    rw [peerPos_otherInd] at a6
    exact absurd (List.getElem?_eq_some_iff.1 a6).1 (lt_irrefl _)
  obtain ⟨matR, hR⟩ := transposed_defined (ε := ε) hrand
  obtain ⟨matT, hT⟩ := transposed_defined (ε := ε) (field := LocalStatePhase5.beta_tag) (ls := ls) fun l hl => by
    obtain ⟨h, hh, rfl⟩ := List.getElem_of_mem hl
    obtain ⟨dk, hon⟩ := T.each h _ (List.getElem?_eq_getElem hh)
    exact hon.tags.ge
  refine ⟨_, by unfold GlobalStatePhase5.local_state_to_global_state; rw [hR, Res.bind_ok, hT, Res.bind_ok],
    ?_, ?_⟩
  · intro i hi
    obtain ⟨dk, hon⟩ := T.each i _ (List.getElem?_eq_getElem hi)
    unfold GlobalStatePhase5.gamma_test
    simp only [Res.get, hon.gamma, List.getElem?_map, List.getElem?_eq_getElem hi, Option.map_some,
      Res.ofOption_some, Res.bind_ok, decide_true]
  · intro i hi
    obtain ⟨dk, hon⟩ := T.each i _ (List.getElem?_eq_getElem hi)
    obtain ⟨ma, sts, rs, f1, f2⟩ := hon.first
    obtain ⟨-, -, hT⟩ := transposed_ok hT
    obtain ⟨-, -, hR⟩ := transposed_ok hR
    have hc : ∀ j < ls.length - 1, ∃ ab, GlobalStatePhase5.cell ⟨ls.map (·.k), ls.map (·.k_randomness),
        ls.map (·.gamma), matR, matT, eks, deltas, gGammas, mas, mbs⟩
        ⟨Paillier.encrypt dk.n ls[i].k.val ls[i].k_randomness, []⟩ i j = .ok (true, ab) := by
      intro j hj
      have hlt := otherInd_lt (k := i) hj
      obtain ⟨dk', hon'⟩ := T.each _ _ (List.getElem?_eq_getElem hlt)
      obtain ⟨N, ma', row, mb, bt, br, sts', t1, t2, beta, a1, a2, a3, a4, a5, a6, a7⟩ :=
        hon'.answers i hi otherInd_ne.symm
      rw [hon.ek] at a1; cases a1
      rw [f1] at a2; cases a2
      rw [peerPos_otherInd] at a4
      obtain ⟨l, v, row', d1, d2, d3, d4⟩ := hT _ hlt i hi otherInd_ne
      obtain ⟨l2, v2, row2, e1, e2, e3, e4⟩ := hR _ hlt i hi otherInd_ne
      rw [List.getElem?_eq_getElem hlt] at d1 e1; cases d1; cases e1
      rw [a5] at d2; cases d2
      rw [a6] at e2; cases e2
      rw [peerPos_otherInd] at d4 e4
      unfold GlobalStatePhase5.cell
      simp only [Res.get, getCell, List.getElem?_map, List.getElem?_eq_getElem hlt,
        List.getElem?_eq_getElem hi, Option.map_some, hon.ek, d3, d4, e3, e4, a3, a4, Res.ofOption_some,
        Res.bind_ok, messageB_nil, Res.unwrap]
      rw [(messageB_c a7).1, messageA_c f2, decide_eq_true rfl]
      exact ⟨_, rfl⟩
    unfold GlobalStatePhase5.row
    simp only [Res.get, List.getElem?_map, List.getElem?_eq_getElem hi, Option.map_some, hon.ek, f1,
      Res.ofOption_some, Res.bind_ok, messageA_eq, messageA_c f2, ne_eq, not_true_eq_false, if_false, if_true]
    have hmap : ∃ cells, Res.mapM (fun j => do
        let c ← GlobalStatePhase5.cell ⟨ls.map (·.k), ls.map (·.k_randomness),
          ls.map (·.gamma), matR, matT, eks, deltas, gGammas, mas, mbs⟩
          ⟨Paillier.encrypt dk.n ls[i].k.val ls[i].k_randomness, []⟩ i j
        .ok (j, c)) (List.range (deltas.length - 1)) = .ok cells := by
      refine mapM_total fun j hj => ?_
      obtain ⟨ab, h⟩ := hc j (by rw [← hlen]; exact List.mem_range.1 hj)
      exact ⟨(j, true, ab), by rw [h]; rfl⟩
    obtain ⟨cells, hcells⟩ := hmap
    rw [hcells, Res.bind_ok]
    refine ⟨_, congrArg Res.ok (Prod.ext ?_ rfl)⟩
    have : cells.filter (fun c => !c.2.1) = [] := by
      rw [List.filter_eq_nil_iff]
      intro c hcm
      obtain ⟨j, hj, he⟩ := mem_of_mapM hcells hcm
      obtain ⟨ab, h⟩ := hc j (by rw [← hlen]; exact List.mem_range.1 hj)
      rw [h] at he
      cases he
      simp
    rw [this]; rfl

/-- **C134 (nonce phase).** All signers open what they did.  Whatever each of them had published as its
delta, `phase5_blame` reaches a verdict, and the verdict lists, in increasing order and each once, exactly
the signers whose published delta is not the right one. -/
theorem C134_nonce_exact {ε : Type} {eks : List ℕ} {right deltas : List Sc} {gGammas : List Pt}
    {mas : List MessageA} {mbs : List (List MessageB)} {ls : List LocalStatePhase5}
    (T : TrueNonce eks right gGammas mas mbs ls) (hlen : deltas.length = ls.length) :
    ∃ g, (GlobalStatePhase5.local_state_to_global_state eks deltas gGammas mas mbs ls :
        Res ε GlobalStatePhase5) = .ok g ∧
      g.phase5_blame = .err ⟨"phase6_blame",
        (List.range ls.length).filter (fun i => deltas[i]? ≠ right[i]?)⟩ := by
  obtain ⟨g, hg, h1, h2⟩ := true_openings (ε := ε) T hlen
  obtain ⟨g', hg', h1', h2'⟩ := true_openings (ε := ε) T T.count
  have hd : g.delta_vec = deltas := by
    obtain ⟨matR, -, hg⟩ := Res.bind_eq_ok.1 hg
    obtain ⟨matT, -, hg⟩ := Res.bind_eq_ok.1 hg
    cases hg; rfl
  have hd' : g'.delta_vec = right := by
    obtain ⟨matR, -, hg'⟩ := Res.bind_eq_ok.1 hg'
    obtain ⟨matT, -, hg'⟩ := Res.bind_eq_ok.1 hg'
    cases hg'; rfl
  have hexp : ∀ i, g'.expected i = g.expected i := by
    intro i
    obtain ⟨matR, a1, hg⟩ := Res.bind_eq_ok.1 hg
    obtain ⟨matT, a2, hg⟩ := Res.bind_eq_ok.1 hg
    obtain ⟨matR', b1, hg'⟩ := Res.bind_eq_ok.1 hg'
    obtain ⟨matT', b2, hg'⟩ := Res.bind_eq_ok.1 hg'
    rw [a1] at b1; cases b1
    rw [a2] at b2; cases b2
    cases hg; cases hg'
    unfold GlobalStatePhase5.expected
    simp only [hlen, T.count]
    rfl
  have e := blame_of_openings (hd ▸ hlen) h1 h2
  have e' := blame_of_openings (hd' ▸ T.count) h1' h2'
  have hright : ∀ i < ls.length, right[i]? = some (g.expected i) := by
    intro h hh
    obtain ⟨dk, hon⟩ := T.each h _ (List.getElem?_eq_getElem hh)
    have := C47_honest_not_blamed_partial hg' T.count (List.getElem?_eq_getElem hh) hon (by
      intro j hj hne Lj bt row mb j1 j2 j3 j4
      obtain ⟨dk', hon'⟩ := T.each j _ j1
      obtain ⟨N, ma, row', mb', bt', br, sts, t1, t2, beta, a1, a2, a3, a4, a5, a6, a7⟩ :=
        hon'.answers h hh (Ne.symm hne)
      rw [j3] at a3; cases a3
      rw [j4] at a4; cases a4
      rw [j2] at a5; cases a5
      exact (messageB_c a7).2.2.symm) e'
    rw [hd'] at this
    simpa [hh, hexp] using this
  refine ⟨g, hg, ?_⟩
  rw [e, hd]
  congr 2
  refine List.filter_congr fun i hi => ?_
  rw [hright i (List.mem_range.1 hi)]

/-- **C134 (the nonce check).** In this situation the nonce check passes exactly when the published deltas
have the right sum: so a signer that publishes a wrong delta escapes only if the wrong deltas cancel, and
then they do no harm. -/
theorem C134_nonce_check {eks : List ℕ} {right deltas : List Sc} {gGammas : List Pt}
    {mas : List MessageA} {mbs : List (List MessageB)} {ls : List LocalStatePhase5} {deltaInv : Sc}
    (T : TrueNonce eks right gGammas mas mbs ls) (hlen : gGammas.length = ls.length)
    (hd : (phase3_reconstruct_delta deltas : Res Error Sc) = .ok deltaInv) :
    phase5_check_R_dash_sum (ls.map (fun l => l.k • (deltaInv • gGammas.sum))) = .ok () ↔
      deltas.sum = right.sum := by
  obtain ⟨g, hg, he⟩ := C134_nonce_exact (ε := Error) T T.count
  obtain ⟨matR, -, hg⟩ := Res.bind_eq_ok.1 hg
  obtain ⟨matT, -, hg⟩ := Res.bind_eq_ok.1 hg
  cases hg
  have hall := phase5_blame_nil (by simpa using he)
  have hsum := expected_sum (g := ⟨ls.map (·.k), ls.map (·.k_randomness), ls.map (·.gamma), matR, matT, eks,
    right, gGammas, mas, mbs⟩)
  rw [← list_sum_range rfl fun i hi => (hall i hi).2.2.2] at hsum
  have hks : ∑ i ∈ Finset.range right.length, GlobalStatePhase5.K
      ⟨ls.map (·.k), ls.map (·.k_randomness), ls.map (·.gamma), matR, matT, eks, right, gGammas, mas, mbs⟩ i
      = (ls.map (·.k)).sum := by
    refine (list_sum_range (by simp [T.count]) fun i hi => ?_).symm
    rw [T.count] at hi
    rw [List.getElem?_eq_getElem (by simpa using hi)]
    congr 1
    exact (get_getD (List.getElem?_eq_getElem (by simpa using hi))).symm
  have hgs := list_sum_range (l := gGammas) (hlen.trans T.count.symm) fun i hi => (hall i hi).1
  simp only at hsum hgs
  rw [← Finset.sum_smul] at hgs
  rw [hks] at hsum
  have hd' : deltas.sum ≠ 0 ∧ deltaInv = (deltas.sum)⁻¹ := by
    unfold phase3_reconstruct_delta scInvert at hd
    rw [foldl_add_zero] at hd
    by_cases h0 : deltas.sum = 0
    · rw [if_pos h0] at hd; cases hd
    · rw [if_neg h0] at hd; cases hd; exact ⟨h0, rfl⟩
  have hsm : ∀ (l : List LocalStatePhase5) (P : Pt),
      (l.map (fun l => l.k • P)).sum = (l.map (·.k)).sum • P := by
    intro l P
    induction l with
    | nil => simp
    | cons a l ih => simp only [List.map_cons, List.sum_cons, ih, add_smul]
  rw [checkR_ok, hsm, hgs, ← mul_smul, ← mul_smul, hd'.2]
  conv_lhs => rhs; rw [← one_smul Sc (G : Pt)]
  rw [smul_G_inj, hsum]
  have hne := hd'.1
  constructor
  · intro h
    have : ∀ a b c : Sc, c ≠ 0 → a * c⁻¹ * b = 1 → c = a * b := by
      intro a b c hc h
      field_simp at h
      exact h.symm
    exact this _ _ _ hne h
  · intro h
    have : ∀ a b c : Sc, c ≠ 0 → c = a * b → a * c⁻¹ * b = 1 := by
      intro a b c hc h
      field_simp
      exact h.symm
    exact this _ _ _ hne h

/-- **C134 (the corruption of the tests, for every group and every set of signers).** If the signers of the
set `bad` publish the double of their delta, and the right deltas are not 0, the verdict is exactly `bad`. -/
theorem C134_nonce_doubled {ε : Type} {eks : List ℕ} {right : List Sc} {gGammas : List Pt}
    {mas : List MessageA} {mbs : List (List MessageB)} {ls : List LocalStatePhase5} (bad : Finset ℕ)
    (T : TrueNonce eks right gGammas mas mbs ls) (h0 : ∀ d ∈ right, d ≠ 0) :
    ∃ g, (GlobalStatePhase5.local_state_to_global_state eks
        (right.mapIdx (fun i d => if i ∈ bad then d + d else d)) gGammas mas mbs ls :
        Res ε GlobalStatePhase5) = .ok g ∧
      g.phase5_blame = .err ⟨"phase6_blame", (List.range ls.length).filter (fun i => i ∈ bad)⟩ := by
  obtain ⟨g, hg, he⟩ := C134_nonce_exact (ε := ε) (deltas := right.mapIdx
    (fun i d => if i ∈ bad then d + d else d)) T (by simp [T.count])
  refine ⟨g, hg, ?_⟩
  rw [he]
  congr 2
  refine List.filter_congr fun i hi => ?_
  have hi' : i < right.length := T.count ▸ List.mem_range.1 hi
  rw [decide_eq_decide, List.getElem?_mapIdx, List.getElem?_eq_getElem hi', Option.map_some, ne_eq,
    Option.some.injEq]
  have := h0 _ (List.getElem_mem hi')
  by_cases hb : i ∈ bad
  · simp [hb, this]
  · simp [hb]

/-! ### The key phase -/

omit [Crypto] in
theorem failing_filter {ε : Type} {test : ℕ → Res ε Bool} {l bad : List ℕ} (h : failing test l = .ok bad) :
    bad = l.filter (fun i => i ∈ bad) := by
  classical
  have key : bad = l.filter (fun i => test i = .ok false) := by
    induction l generalizing bad with
    | nil => cases h; rfl
    | cons a l ih =>
      obtain ⟨b, hb, h⟩ := Res.bind_eq_ok.1 h
      obtain ⟨rest, hr, h⟩ := Res.bind_eq_ok.1 h
      have := ih hr
      cases h
      rw [List.filter_cons, hb, ← this]
      cases b <;> simp
  conv_lhs => rw [key]
  refine List.filter_congr fun i hi => ?_
  rw [decide_eq_decide, (failing_ok h).2]
  exact ⟨fun h => ⟨hi, h⟩, fun h => h.2⟩

/-- A proof made with `sigma` is checked against the point of `tau`. -/
theorem ecddh_other_secret {R : Pt} {sigma tau nonce : Sc} (hR : R ≠ 0)
    (hch : tau ≠ sigma → blameChallenge (tau • G) R sigma nonce ≠ 0) :
    (ecddh_proof sigma R (sigma • R) nonce).verify (ddhStatement R (tau • G) (sigma • R)) = false ↔
      sigma • R ≠ tau • R := by
  have hinj : ∀ a b : Sc, a • R = b • R ↔ a = b := fun a b => by
    rw [← sub_eq_zero, ← sub_smul, smul_eq_zero_iff, sub_eq_zero, or_iff_left hR]
  rw [ne_eq, hinj, ← Bool.not_eq_true, not_iff_not]
  constructor
  · intro hv
    by_contra hne
    have hc := hch (Ne.symm hne)
    unfold ECDDHProof.verify ecddh_proof ECDDHProof.prove ddhStatement at hv
    simp only [Bool.and_eq_true, decide_eq_true_eq] at hv
    unfold blameChallenge at hc
    obtain ⟨h1, h2⟩ := hv
    rw [← mul_smul, ← add_smul, smul_G_inj, add_right_inj] at h1
    rw [← mul_smul, ← add_smul, hinj, add_right_inj] at h2
    rw [h1] at h2
    exact hne (mul_left_cancel₀ hc h2).symm
  · rintro rfl
    exact ECDDHProof.verify_prove _ _ _ (by rfl) (by rfl)

/-- **C134 (key phase).** All signers open what they did up to the multiplications, and signer `i` goes on
with `sg i` in place of its `sigma_i`: it publishes `sg i R` and proves that.  Then `phase6_blame` reaches a
verdict, and the verdict lists, in increasing order and each once, exactly the signers whose published point
is not the right one – unless the hash of a proof with a wrong value happens to be 0. -/
theorem C134_key_exact {ε : Type} {eks : List ℕ} {Ss right gws : List Pt} {mas : List MessageA}
    {mbs : List (List MessageB)} {ls : List LocalStatePhase6} {R : Pt} {sg nonce : ℕ → Sc} (hR : R ≠ 0)
    (T : TrueKey eks right gws mas mbs R ls) (hu : ∀ i < ls.length, UsesSigma Ss R ls i (sg i) (nonce i))
    (hch : ∀ i < ls.length, ∀ tau, right[i]? = some (tau • R) → tau ≠ sg i →
      blameChallenge (tau • G) R (sg i) (nonce i) ≠ 0) :
    ∃ g, (GlobalStatePhase6.local_state_to_global_state eks Ss gws mas mbs ls :
        Res ε GlobalStatePhase6) = .ok g ∧
      g.phase6_blame R = .err ⟨"phase6_blame",
        (List.range ls.length).filter (fun i => Ss[i]? ≠ right[i]?)⟩ := by
  have hlenM : ∀ l ∈ ls, l.miu.length = ls.length - 1 ∧ l.miu_randomness.length = ls.length - 1 := by
    intro l hl
    obtain ⟨h, hh, rfl⟩ := List.getElem_of_mem hl
    obtain ⟨dk, w, bts, pf, hon, -⟩ := T.each h _ (List.getElem?_eq_getElem hh)
    obtain ⟨row, b1, b2, b3, b4⟩ := hon.opens
    exact ⟨by rw [← b2]; exact b3.length_eq.symm, by rw [← b2]; exact b4.length_eq.symm⟩
  have hRd := untransposed_defined (ε := ε) (field := LocalStatePhase6.miu_randomness) (ls := ls)
    fun l hl => (hlenM l hl).2.ge
  have hMd := untransposed_defined (ε := ε) (field := LocalStatePhase6.miu) (ls := ls)
    fun l hl => (hlenM l hl).1.ge
  have htk : ∀ field : LocalStatePhase6 → List ℤ, (∀ l ∈ ls, (field l).length = ls.length - 1) →
      ls.map (fun l => (field l).take (ls.length - 1)) = ls.map field := by
    intro field hf
    refine List.map_congr_left fun l hl => ?_
    rw [← hf l hl, List.take_length]
  rw [htk _ fun l hl => (hlenM l hl).2] at hRd
  rw [htk _ fun l hl => (hlenM l hl).1] at hMd
  refine ⟨_, by unfold GlobalStatePhase6.local_state_to_global_state; rw [hRd, Res.bind_ok, hMd, Res.bind_ok],
    ?_⟩
  set g : GlobalStatePhase6 := ⟨ls.map (·.k), ls.map (·.k_randomness), ls.map (·.miu),
    ls.map (·.miu_randomness), gws, eks, ls.map (·.proof_of_eq_dlog), Ss, mas, mbs⟩ with hg
  -- the openings reproduce the ciphertexts
  have hmiu : ∀ i < ls.length, ∀ j < ls.length - 1, g.miu_test i j = .ok true := by
    intro i hi j hj
    obtain ⟨dk, w, bts, pf, hon, hcanon⟩ := T.each i _ (List.getElem?_eq_getElem hi)
    obtain ⟨row, b1, b2, b3, b4⟩ := hon.opens
    simp only at b3 b4
    have hj0 : j < row.length := b2 ▸ hj
    have hj1 : j < ls[i].miu.length := (hlenM _ (List.getElem_mem hi)).1 ▸ hj
    have hj2 : j < ls[i].miu_randomness.length := (hlenM _ (List.getElem_mem hi)).2 ▸ hj
    obtain ⟨mb, c4⟩ : ∃ mb, row[j] = mb := ⟨_, rfl⟩
    obtain ⟨c0, c1', cg⟩ := hcanon row b1 mb (c4 ▸ List.getElem_mem hj0)
    obtain ⟨alpha, ha⟩ := (List.forall₂_iff_get.1 b3).2 j hj0 hj1
    have hr := (List.forall₂_iff_get.1 b4).2 j hj0 hj2
    simp only [List.get_eq_getElem, c4] at ha hr
    obtain ⟨⟨x, r0⟩, o1, o2⟩ := Res.bind_eq_ok.1 hr
    obtain ⟨d1, d2⟩ := Paillier.encrypt_open hon.valid cg c0 c1' (Res.ofOption_eq_ok.1 o1)
    unfold MessageB.verify_proofs_get_alpha at ha
    rw [d1] at ha
    simp only at ha
    split_ifs at ha
    simp only [Res.ok.injEq, Prod.mk.injEq] at ha
    have o2' : r0 = ls[i].miu_randomness[j] := Res.ok.inj o2
    unfold GlobalStatePhase6.miu_test
    simp only [hg, Res.get, getCell, List.getElem?_map, List.getElem?_eq_getElem hi, Option.map_some,
      hon.ek, b1, List.getElem?_eq_getElem hj0, List.getElem?_eq_getElem hj1, List.getElem?_eq_getElem hj2,
      Res.ofOption_some, Res.bind_ok, c4]
    rw [← ha.2, ← o2', d2, decide_eq_true rfl]
  have hk : ∀ i ∈ List.range ls.length, g.k_test i = .ok true := by
    intro i hi
    have hi' := List.mem_range.1 hi
    obtain ⟨dk, w, bts, pf, hon, -⟩ := T.each i _ (List.getElem?_eq_getElem hi')
    obtain ⟨ma, sts, rs, f1, f2⟩ := hon.first
    unfold GlobalStatePhase6.k_test
    simp only [hg, Res.get, List.getElem?_map, List.getElem?_eq_getElem hi', Option.map_some, hon.ek, f1,
      Res.ofOption_some, Res.bind_ok, messageA_eq, messageA_c f2, decide_true]
  have h1 : ∀ is : List ℕ, (∀ i ∈ is, i < ls.length) → g.miu_bad ls.length is = .ok [] := by
    intro is
    induction is with
    | nil => exact fun _ => rfl
    | cons i is ih =>
      intro h
      unfold GlobalStatePhase6.miu_bad
      rw [failing_of (b := fun _ => true) fun j hj => hmiu i (h i (by simp)) j (List.mem_range.1 hj),
        Res.bind_ok, ih fun j hj => h j (by simp [hj]), Res.bind_ok]
      simp
  have h2 : failing g.k_test (List.range ls.length) = .ok [] := by
    rw [failing_of (b := fun _ => true) hk]; simp
  -- the last part runs through
  have hW : ∀ i < ls.length, ∃ w : Sc, gws[i]? = some (w • G) := by
    intro i hi
    obtain ⟨dk, w, bts, pf, hon, -⟩ := T.each i _ (List.getElem?_eq_getElem hi)
    exact ⟨w, hon.share⟩
  have hni : ∀ i < ls.length, ∀ j < ls.length - 1, ∃ P, g.g_ni i j = .ok P := by
    intro i hi j hj
    obtain ⟨w, hw⟩ := hW _ (otherInd_lt (k := i) hj)
    have hj1 : j < ls[i].miu.length := (hlenM _ (List.getElem_mem hi)).1 ▸ hj
    unfold GlobalStatePhase6.g_ni
    simp only [hg, Res.get, getCell, List.getElem?_map, List.getElem?_eq_getElem hi, Option.map_some, hw,
      List.getElem?_eq_getElem hj1, Res.ofOption_some, Res.bind_ok]
    exact ⟨_, rfl⟩
  obtain ⟨mat, hmat⟩ := mapM_total (f := fun i => Res.mapM (g.g_ni i) (List.range (ls.length - 1)))
    (l := List.range ls.length) fun i hi => mapM_total fun j hj =>
      hni i (List.mem_range.1 hi) j (List.mem_range.1 hj)
  obtain ⟨lm, hmat'⟩ := mapM_range_get hmat
  obtain ⟨gs, hgs⟩ := mapM_total (f := g.g_sigma mat ls.length) (l := List.range ls.length) (by
    intro i hi
    have hi' := List.mem_range.1 hi
    obtain ⟨w, hw⟩ := hW i hi'
    obtain ⟨nis, hnis⟩ := mapM_total (ε := ErrorType)
      (f := fun j => getCell mat (otherInd i j) (backInd i j)) (l := List.range (ls.length - 1)) (by
        intro j hj
        have hj' := List.mem_range.1 hj
        have hlt := otherInd_lt (k := i) hj'
        obtain ⟨row, r1, r2⟩ := hmat' _ hlt
        obtain ⟨P, p1, -⟩ := (mapM_range_get r2).2 _ (peerPos_lt hi' hlt otherInd_ne.symm)
        exact ⟨P, getCell_eq_ok.2 ⟨row, r1, by rw [backInd_eq]; exact p1⟩⟩)
    unfold GlobalStatePhase6.g_sigma
    simp only [hg, Res.get, List.getElem?_map, List.getElem?_eq_getElem hi', Option.map_some, hw,
      Res.ofOption_some, Res.bind_ok, hnis]
    exact ⟨_, rfl⟩)
  have htest : ∀ i ∈ List.range ls.length, ∃ b, g.ddh_test R gs i = .ok b := by
    intro i hi
    have hi' := List.mem_range.1 hi
    obtain ⟨P, p1, -⟩ := (mapM_range_get hgs).2 i hi'
    obtain ⟨u1, -⟩ := hu i hi'
    unfold GlobalStatePhase6.ddh_test
    simp only [hg, Res.get, p1, u1, List.getElem?_map, List.getElem?_eq_getElem hi', Option.map_some,
      Res.ofOption_some, Res.bind_ok]
    exact ⟨_, rfl⟩
  have hf : ∃ bad, failing (g.ddh_test R gs) (List.range ls.length) = .ok bad := by
    choose! b hb using htest
    exact ⟨_, failing_of hb⟩
  obtain ⟨bad, hbad⟩ := hf
  have h3 : g.sigma_bad R ls.length = .ok bad := by
    unfold GlobalStatePhase6.sigma_bad
    rw [hmat, Res.bind_ok, hgs, Res.bind_ok, hbad]
  have hmem : ∀ i < ls.length, (i ∈ bad ↔ Ss[i]? ≠ right[i]?) := by
    intro h hh
    obtain ⟨S, pf, s1, s2, s3⟩ := sigma_bad_ok (m := ls.length) (by
      intro i hi row hrow
      simp only [hg, List.getElem?_map, List.getElem?_eq_getElem hi, Option.map_some,
        Option.some.injEq] at hrow
      rw [← hrow]
      exact (hlenM _ (List.getElem_mem hi)).1) h3 h hh
    obtain ⟨u1, L, u2, u3⟩ := hu h hh
    rw [List.getElem?_eq_getElem hh, Option.some.injEq] at u2
    simp only [hg] at s1 s2
    rw [u1] at s1; cases s1
    rw [List.getElem?_map, List.getElem?_eq_getElem hh, Option.map_some, Option.some.injEq, u2, u3] at s2
    obtain ⟨dk, w, bts, pf', hon, -⟩ := T.each h _ (List.getElem?_eq_getElem hh)
    obtain ⟨nn, t1, -⟩ := hon.sigma
    simp only at t1
    have hexp := expected_of_honest (Ss := Ss) (matR := ls.map (·.miu_randomness)) hMd
      (List.getElem?_eq_getElem hh) hon (by
        intro i hi hne Li miu row mb i1 i2 i3 i4
        obtain ⟨dk', w', bts', pf'', hon', -⟩ := T.each i _ i1
        obtain ⟨row', b1, b2, b3, -⟩ := hon'.opens
        rw [i3] at b1; cases b1
        simp only at b3
        have hj0 := (List.getElem?_eq_some_iff.1 i4).1
        have hj1 := (List.getElem?_eq_some_iff.1 i2).1
        obtain ⟨alpha, ha⟩ := (List.forall₂_iff_get.1 b3).2 _ hj0 hj1
        rw [List.getElem?_eq_getElem hj0, Option.some.injEq] at i4
        rw [List.getElem?_eq_getElem hj1, Option.some.injEq] at i2
        simp only [List.get_eq_getElem, i4, i2] at ha
        obtain ⟨N, ma, row2, mb2, bt, br, sts, t1, t2, beta, c1, c2, c3, c4, c5, c6⟩ :=
          hon.answers i hi hne
        rw [i3] at c3; cases c3
        rw [List.getElem?_eq_getElem hj0, Option.some.injEq, i4] at c4
        subst c4
        unfold MessageB.verify_proofs_get_alpha at ha
        split at ha
        · cases ha
        · simp only at ha
          split_ifs at ha with hcond
          simp only [Res.ok.injEq, Prod.mk.injEq] at ha
          simp only [Bool.and_eq_true, decide_eq_true_eq] at hcond
          rw [← (messageB_c c6).2.1, hcond.2, ha.2])
    rw [s3, ← s2, hexp]
    refine (ecddh_other_secret hR fun hne => hch h hh _ t1 hne).trans ?_
    rw [u1, t1, ne_eq, ne_eq, Option.some.injEq]
  unfold GlobalStatePhase6.phase6_blame
  have hkl : g.k_vec.length = ls.length := by simp [hg]
  simp only [hkl, h1 _ fun i hi => List.mem_range.1 hi, h2, Res.bind_ok]
  unfold GlobalStatePhase6.sigma_or
  rw [if_pos (by rfl), h3, Res.bind_ok]
  have hb : bad = (List.range ls.length).filter (fun i => Ss[i]? ≠ right[i]?) := by
    rw [failing_filter hbad]
    refine List.filter_congr fun i hi => ?_
    rw [decide_eq_decide, hmem i (List.mem_range.1 hi)]
  rw [hb, sortDedup_of_lt (List.Pairwise.filter _ List.pairwise_lt_range)]

end

/-! ### Concrete cases

The two signers of `Verif.Props.Blame`. -/

section

attribute [local instance] Toy.crypto

theorem bTrue : TrueNonce [toyKey.n, toyKey.n] [bDelta 0, bDelta 1] bGG [bMa 0, bMa 1] bMbs [bL 0, bL 1] where
  count := rfl
  each := by
    intro h L hL
    have hh : h < 2 := (List.getElem?_eq_some_iff.1 hL).1
    obtain rfl | rfl : h = 0 ∨ h = 1 := by omega
    · cases hL; exact ⟨toyKey, bHonest _⟩
    · cases hL
      exact ⟨toyKey,
        { ek := rfl
          gamma := rfl
          first := ⟨bMa 1, [], fun _ => ⟨0, 0, 0, 0⟩, rfl, rfl⟩
          answers := by
            intro i hi hne
            obtain rfl : i = 0 := by simp at hi; omega
            exact ⟨toyKey.n, bMa 0, _, bAns 0 (bGamma 1) (bTag 1), bTag 1, 5, [], 0, 0,
              0 - ((bTag 1 : ℤ) : ZMod 31), rfl, rfl, rfl, rfl, rfl, rfl, messageB_nil _ _ _ _ _⟩
          tags := rfl
          delta := ⟨_, [bK 1 * bGamma 0 + ((bTag 0 : ℤ) : ZMod 31)], rfl, rfl,
            .cons ⟨6 * 2 + 100, by decide +kernel⟩ .nil, by
              show some (bDelta 1) = _
              decide +kernel⟩
          phase4 := by
            intro j hj hne
            obtain rfl : j = 0 := by simp at hj; omega
            exact ⟨_, bAns 1 (bGamma 0) (bTag 0), rfl, rfl, by decide +kernel⟩ }⟩

/-- Both signers publish wrong deltas: both are blamed. -/
example : ∃ g, (GlobalStatePhase5.local_state_to_global_state [toyKey.n, toyKey.n] [3, 5] bGG
    [bMa 0, bMa 1] bMbs [bL 0, bL 1] : Res Error GlobalStatePhase5) = .ok g ∧
    g.phase5_blame = .err ⟨"phase6_blame", [0, 1]⟩ := by
  obtain ⟨g, hg, he⟩ := C134_nonce_exact (ε := Error) (deltas := [(3 : ZMod 31), 5]) bTrue rfl
  refine ⟨g, hg, he.trans ?_⟩
  decide +kernel

/-- The second signer doubles its delta: it is the one that is blamed. -/
example : ∃ g : GlobalStatePhase5, g.phase5_blame = .err ⟨"phase6_blame", [1]⟩ := by
  obtain ⟨g, -, he⟩ := C134_nonce_doubled (ε := Error) {1} bTrue (by decide +kernel)
  exact ⟨g, he.trans (by decide +kernel)⟩

/-- Two wrong deltas with the right sum pass the nonce check. -/
example : phase5_check_R_dash_sum (([bL 0, bL 1] : List LocalStatePhase5).map (fun l =>
    l.k • (((bDelta 0 + bDelta 1)⁻¹ : ZMod 31) • (bGG.sum : Pt)))) = .ok () :=
  (C134_nonce_check (deltas := [bDelta 0 + 1, bDelta 1 - 1]) bTrue rfl (by decide +kernel)).2
    (by decide +kernel)

/-- What signer `i` opens in the key phase when it went on with `s`. -/
def bL6s (i : ℕ) (s : ZMod 31) : LocalStatePhase6 :=
  { bL6 i with proof_of_eq_dlog := ecddh_proof s bR (s • bR) (7 : ZMod 31) }

theorem bTrue6 (s0 s1 : ZMod 31) : TrueKey [toyKey.n, toyKey.n] [bSigma 0 • bR, bSigma 1 • bR] bGW
    [bMa 0, bMa 1] (bMbsW 0) bR [bL6s 0 s0, bL6s 1 s1] where
  each := by
    intro h L hL
    have hh : h < 2 := (List.getElem?_eq_some_iff.1 hL).1
    obtain rfl | rfl : h = 0 ∨ h = 1 := by omega
    · cases hL
      refine ⟨toyKey, bW 0, [bMask 0], (bL6 0).proof_of_eq_dlog, bHonest6 _ false, ?_⟩
      intro row hrow mb hmb
      cases hrow
      simp only [List.mem_cons, List.not_mem_nil, or_false] at hmb
      subst hmb
      decide +kernel
    · cases hL
      refine ⟨toyKey, bW 1, [bMask 1], (bL6 1).proof_of_eq_dlog,
        { ek := rfl
          valid := toyKey_valid
          share := rfl
          first := ⟨bMa 1, [], fun _ => ⟨0, 0, 0, 0⟩, rfl, rfl⟩
          answers := by
            intro i hi hne
            obtain rfl : i = 0 := by simp at hi; omega
            exact ⟨toyKey.n, bMa 0, _, _, bMask 1, 5, [], 0, 0, 0 - ((bMask 1 : ℤ) : ZMod 31),
              rfl, rfl, rfl, rfl, rfl, by decide +kernel⟩
          masks := rfl
          opens := ⟨_, rfl, rfl, .cons ⟨((bMiu 1 : ℤ) : ZMod 31), by
              show (bAns 1 (bW 0) (bMask 0)).verify_proofs_get_alpha toyKey (bK 1) = _
              decide +kernel⟩ .nil,
            .cons (by decide +kernel) .nil⟩
          sigma := ⟨7, by
            have : bK 1 * bW 1 + ((bL6 1).miu.map (fun x : ℤ => (x : ZMod 31))).sum +
              ([bMask 1].map (fun b : ℤ => 0 - (b : ZMod 31))).sum = bSigma 1 := by decide +kernel
            exact ⟨congrArg (fun x : ZMod 31 => some (x • bR)) this.symm,
              congrArg (fun x : ZMod 31 => ecddh_proof x bR (x • bR) (7 : ZMod 31)) this.symm⟩⟩ }, ?_⟩
      intro row hrow mb hmb
      cases hrow
      simp only [List.mem_cons, List.not_mem_nil, or_false] at hmb
      subst hmb
      decide +kernel

/-- The second signer goes on with the double of its `sigma`: it is the one that is blamed. -/
example : ∃ g, (GlobalStatePhase6.local_state_to_global_state [toyKey.n, toyKey.n]
    [bSigma 0 • bR, (bSigma 1 + bSigma 1) • bR] bGW [bMa 0, bMa 1] (bMbsW 0)
    [bL6s 0 (bSigma 0), bL6s 1 (bSigma 1 + bSigma 1)] : Res Error GlobalStatePhase6) = .ok g ∧
    g.phase6_blame bR = .err ⟨"phase6_blame", [1]⟩ := by
  obtain ⟨g, hg, he⟩ := C134_key_exact (ε := Error) (R := (bR : Pt))
    (Ss := [bSigma 0 • bR, (bSigma 1 + bSigma 1) • bR])
    (sg := fun i => if i = 0 then bSigma 0 else bSigma 1 + bSigma 1) (nonce := fun _ => (7 : ZMod 31))
    (by decide +kernel) (bTrue6 (bSigma 0) (bSigma 1 + bSigma 1)) (by
      intro i hi
      obtain rfl | rfl : i = 0 ∨ i = 1 := by simp at hi; omega
      · exact ⟨rfl, _, rfl, rfl⟩
      · exact ⟨rfl, _, rfl, rfl⟩) (by
      intro i hi
      obtain rfl | rfl : i = 0 ∨ i = 1 := by simp at hi; omega
      · show ∀ tau : ZMod 31, _
        decide +kernel
      · show ∀ tau : ZMod 31, _
        decide +kernel)
  exact ⟨g, hg, he.trans (by decide +kernel)⟩

end

end Verif.Props
