import Verif.Lemmas.Blame
import Verif.Lemmas.SignOnline
import Verif.Lemmas.PaillierSurj
import Verif.Base.ToyCrypto
import Verif.Props.Mta

/-!
# Blame: properties C46-C49, C66, C67

Each theorem is followed by a concrete case that meets its hypotheses.
-/

namespace Verif.Props

open EC Crypto GG20 Sign Spec Res

section

variable [Crypto]

/-! ### The online phase -/

/-- **C46.** Let `R` be the (non-zero) nonce point and `k_i R`, `sigma_i R` the points published by the
signers.  The verdict of `phase7_blame` lists, in increasing order, exactly the signers whose partial
signature is not `m k_i + r sigma_i`. -/
theorem C46_exact {g : GlobalStatePhase7} {k sigma : ℕ → Sc} (hR : g.R ≠ 0)
    (h1 : ∀ i < g.s_vec.length, g.R_dash_vec[i]? = some (k i • g.R))
    (h2 : ∀ i < g.s_vec.length, g.S_vec[i]? = some (sigma i • g.R)) :
    ∃ bad, g.phase7_blame = .err ⟨"phase7_blame", bad⟩ ∧ bad.Pairwise (· < ·) ∧
      ∀ i, i ∈ bad ↔ ∃ s, g.s_vec[i]? = some s ∧ s ≠ (g.m : Sc) * k i + g.r * sigma i := by
  have ht : ∀ i ∈ List.range g.s_vec.length, g.test i =
      .ok (decide (g.s_vec.getD i 0 = (g.m : Sc) * k i + g.r * sigma i)) := by
    intro i hi
    have hi' : i < g.s_vec.length := by simpa using hi
    unfold GlobalStatePhase7.test
    rw [Res.get_of_lt hi', Res.bind_ok]
    simp only [Res.get, h1 i hi', h2 i hi', Res.ofOption_some, Res.bind_ok, Res.ok.injEq]
    rw [get_getD (List.getElem?_eq_getElem hi'), ← mul_smul, ← mul_smul, ← add_smul]
    have hinj : ∀ a b : Sc, a • g.R = b • g.R ↔ a = b := fun a b => by
      rw [← sub_eq_zero, ← sub_smul, smul_eq_zero_iff, sub_eq_zero, or_iff_left hR]
    simp only [hinj]
  refine ⟨_, by unfold GlobalStatePhase7.phase7_blame; rw [failing_of ht]; rfl,
    List.Pairwise.filter _ List.pairwise_lt_range, fun i => ?_⟩
  simp only [List.mem_filter, List.mem_range, Bool.not_eq_true', decide_eq_false_iff_not]
  constructor
  · rintro ⟨h3, h4⟩
    exact ⟨g.s_vec[i], by simp [h3], by rwa [get_getD (List.getElem?_eq_getElem h3)] at h4⟩
  · rintro ⟨s, h3, h4⟩
    exact ⟨(List.getElem?_eq_some_iff.1 h3).1, by rwa [get_getD h3]⟩

/-- **C46.** If the published points passed the nonce check and the key check and nobody is blamed, then
every signer's combination of the partial signatures is a valid signature under `Y` – or `m G + r Y` is
zero, the case in which completion panics even if all signers are honest (C41).  So an invalid combination
leads to at least one signer being blamed. -/
theorem C46_someone_blamed {g : GlobalStatePhase7} {Y : Pt} {x y : ℕ} (hc : coords g.R = some (x, y))
    (hr : g.r = (x : Sc)) (h1 : g.R_dash_vec.length = g.s_vec.length)
    (h2 : g.S_vec.length = g.s_vec.length)
    (h5 : phase5_check_R_dash_sum g.R_dash_vec = .ok ()) (h6 : phase6_check_S_i_sum Y g.S_vec = .ok ())
    (hnone : g.phase7_blame = .err ⟨"phase7_blame", []⟩) :
    ∀ i s_i, g.s_vec[i]? = some s_i →
      (∃ sig, SignManual.complete ⟨g.r, g.R, s_i, g.m, Y⟩ (g.s_vec.eraseIdx i) = .ok sig ∧
        EcdsaEq Y g.m sig.r sig.s) ∨
      ((g.m : Sc) • G + (x : Sc) • Y = 0 ∧
        SignManual.complete ⟨g.r, g.R, s_i, g.m, Y⟩ (g.s_vec.eraseIdx i) = .panic) := by
  intro i s_i hs
  have hR : g.R ≠ 0 := by intro h; rw [(coords_eq_none _).2 h] at hc; cases hc
  rw [checkR_ok] at h5
  rw [checkS_ok] at h6
  obtain ⟨bad, hb, hb2⟩ := Res.bind_eq_err.1 hnone |>.resolve_left
    (NoErr.failing (fun i => (NoErr.get _ _).bind fun _ => (NoErr.get _ _).bind fun _ =>
      (NoErr.get _ _).bind fun _ => NoErr.ok _) _ _)
  cases hb2
  obtain ⟨ht, hbad⟩ := failing_ok hb
  have key : g.s_vec.map (fun s => s • g.R) =
      List.zipWith (fun a b => (g.m : Sc) • a + g.r • b) g.R_dash_vec g.S_vec := by
    refine List.ext_getElem (by simp [h1, h2]) fun j hj1 hj2 => ?_
    have hj : j < g.s_vec.length := by simpa using hj1
    have hj' : g.test j = .ok true := by
      refine (ht j (by simpa using hj)).resolve_right fun h => ?_
      have := (hbad j).2 ⟨by simpa using hj, h⟩
      cases this
    unfold GlobalStatePhase7.test at hj'
    rw [Res.get_of_lt hj, Res.bind_ok, Res.get_of_lt (h1 ▸ hj), Res.bind_ok, Res.get_of_lt (h2 ▸ hj),
      Res.bind_ok] at hj'
    simp only [Res.ok.injEq, decide_eq_true_eq] at hj'
    simp only [List.getElem_map, List.getElem_zipWith]
    exact hj'
  have hsum : s_i + (g.s_vec.eraseIdx i).sum = g.s_vec.sum := by
    obtain ⟨hi, rfl⟩ := List.getElem?_eq_some_iff.1 hs
    have := (List.getElem_cons_eraseIdx_perm hi).sum_eq
    rw [← this, List.sum_cons]
  have hzip : ∀ (l1 l2 : List Pt), l1.length = l2.length →
      (List.zipWith (fun a b => (g.m : Sc) • a + g.r • b) l1 l2).sum =
        (g.m : Sc) • l1.sum + g.r • l2.sum := by
    intro l1
    induction l1 with
    | nil => intro l2 h; cases l2 <;> simp_all
    | cons a l1 ih =>
      intro l2 h
      cases l2 with
      | nil => simp at h
      | cons b l2 =>
        simp only [List.zipWith_cons_cons, List.sum_cons, ih l2 (by simpa using h), smul_add]
        abel
  have hmap : ∀ l : List Sc, (l.map (fun s => s • g.R)).sum = l.sum • g.R := by
    intro l
    induction l with
    | nil => simp
    | cons a l ih => simp only [List.map_cons, List.sum_cons, ih, add_smul]
  have heq : g.s_vec.sum • g.R = (g.m : Sc) • G + (x : Sc) • Y := by
    rw [← hmap, key, hzip _ _ (h1.trans h2.symm), h5, h6, hr]
  by_cases h0 : g.s_vec.sum = 0
  · right
    rw [h0, zero_smul] at heq
    exact ⟨heq.symm, complete_zero hR (hsum.trans h0)⟩
  · left
    have he := ecdsaEq_of_eq hc h0 heq
    have := complete_eq (st := ⟨g.r, g.R, s_i, g.m, Y⟩) (peers := g.s_vec.eraseIdx i) hc
      (by rw [hsum]; exact he)
    refine ⟨_, this, ?_⟩
    simp only
    rw [hsum]
    exact ecdsaEq_normS.2 he

/-- **C46 (bounds).** The only way not to get a verdict: fewer published points than partial signatures
makes `phase7_blame` panic. -/
theorem C46_panics_iff (g : GlobalStatePhase7) : g.phase7_blame = .panic ↔
    g.R_dash_vec.length < g.s_vec.length ∨ g.S_vec.length < g.s_vec.length := by
  constructor
  · intro h
    by_contra hcon
    push Not at hcon
    have : ∀ i ∈ List.range g.s_vec.length, ∃ b, g.test i = .ok b := by
      intro i hi
      have hi' : i < g.s_vec.length := by simpa using hi
      unfold GlobalStatePhase7.test
      rw [Res.get_of_lt hi', Res.bind_ok, Res.get_of_lt (by omega), Res.bind_ok, Res.get_of_lt (by omega),
        Res.bind_ok]
      exact ⟨_, rfl⟩
    choose! b hb using this
    unfold GlobalStatePhase7.phase7_blame at h
    rw [failing_of hb, Res.bind_ok] at h
    cases h
  · intro h
    unfold GlobalStatePhase7.phase7_blame
    cases hf : failing g.test (List.range g.s_vec.length) with
    | panic => rfl
    | err e => exact absurd hf (NoErr.failing (fun i => (NoErr.get _ _).bind fun _ =>
        (NoErr.get _ _).bind fun _ => (NoErr.get _ _).bind fun _ => NoErr.ok _) _ _)
    | ok bad =>
      exfalso
      have ht := (failing_ok hf).1
      have : ∀ i < g.s_vec.length, i < g.R_dash_vec.length ∧ i < g.S_vec.length := by
        intro i hi
        have : ∃ b, g.test i = .ok b := by
          rcases ht i (by simpa using hi) with h | h <;> exact ⟨_, h⟩
        obtain ⟨b, hb⟩ := this
        unfold GlobalStatePhase7.test at hb
        simp only [Res.bind_eq_ok, Res.get_eq_ok] at hb
        obtain ⟨_, _, _, h1, _, h2, _⟩ := hb
        exact ⟨(List.getElem?_eq_some_iff.1 h1).1, (List.getElem?_eq_some_iff.1 h2).1⟩
      rcases h with h | h
      · exact absurd (this _ h).1 (lt_irrefl _)
      · exact absurd (this _ h).2 (lt_irrefl _)

/-! ### Collecting the openings -/

/-- **C49.** If every one of `m` signers opens at least `m - 1` values, collecting succeeds; there is one
row per signer, each with one place per other signer, and the value that signer `a` used for signer `b`
(which `a` keeps at the position of `b` among its peers) stands in row `b` at the position of `a`. -/
theorem C49_phase5 {ε : Type} {eks : List ℕ} {deltas : List Sc} {gGammas : List Pt} {mas : List MessageA}
    {mbs : List (List MessageB)} {ls : List LocalStatePhase5}
    (h : ∀ l ∈ ls, ls.length - 1 ≤ l.beta_tag.length ∧ ls.length - 1 ≤ l.beta_randomness.length) :
    ∃ g, (GlobalStatePhase5.local_state_to_global_state eks deltas gGammas mas mbs ls :
        Res ε GlobalStatePhase5) = .ok g ∧
      g.k_vec = ls.map (·.k) ∧ g.gamma_vec = ls.map (·.gamma) ∧
      g.k_randomness_vec = ls.map (·.k_randomness) ∧
      g.encryption_key_vec = eks ∧ g.delta_vec = deltas ∧ g.g_gamma_vec = gGammas ∧ g.m_a_vec = mas ∧
      g.m_b_mat = mbs ∧
      (∀ mat ∈ [g.beta_tag_vec, g.beta_randomness_vec], mat.length = ls.length ∧
        ∀ b < ls.length, ∃ row, mat[b]? = some row ∧ row.length = ls.length - 1) ∧
      ∀ a < ls.length, ∀ b < ls.length, a ≠ b → ∃ l rowT rowR bt br, ls[a]? = some l ∧
        l.beta_tag[peerPos a b]? = some bt ∧ l.beta_randomness[peerPos a b]? = some br ∧
        g.beta_tag_vec[b]? = some rowT ∧ rowT[peerPos b a]? = some bt ∧
        g.beta_randomness_vec[b]? = some rowR ∧ rowR[peerPos b a]? = some br := by
  obtain ⟨matR, hR⟩ := transposed_defined (ε := ε) (ls := ls) (field := (·.beta_randomness))
    fun l hl => (h l hl).2
  obtain ⟨matT, hT⟩ := transposed_defined (ε := ε) (ls := ls) (field := (·.beta_tag))
    fun l hl => (h l hl).1
  refine ⟨_, by unfold GlobalStatePhase5.local_state_to_global_state; rw [hR, Res.bind_ok, hT, Res.bind_ok],
    rfl, rfl, rfl, rfl, rfl, rfl, rfl, rfl, ?_, ?_⟩
  · intro mat hm
    simp only [List.mem_cons, List.not_mem_nil, or_false] at hm
    rcases hm with rfl | rfl
    · exact ⟨(transposed_ok hT).1, (transposed_ok hT).2.1⟩
    · exact ⟨(transposed_ok hR).1, (transposed_ok hR).2.1⟩
  · intro a ha b hb hab
    obtain ⟨l, v, row, e1, e2, e3, e4⟩ := (transposed_ok hT).2.2 a ha b hb hab
    obtain ⟨l', v', row', f1, f2, f3, f4⟩ := (transposed_ok hR).2.2 a ha b hb hab
    rw [e1] at f1; cases f1
    exact ⟨l, row, row', v, v', e1, e2, f2, e3, e4, f3, f4⟩

omit [Crypto] in
/-- **C49 (nothing lost or duplicated).** For every signer `b` the positions `0, …, m-2` of its row
correspond one-to-one to the other signers. -/
theorem C49_positions {m b : ℕ} (hb : b < m) :
    Set.BijOn (peerPos b) {a | a < m ∧ a ≠ b} {j | j < m - 1} := by
  refine ⟨fun a ha => peerPos_lt ha.1 hb ha.2, fun a ha a' ha' h => ?_, fun j hj => ?_⟩
  · have := congrArg (otherInd b) h
    rwa [otherInd_peerPos ha.2, otherInd_peerPos ha'.2] at this
  · exact ⟨otherInd b j, ⟨otherInd_lt hj, otherInd_ne⟩, peerPos_otherInd b j⟩

/-- **C49 (key phase).** Likewise for the second blame state, where the opened values stay in the row of
the signer that opens them; values beyond the first `m - 1` are ignored. -/
theorem C49_phase6 {ε : Type} {eks : List ℕ} {Ss gws : List Pt} {mas : List MessageA}
    {mbs : List (List MessageB)} {ls : List LocalStatePhase6}
    (h : ∀ l ∈ ls, ls.length - 1 ≤ l.miu.length ∧ ls.length - 1 ≤ l.miu_randomness.length) :
    (GlobalStatePhase6.local_state_to_global_state eks Ss gws mas mbs ls : Res ε GlobalStatePhase6) = .ok
      { k_vec := ls.map (·.k), k_randomness_vec := ls.map (·.k_randomness)
        miu_vec := ls.map (fun l => l.miu.take (ls.length - 1))
        miu_randomness_vec := ls.map (fun l => l.miu_randomness.take (ls.length - 1))
        g_w_vec := gws, encryption_key_vec := eks, proof_vec := ls.map (·.proof_of_eq_dlog), S_vec := Ss
        m_a_vec := mas, m_b_mat := mbs } := by
  unfold GlobalStatePhase6.local_state_to_global_state
  rw [untransposed_defined (field := LocalStatePhase6.miu_randomness) fun l hl => (h l hl).2, Res.bind_ok,
    untransposed_defined (field := LocalStatePhase6.miu) fun l hl => (h l hl).1, Res.bind_ok]

/-- **C49 (violation).** Collecting never reports an error; it panics if – and only if – some signer opens
fewer than `m - 1` values.  So a single signer that opens too few makes every other signer crash instead of
being blamed. -/
theorem C49_short_opening_panics {ε : Type} (eks : List ℕ) (deltas : List Sc) (gGammas : List Pt)
    (mas : List MessageA) (mbs : List (List MessageB)) (ls : List LocalStatePhase5) :
    (GlobalStatePhase5.local_state_to_global_state eks deltas gGammas mas mbs ls :
        Res ε GlobalStatePhase5) = .panic ↔
      ∃ l ∈ ls, l.beta_tag.length < ls.length - 1 ∨ l.beta_randomness.length < ls.length - 1 := by
  constructor
  · intro h
    by_contra hcon
    push Not at hcon
    obtain ⟨g, hg, -⟩ := C49_phase5 (ε := ε) (eks := eks) (deltas := deltas) (gGammas := gGammas)
      (mas := mas) (mbs := mbs) hcon
    rw [hg] at h
    cases h
  · rintro ⟨l, hl, h⟩
    obtain ⟨a, ha, rfl⟩ := List.getElem_of_mem hl
    have hne : ∀ field : LocalStatePhase5 → List ℤ, NoErr (transposed ls field : Res ε (List (List ℤ))) :=
      fun field => NoErr.mapM (fun _ => NoErr.mapM (fun _ => (NoErr.get _ _).bind fun _ => NoErr.get _ _) _) _
    have hok : ∀ (field : LocalStatePhase5 → List ℤ) mat,
        (transposed ls field : Res ε (List (List ℤ))) = .ok mat → ls.length - 1 ≤ (field ls[a]).length := by
      intro field mat hm
      by_contra hlt
      push Not at hlt
      have hb := otherInd_lt (k := a) hlt
      obtain ⟨l', v, row, e1, e2, -⟩ := (transposed_ok hm).2.2 a ha _ hb otherInd_ne.symm
      rw [List.getElem?_eq_getElem ha] at e1
      cases e1
      rw [peerPos_otherInd] at e2
      exact absurd (List.getElem?_eq_some_iff.1 e2).1 (lt_irrefl _)
    unfold GlobalStatePhase5.local_state_to_global_state
    cases h1 : (transposed ls (·.beta_randomness) : Res ε (List (List ℤ))) with
    | panic => rfl
    | err e => exact absurd h1 (hne _ e)
    | ok matR =>
      cases h2 : (transposed ls (·.beta_tag) : Res ε (List (List ℤ))) with
      | panic => rfl
      | err e => exact absurd h2 (hne _ e)
      | ok matT =>
        have := hok _ _ h1
        have := hok _ _ h2
        omega

/-! ### The nonce phase -/

/-- **C47 (partial).** A signer `h` that followed the protocol is not blamed, whatever the others sent and
open – provided every other signer opens a mask whose point is the one it proved knowledge of in its answer
to `h`.  That last comparison is missing in the code; without it the property is false, see
`C47_honest_signer_framed`. -/
theorem C47_honest_not_blamed_partial {ε : Type} {eks : List ℕ} {deltas : List Sc} {gGammas : List Pt}
    {mas : List MessageA} {mbs : List (List MessageB)} {ls : List LocalStatePhase5} {h : ℕ} {dk : DecKey}
    {L : LocalStatePhase5} {g : GlobalStatePhase5} {e : ErrorType}
    (hg : (GlobalStatePhase5.local_state_to_global_state eks deltas gGammas mas mbs ls :
      Res ε GlobalStatePhase5) = .ok g)
    (hlen : deltas.length = ls.length) (hL : ls[h]? = some L)
    (hon : HonestNonce ls.length h eks deltas gGammas mas mbs dk L)
    (hmask : ∀ j < ls.length, j ≠ h → ∀ Lj bt row, ∀ mb : MessageB, ls[j]? = some Lj →
      Lj.beta_tag[peerPos j h]? = some bt → mbs[h]? = some row → row[peerPos h j]? = some mb →
      (bt : Sc) • G = mb.beta_tag_proof.pk)
    (he : g.phase5_blame = .err e) : h ∉ e.bad_actors := by
  obtain ⟨matR, hR, hg⟩ := Res.bind_eq_ok.1 hg
  obtain ⟨matT, hT, hg⟩ := Res.bind_eq_ok.1 hg
  cases hg
  have hm : h < ls.length := (List.getElem?_eq_some_iff.1 hL).1
  obtain ⟨-, -, hT⟩ := transposed_ok hT
  obtain ⟨-, -, hR⟩ := transposed_ok hR
  obtain ⟨bad0, bad1, mat, bad, h0, h1, h2, rfl⟩ := phase5_blame_err he
  intro hx
  rw [mem_sortDedup] at hx
  have hk : (ls.map (·.k))[h]? = some L.k := by simp [hL]
  have hkr : (ls.map (·.k_randomness))[h]? = some L.k_randomness := by simp [hL]
  have hgam : (ls.map (·.gamma))[h]? = some L.gamma := by simp [hL]
  -- the point of `gamma`
  have F1 : h ∉ bad0 := by
    intro hb
    have := ((failing_ok h0).2 h).1 hb |>.2
    unfold GlobalStatePhase5.gamma_test at this
    simp only [Res.bind_eq_ok, Res.get_eq_ok] at this
    obtain ⟨gg, e1, gam, e2, e3⟩ := this
    rw [hon.gamma] at e1; cases e1
    rw [hgam] at e2; cases e2
    simp at e3
  have F2 : ¬ GlobalStatePhase5.KWrong
      ⟨ls.map (·.k), ls.map (·.k_randomness), ls.map (·.gamma), matR, matT, eks, deltas, gGammas, mas, mbs⟩
      h := by
    rintro ⟨k, ek, r, sent, e1, e2, e3, e4, e5⟩
    simp only at e1 e2 e3 e4
    obtain ⟨ma, sts, rs, f1, f2⟩ := hon.first
    rw [hk] at e1; cases e1
    rw [hon.ek] at e2; cases e2
    rw [hkr] at e3; cases e3
    rw [f1] at e4; cases e4
    exact e5 (messageA_c f2).symm
  rcases h2 with ⟨-, rfl⟩ | ⟨rfl, h2⟩
  · rcases rows_mem h1 hx with hb | ⟨-, hb⟩ | ⟨i, hi, hko, j, hj, rfl, a, b, hc⟩
    · exact F1 hb
    · exact F2 hb
    · -- the answer of `h = otherInd i j` to `i`
      simp only [hlen] at hj
      have hi' : i < ls.length := by simpa [hlen] using hi
      obtain ⟨N, ma, row, mb, bt, br, sts, t1, t2, beta, a1, a2, a3, a4, a5, a6, a7⟩ :=
        hon.answers i hi' otherInd_ne.symm
      obtain ⟨k, ek, r, gamma, rowR, rowT, rowM, br', bt', sent, c1, c2, c3, c4, c5, c6, c7, c8, c9, c10, c11,
        -⟩ := hc
      obtain ⟨k', ek', r', sent', k1, k2, k3, k4, k5⟩ := hko
      simp only at c1 c2 c3 c4 c5 c7 c9 k1 k2 k3 k4
      rw [c1] at k1; cases k1
      rw [c2] at k2; cases k2
      rw [c3] at k3; cases k3
      rw [a1] at c2; cases c2
      rw [a2] at k4; cases k4
      rw [hgam] at c4; cases c4
      rw [a3] at c9; cases c9
      rw [peerPos_otherInd] at a4
      rw [a4] at c10; cases c10
      obtain ⟨l, v, row', d1, d2, d3, d4⟩ := hT _ hm i hi' otherInd_ne
      obtain ⟨l2, v2, row2, e1, e2, e3, e4⟩ := hR _ hm i hi' otherInd_ne
      rw [hL] at d1 e1; cases d1; cases e1
      rw [a5] at d2; cases d2
      rw [a6] at e2; cases e2
      rw [d3] at c7; cases c7
      rw [e3] at c5; cases c5
      rw [peerPos_otherInd] at d4 e4
      rw [d4] at c8; cases c8
      rw [e4] at c6; cases c6
      rw [k5, ← (messageB_c a7).1] at c11
      simp at c11
  · -- the deltas
    obtain ⟨hb0, hrows⟩ := rows_nil h1
    subst hb0
    have hmat := rows_matrix hrows
    have hfail := ((failing_ok h2).2 h).1 hx
    obtain ⟨d, hd, hiff⟩ := delta_test_ok (show h < deltas.length from hlen ▸ hm) hmat hfail.2
    have hne : d ≠ _ := fun hh => Bool.false_ne_true (hiff.2 hh)
    apply hne
    obtain ⟨row, alphas, b1, b2, b3, b4⟩ := hon.delta
    simp only at hd
    rw [b4] at hd
    cases hd
    have hgtest : ∀ j < ls.length, ∃ Lj, ls[j]? = some Lj ∧ gGammas[j]? = some (Lj.gamma • G) := by
      intro j hj
      have := ((failing_ok h0).1 j (by simpa [hlen] using hj)).resolve_right fun hh => by
        have := ((failing_ok h0).2 j).2 ⟨by simpa [hlen] using hj, hh⟩
        cases this
      unfold GlobalStatePhase5.gamma_test at this
      simp only [Res.bind_eq_ok, Res.get_eq_ok] at this
      obtain ⟨gg, e1, gam, e2, e3⟩ := this
      simp only [Res.ok.injEq, decide_eq_true_eq] at e3
      refine ⟨ls[j], by simp [hj], ?_⟩
      rw [List.getElem?_map, List.getElem?_eq_getElem hj, Option.map_some, Option.some.injEq] at e2
      rw [e1, e3, e2]
    unfold GlobalStatePhase5.expected
    simp only [hlen]
    have hK : GlobalStatePhase5.K
        ⟨ls.map (·.k), ls.map (·.k_randomness), ls.map (·.gamma), matR, matT, eks, deltas, gGammas, mas, mbs⟩
        h = L.k := get_getD hk
    have hG : GlobalStatePhase5.Gam
        ⟨ls.map (·.k), ls.map (·.k_randomness), ls.map (·.gamma), matR, matT, eks, deltas, gGammas, mas, mbs⟩
        h = L.gamma := get_getD hgam
    rw [hK, hG, List.sum_map_add, ← add_assoc]
    congr 1
    · congr 1
      congr 1
      unfold Sign.others
      rw [← range_map_otherInd hm, List.map_map]
      have hal : alphas.length = ls.length - 1 := by rw [← b3.length_eq, b2]
      refine List.ext_getElem (by simp [hal]) fun j j1 j2 => ?_
      have hj : j < ls.length - 1 := hal ▸ j1
      have hlt := otherInd_lt (k := h) hj
      obtain ⟨x, hx⟩ := (List.forall₂_iff_get.1 b3).2 j (b2 ▸ hj) j1
      simp only [List.get_eq_getElem] at hx
      obtain ⟨row', mb, p1, p2, p3⟩ := hon.phase4 _ hlt otherInd_ne
      rw [b1] at p1; cases p1
      rw [peerPos_otherInd] at p2
      have hmb : row[j]'(b2 ▸ hj) = mb := by
        rw [List.getElem?_eq_getElem (b2 ▸ hj), Option.some.injEq] at p2; exact p2
      rw [hmb] at hx
      obtain ⟨Lj, q1, q2⟩ := hgtest _ hlt
      obtain ⟨l, v, rowT, r1, r2, r3, r4⟩ := hT _ hlt h hm otherInd_ne
      rw [q1] at r1
      obtain rfl : Lj = l := Option.some.inj r1
      have hv := hmask _ hlt otherInd_ne _ v row mb q1 r2 b1 (by rw [peerPos_otherInd]; exact p2)
      unfold MessageB.verify_proofs_get_alpha at hx
      split at hx
      · cases hx
      · simp only at hx
        split_ifs at hx with hcond
        simp only [Res.ok.injEq, Prod.mk.injEq] at hx
        simp only [Bool.and_eq_true, decide_eq_true_eq] at hcond
        have hpk := hcond.2
        rw [q2, Option.some.injEq] at p3
        rw [← p3, ← hv, ← mul_smul, ← add_smul, smul_G_inj] at hpk
        rename_i share hdec
        simp only [List.getElem_map, List.getElem_range, Function.comp]
        unfold GlobalStatePhase5.Gam GlobalStatePhase5.Tag
        simp only
        rw [get_getD (show (ls.map (·.gamma))[otherInd h j]? = some Lj.gamma by simp [q1]), get_getD r3,
          get_getD r4]
        rw [← hx.1]; exact hpk.symm
    · congr 1
      unfold Sign.others
      rw [← range_map_otherInd hm, List.map_map]
      refine List.ext_getElem (by simp [hon.tags]) fun j j1 j2 => ?_
      have hj : j < ls.length - 1 := by simpa using j2
      have hlt := otherInd_lt (k := h) hj
      obtain ⟨l, v, rowT, r1, r2, r3, r4⟩ := hT _ hm _ hlt otherInd_ne.symm
      rw [hL] at r1; cases r1
      rw [peerPos_otherInd, List.getElem?_eq_getElem (hon.tags ▸ hj), Option.some.injEq] at r2
      simp only [List.getElem_map, List.getElem_range, Function.comp]
      unfold GlobalStatePhase5.Tag
      simp only
      rw [get_getD r3, get_getD r4, r2]

/-- **C66.** Blame is not empty-handed in the nonce phase.  Let `R` be the nonce point obtained from the
published deltas and decommitted points, and let the signers have published `k_i R` for the `k_i` they
open.  If these points fail the nonce check and `phase5_blame` reaches a verdict, at least one signer is
blamed. -/
theorem C66_nonce_blame_finds_someone {ε : Type} {eks : List ℕ} {deltas : List Sc} {gGammas : List Pt}
    {mas : List MessageA} {mbs : List (List MessageB)} {ls : List LocalStatePhase5}
    {g : GlobalStatePhase5} {e : ErrorType} {deltaInv : Sc} {err : Error}
    (hg : (GlobalStatePhase5.local_state_to_global_state eks deltas gGammas mas mbs ls :
      Res ε GlobalStatePhase5) = .ok g)
    (hlen : deltas.length = ls.length) (hlen2 : gGammas.length = ls.length)
    (hd : (phase3_reconstruct_delta deltas : Res Error Sc) = .ok deltaInv)
    (hfail : phase5_check_R_dash_sum (ls.map (fun l => l.k • (deltaInv • gGammas.sum))) = .err err)
    (he : g.phase5_blame = .err e) : e.bad_actors ≠ [] := by
  intro hnil
  obtain ⟨matR, hR, hg⟩ := Res.bind_eq_ok.1 hg
  obtain ⟨matT, hT, hg⟩ := Res.bind_eq_ok.1 hg
  cases hg
  obtain ⟨bad0, bad1, mat, bad, -, -, -, rfl⟩ := phase5_blame_err he
  simp only at hnil
  rw [hnil] at he
  have hall := phase5_blame_nil he
  have hsum := expected_sum (g := ⟨ls.map (·.k), ls.map (·.k_randomness), ls.map (·.gamma), matR, matT, eks,
    deltas, gGammas, mas, mbs⟩)
  rw [← list_sum_range rfl fun i hi => (hall i hi).2.2.2] at hsum
  have hks : ∑ i ∈ Finset.range deltas.length, GlobalStatePhase5.K
      ⟨ls.map (·.k), ls.map (·.k_randomness), ls.map (·.gamma), matR, matT, eks, deltas, gGammas, mas, mbs⟩ i
      = (ls.map (·.k)).sum := by
    refine (list_sum_range (by simp [hlen]) fun i hi => ?_).symm
    rw [hlen] at hi
    rw [List.getElem?_eq_getElem (by simpa using hi)]
    congr 1
    exact (get_getD (List.getElem?_eq_getElem (by simpa using hi))).symm
  have hgs := list_sum_range (l := gGammas) (hlen2.trans hlen.symm) fun i hi => (hall i hi).1
  simp only at hsum hgs
  rw [← Finset.sum_smul] at hgs
  rw [hks] at hsum
  have hd' : deltas.sum ≠ 0 ∧ deltaInv = (deltas.sum)⁻¹ := by
    unfold phase3_reconstruct_delta scInvert at hd
    rw [foldl_add_zero] at hd
    by_cases h0 : deltas.sum = 0
    · rw [if_pos h0] at hd; cases hd
    · rw [if_neg h0] at hd; cases hd; exact ⟨h0, rfl⟩
  have hok : phase5_check_R_dash_sum (ls.map (fun l => l.k • (deltaInv • gGammas.sum))) = .ok () := by
    rw [checkR_ok]
    have : ∀ (l : List LocalStatePhase5) (P : Pt), (l.map (fun l => l.k • P)).sum = (l.map (·.k)).sum • P := by
      intro l P
      induction l with
      | nil => simp
      | cons a l ih => simp only [List.map_cons, List.sum_cons, ih, add_smul]
    rw [this, hgs, ← mul_smul, ← mul_smul, hd'.2, hsum]
    have hne := hd'.1
    rw [hsum] at hne
    rw [mul_inv]
    have h1 := left_ne_zero_of_mul hne
    have h2 := right_ne_zero_of_mul hne
    have : ∀ a b : Sc, a ≠ 0 → b ≠ 0 → a * (a⁻¹ * b⁻¹) * b = 1 := by
      intro a b ha hb
      field_simp
    rw [this _ _ h1 h2, one_smul]
  rw [hok] at hfail
  cases hfail

/-! ### The key phase -/

/-- What follows from the openings for a signer `h` that followed the protocol is its `sigma_h G`.  (The
proof of `h` plays no role here.) -/
theorem expected_of_honest {ε : Type} {eks : List ℕ} {Ss right gws : List Pt} {mas : List MessageA}
    {mbs : List (List MessageB)} {ls : List LocalStatePhase6} {h : ℕ} {R : Pt} {dk : DecKey} {w : Sc}
    {bts : List ℤ} {L : LocalStatePhase6} {pf : ECDDHProof} {matM matR : List (List ℤ)}
    (hM : (untransposed ls (·.miu) : Res ε (List (List ℤ))) = .ok matM)
    (hL : ls[h]? = some L)
    (hon : HonestKey ls.length h eks right gws mas mbs R dk w bts { L with proof_of_eq_dlog := pf })
    (hmiu : ∀ i < ls.length, i ≠ h → ∀ Li miu row, ∀ mb : MessageB, ls[i]? = some Li →
      Li.miu[peerPos i h]? = some miu → mbs[i]? = some row → row[peerPos i h]? = some mb →
      (miu : Sc) • G = Li.k • (w • G) + mb.beta_tag_proof.pk) :
    GlobalStatePhase6.expected ⟨ls.map (·.k), ls.map (·.k_randomness), matM, matR, gws, eks,
      ls.map (·.proof_of_eq_dlog), Ss, mas, mbs⟩ ls.length h =
      (L.k * w + (L.miu.map (fun x : ℤ => (x : Sc))).sum + (bts.map (fun b : ℤ => 0 - (b : Sc))).sum) • G := by
  have hm : h < ls.length := (List.getElem?_eq_some_iff.1 hL).1
  obtain ⟨-, hM⟩ := untransposed_ok hM
  obtain ⟨mbrow, b1, b2, b3, b4⟩ := hon.opens
  simp only at b3
  have hKi : ∀ i l, ls[i]? = some l → GlobalStatePhase6.K
      ⟨ls.map (·.k), ls.map (·.k_randomness), matM, matR, gws, eks, ls.map (·.proof_of_eq_dlog), Ss, mas,
        mbs⟩ i = l.k := fun i l hl => get_getD (by simp [hl])
  have hW : GlobalStatePhase6.W
      ⟨ls.map (·.k), ls.map (·.k_randomness), matM, matR, gws, eks, ls.map (·.proof_of_eq_dlog), Ss, mas,
        mbs⟩ h = w • G := get_getD hon.share
  have hMi : ∀ a < ls.length, ∀ b < ls.length, a ≠ b → ∃ la v, ls[a]? = some la ∧
      la.miu[peerPos a b]? = some v ∧ GlobalStatePhase6.Miu
      ⟨ls.map (·.k), ls.map (·.k_randomness), matM, matR, gws, eks, ls.map (·.proof_of_eq_dlog), Ss, mas,
        mbs⟩ a b = (v : Sc) := by
    intro a ha b hb hab
    obtain ⟨l, row', f1, f2, f3, f4⟩ := hM a ha
    obtain ⟨v, v1, v2⟩ := f4 _ (peerPos_lt hb ha hab.symm)
    refine ⟨l, v, f1, v1, ?_⟩
    unfold GlobalStatePhase6.Miu
    simp only
    rw [get_getD f2, get_getD v2]
  unfold GlobalStatePhase6.expected
  rw [hKi h L hL, hW, List.sum_map_add, add_smul, add_smul, ← mul_smul, ← add_assoc]
  have hsmul : ∀ l : List Sc, (l.map (fun s => s • (G : Pt))).sum = l.sum • G := by
    intro l
    induction l with
    | nil => simp
    | cons a l ih => simp only [List.map_cons, List.sum_cons, ih, add_smul]
  congr 1
  · congr 1
    rw [← hsmul, List.map_map]
    congr 1
    unfold Sign.others
    rw [← range_map_otherInd hm, List.map_map]
    refine List.ext_getElem (by simp [← b3.length_eq, b2]) fun j j1 j2 => ?_
    have hj : j < ls.length - 1 := by simpa using j1
    obtain ⟨la, v, a1, a2, a3⟩ := hMi h hm _ (otherInd_lt (k := h) hj) otherInd_ne.symm
    rw [hL] at a1; cases a1
    rw [peerPos_otherInd] at a2
    simp only [List.getElem_map, List.getElem_range, Function.comp, a3]
    have hjl : j < L.miu.length := by simpa using j2
    rw [List.getElem?_eq_getElem hjl, Option.some.injEq] at a2
    rw [a2]
  · rw [← hsmul, List.map_map]
    congr 1
    unfold Sign.others
    rw [← range_map_otherInd hm, List.map_map]
    refine List.ext_getElem (by simp [hon.masks]) fun j j1 j2 => ?_
    have hj : j < ls.length - 1 := by simpa using j1
    have hlt := otherInd_lt (k := h) hj
    obtain ⟨la, v, a1, a2, a3⟩ := hMi _ hlt h hm otherInd_ne
    obtain ⟨N, ma, row, mb, bt, br, sts, t1, t2, beta, c1, c2, c3, c4, c5, c6⟩ :=
      hon.answers _ hlt otherInd_ne
    have hv := hmiu _ hlt otherInd_ne la v row mb a1 a2 c3 c4
    rw [(messageB_c c6).2.2] at hv
    rw [peerPos_otherInd] at c5
    simp only [List.getElem_map, List.getElem_range, Function.comp, a3, hKi _ la a1]
    have hjl : j < bts.length := by simpa using j2
    rw [List.getElem?_eq_getElem hjl, Option.some.injEq] at c5
    rw [c5, hv, sub_smul, zero_smul]
    abel

/-- **C48 (partial).** A signer `h` that followed the protocol is not blamed, whatever the others sent and
open – provided the answers it received are canonical ciphertexts, and every other signer opens for the
answer of `h` a value that passes the test `h` itself applies to the answers it receives.  Neither is
checked by the code; without them the property is false, see `C48_framed_by_opening` and
`C48_framed_by_ciphertext`. -/
theorem C48_honest_not_blamed_partial {ε : Type} {eks : List ℕ} {Ss gws : List Pt} {mas : List MessageA}
    {mbs : List (List MessageB)} {ls : List LocalStatePhase6} {h : ℕ} {R : Pt} {dk : DecKey} {w : Sc}
    {bts : List ℤ} {L : LocalStatePhase6} {g : GlobalStatePhase6} {e : ErrorType}
    (hg : (GlobalStatePhase6.local_state_to_global_state eks Ss gws mas mbs ls :
      Res ε GlobalStatePhase6) = .ok g)
    (hL : ls[h]? = some L)
    (hon : HonestKey ls.length h eks Ss gws mas mbs R dk w bts L)
    (hcanon : ∀ row, mbs[h]? = some row → ∀ mb ∈ row, 0 ≤ mb.c ∧ mb.c < dk.n * dk.n ∧ Int.gcd mb.c dk.n = 1)
    (hmiu : ∀ i < ls.length, i ≠ h → ∀ Li miu row, ∀ mb : MessageB, ls[i]? = some Li →
      Li.miu[peerPos i h]? = some miu → mbs[i]? = some row → row[peerPos i h]? = some mb →
      (miu : Sc) • G = Li.k • (w • G) + mb.beta_tag_proof.pk)
    (he : g.phase6_blame R = .err e) : h ∉ e.bad_actors := by
  obtain ⟨matR, hR, hg⟩ := Res.bind_eq_ok.1 hg
  obtain ⟨matM, hM, hg⟩ := Res.bind_eq_ok.1 hg
  cases hg
  have hm : h < ls.length := (List.getElem?_eq_some_iff.1 hL).1
  have hM0 := hM
  obtain ⟨-, hM⟩ := untransposed_ok hM
  obtain ⟨-, hR⟩ := untransposed_ok hR
  obtain ⟨bad1, bad2, bad, h1, h2, h3, rfl⟩ := phase6_blame_err he
  simp only [List.length_map] at h1 h2 h3
  obtain ⟨mbrow, b1, b2, b3, b4⟩ := hon.opens
  have hk : (ls.map (·.k))[h]? = some L.k := by simp [hL]
  have F1 : h ∉ bad1 := by
    rw [miu_bad_mem h1]
    rintro ⟨-, j, hj, ht⟩
    unfold GlobalStatePhase6.miu_test at ht
    simp only [Res.bind_eq_ok, Res.get_eq_ok, getCell_eq_ok, Res.ok.injEq, decide_eq_false_iff_not] at ht
    obtain ⟨ek, e1, miu, ⟨rowM, e2, e3⟩, r, ⟨rowR, e4, e5⟩, sent, ⟨row, e6, e7⟩, e8⟩ := ht
    rw [hon.ek] at e1; cases e1
    rw [b1] at e6; cases e6
    obtain ⟨l, row', f1, f2, f3, f4⟩ := hM h hm
    obtain ⟨l2, row2, g1, g2, g3, g4⟩ := hR h hm
    rw [hL] at f1 g1; cases f1; cases g1
    rw [f2] at e2; cases e2
    rw [g2] at e4; cases e4
    obtain ⟨v, v1, v2⟩ := f4 j hj
    obtain ⟨v', v1', v2'⟩ := g4 j hj
    rw [v2] at e3; cases e3
    rw [v2'] at e5; cases e5
    have hj' : j < mbrow.length := b2 ▸ hj
    have hs : mbrow[j] = sent := by rw [List.getElem?_eq_getElem hj', Option.some.injEq] at e7; exact e7
    have hmem : sent ∈ mbrow := hs ▸ List.getElem_mem hj'
    obtain ⟨c0, c1, c2⟩ := hcanon _ b1 sent hmem
    obtain ⟨alpha, ha⟩ := (List.forall₂_iff_get.1 b3).2 j hj' (by rw [← b3.length_eq]; exact hj')
    have hr := (List.forall₂_iff_get.1 b4).2 j hj' (by rw [← b4.length_eq]; exact hj')
    simp only [List.get_eq_getElem, hs] at ha hr
    have hLm : L.miu[j]'(by rw [← b3.length_eq]; exact hj') = miu := by
      rw [List.getElem?_eq_getElem (by rw [← b3.length_eq]; exact hj'), Option.some.injEq] at v1; exact v1
    have hLr : L.miu_randomness[j]'(by rw [← b4.length_eq]; exact hj') = r := by
      rw [List.getElem?_eq_getElem (by rw [← b4.length_eq]; exact hj'), Option.some.injEq] at v1'; exact v1'
    rw [hLm] at ha
    rw [hLr] at hr
    obtain ⟨⟨x, r0⟩, o1, o2⟩ := Res.bind_eq_ok.1 hr
    cases o2
    obtain ⟨d1, d2⟩ := Paillier.encrypt_open hon.valid c2 c0 c1 (Res.ofOption_eq_ok.1 o1)
    unfold MessageB.verify_proofs_get_alpha at ha
    rw [d1] at ha
    simp only at ha
    split_ifs at ha
    simp only [Res.ok.injEq, Prod.mk.injEq] at ha
    rw [← ha.2] at e8
    exact e8 d2
  have F2 : h ∉ bad2 := by
    rw [(failing_ok h2).2]
    rintro ⟨-, ht⟩
    unfold GlobalStatePhase6.k_test at ht
    simp only [Res.bind_eq_ok, Res.get_eq_ok, messageA_eq, Res.ok.injEq, exists_eq_left',
      decide_eq_false_iff_not] at ht
    obtain ⟨k, e1, ek, e2, r, e3, sent, e4, e5⟩ := ht
    obtain ⟨ma, sts, rs, f1, f2⟩ := hon.first
    rw [hk] at e1; cases e1
    rw [hon.ek] at e2; cases e2
    rw [show (ls.map (·.k_randomness))[h]? = some L.k_randomness by simp [hL]] at e3; cases e3
    rw [f1] at e4; cases e4
    exact e5 (messageA_c f2).symm
  simp only [mem_sortDedup]
  intro hx
  rcases h3 with ⟨-, rfl⟩ | ⟨-, -, h3⟩
  · rcases List.mem_append.1 hx with hx | hx
    · exact F1 hx
    · exact F2 hx
  · obtain ⟨S, pf, s1, s2, s3⟩ := sigma_bad_ok (m := ls.length) (by
      intro i hi row hrow
      obtain ⟨l, row', f1, f2, f3, f4⟩ := hM i hi
      simp only at hrow
      rw [f2] at hrow; cases hrow
      exact f3) h3 h hm
    have hv := s3.1 hx
    obtain ⟨nonce, t1, t2⟩ := hon.sigma
    simp only at s1 s2
    rw [t1] at s1; cases s1
    rw [show (ls.map (·.proof_of_eq_dlog))[h]? = some L.proof_of_eq_dlog by simp [hL]] at s2; cases s2
    rw [t2] at hv
    have hexp := expected_of_honest (Ss := Ss) (matR := matR) (pf := L.proof_of_eq_dlog) hM0 hL hon hmiu
    rw [hexp] at hv
    unfold ecddh_proof at hv
    rw [ECDDHProof.verify_prove _ _ _ (by rfl) (by rfl)] at hv
    cases hv

/-- The statement of an equality-of-logarithms proof is true. -/
def DdhTrue (st : ECDDHStatement) : Prop := ∃ x : Sc, st.h1 = x • st.g1 ∧ st.h2 = x • st.g2

/-- For a false statement, and for every first message, at most one challenge can be answered. -/
theorem C67_ecddh_one_challenge {st : ECDDHStatement} (hf : ¬ DdhTrue st) {a1 a2 : Pt} {e e' z z' : Sc}
    (h1 : z • st.g1 = a1 + e • st.h1) (h2 : z • st.g2 = a2 + e • st.h2)
    (h1' : z' • st.g1 = a1 + e' • st.h1) (h2' : z' • st.g2 = a2 + e' • st.h2) : e = e' := by
  by_contra hne
  have hd : e - e' ≠ 0 := sub_ne_zero.2 hne
  refine hf ⟨(e - e')⁻¹ * (z - z'), ?_, ?_⟩
  · rw [mul_smul, sub_smul, h1, h1', add_sub_add_left_eq_sub, ← sub_smul, ← mul_smul, inv_mul_cancel₀ hd,
      one_smul]
  · rw [mul_smul, sub_smul, h2, h2', add_sub_add_left_eq_sub, ← sub_smul, ← mul_smul, inv_mul_cancel₀ hd,
      one_smul]

/-- **C67.** Blame is not empty-handed in the key phase.  Let the public shares of the signers sum to the
public key, and let the opened `k_i` be the ones of the nonce check (`(∑ k_i) R = G`).  If the points
`S_i` fail the key check and `phase6_blame` reaches a verdict, at least one signer is blamed – or one of
the signers has an accepted proof for a false statement about its `S_i`. -/
theorem C67_key_blame_finds_someone {ε : Type} {eks : List ℕ} {Ss gws : List Pt} {mas : List MessageA}
    {mbs : List (List MessageB)} {ls : List LocalStatePhase6} {g : GlobalStatePhase6} {e : ErrorType}
    {R Y : Pt} {err : Error}
    (hg : (GlobalStatePhase6.local_state_to_global_state eks Ss gws mas mbs ls :
      Res ε GlobalStatePhase6) = .ok g)
    (hlen : gws.length = ls.length) (hlen2 : Ss.length = ls.length)
    (hY : gws.sum = Y) (hR : (ls.map (fun l => l.k • R)).sum = G)
    (hfail : phase6_check_S_i_sum Y Ss = .err err)
    (he : g.phase6_blame R = .err e) :
    e.bad_actors ≠ [] ∨
    ∃ i S, ∃ l : LocalStatePhase6, ls[i]? = some l ∧ Ss[i]? = some S ∧
      l.proof_of_eq_dlog.verify ⟨G, openedSigma ls gws i, R, S⟩ = true ∧
      ¬ DdhTrue ⟨G, openedSigma ls gws i, R, S⟩ := by
  obtain ⟨matR, hR', hg⟩ := Res.bind_eq_ok.1 hg
  obtain ⟨matM, hM, hg⟩ := Res.bind_eq_ok.1 hg
  cases hg
  by_cases hnil : e.bad_actors = []
  swap
  · exact .inl hnil
  right
  obtain ⟨-, hM⟩ := untransposed_ok hM
  obtain ⟨bad1, bad2, bad, -, -, h3, hee⟩ := phase6_blame_err he
  rw [hee] at hnil
  have hbad : bad = [] := sortDedup_eq_nil.1 hnil
  subst hbad
  simp only [List.length_map] at h3
  rcases h3 with ⟨h3, h4⟩ | ⟨-, -, h3⟩
  · exact absurd h4.symm h3
  have hs := sigma_bad_ok (m := ls.length) (by
      intro i hi row hrow
      obtain ⟨l, row', f1, f2, f3, f4⟩ := hM i hi
      simp only at hrow
      rw [f2] at hrow; cases hrow
      exact f3) h3
  clear h3 hee hR' he hnil
  have hexp : ∀ i < ls.length, GlobalStatePhase6.expected ⟨ls.map (·.k), ls.map (·.k_randomness), matM, matR,
      gws, eks, ls.map (·.proof_of_eq_dlog), Ss, mas, mbs⟩ ls.length i = openedSigma ls gws i := by
    have hMiu : ∀ a < ls.length, ∀ b < ls.length, b ≠ a → GlobalStatePhase6.Miu ⟨ls.map (·.k),
        ls.map (·.k_randomness), matM, matR, gws, eks, ls.map (·.proof_of_eq_dlog), Ss, mas, mbs⟩ a b =
        openedMiu ls a b := by
      intro a ha b hb hab
      obtain ⟨l, row', f1, f2, f3, f4⟩ := hM a ha
      obtain ⟨v, v1, v2⟩ := f4 _ (peerPos_lt hb ha hab)
      unfold GlobalStatePhase6.Miu openedMiu
      simp only
      rw [get_getD f2, get_getD v2, get_getD (a := l.miu) (by simp [f1]), get_getD v1]
    intro i hi
    unfold GlobalStatePhase6.expected openedSigma
    simp only
    congr 1
    unfold Sign.others
    congr 1
    refine List.map_congr_left fun a ha => ?_
    simp only [List.mem_filter, List.mem_range, decide_eq_true_eq] at ha
    rw [hMiu i hi a ha.1 ha.2, hMiu a ha.1 i hi (Ne.symm ha.2)]
    rfl
  generalize hgg : (⟨ls.map (·.k), ls.map (·.k_randomness), matM, matR, gws, eks,
    ls.map (·.proof_of_eq_dlog), Ss, mas, mbs⟩ : GlobalStatePhase6) = g at hs hexp
  have hSs : g.S_vec = Ss := by rw [← hgg]
  have hpf : g.proof_vec = ls.map (·.proof_of_eq_dlog) := by rw [← hgg]
  by_contra hcon
  push Not at hcon
  have hall : ∀ i < ls.length, ∃ x : Sc, g.expected ls.length i = x • G ∧ Ss[i]? = some (x • R) := by
    intro i hi
    obtain ⟨S, pf, s1, s2, s3⟩ := hs i hi
    rw [hpf, List.getElem?_map, List.getElem?_eq_getElem hi] at s2
    rw [hSs] at s1
    have hv : pf.verify (ddhStatement R (g.expected ls.length i) S) = true := by
      rw [← Bool.not_eq_false]
      intro hx
      have := s3.2 hx
      cases this
    rw [hexp i hi] at hv
    obtain ⟨x, x1, x2⟩ := hcon i S ls[i] (List.getElem?_eq_getElem hi) s1 (by
      simp only [Option.map_some, Option.some.injEq] at s2
      rw [s2]; exact hv)
    exact ⟨x, (hexp i hi).trans x1, by rw [s1]; exact congrArg some x2⟩
  choose! x hx1 hx2 using hall
  have hw : ∀ i, ∃ w : Sc, g.W i = w • G := fun i => EC.gen _
  choose w hw using hw
  have hsum := sum_cross ls.length w g.K (fun a b => g.Miu b a)
  have hxe : ∀ i < ls.length, x i = w i * g.K i +
      ((Sign.others ls.length i).map (fun j => (w i * g.K j + g.Miu i j) + (0 - g.Miu j i))).sum := by
    intro i hi
    apply smul_G_inj.1
    rw [← hx1 i hi]
    unfold GlobalStatePhase6.expected
    rw [hw, add_smul, ← mul_smul, mul_comm]
    congr 1
    generalize Sign.others ls.length i = l
    induction l with
    | nil => simp
    | cons a l ih =>
      simp only [List.map_cons, List.sum_cons, ih]
      simp only [add_smul, sub_smul, zero_smul, ← mul_smul]
      rw [mul_comm (g.K a)]
      abel
  rw [← Finset.sum_congr rfl fun i hi => hxe i (by simpa using hi)] at hsum
  have hS := list_sum_range (l := Ss) hlen2 hx2
  have hYs := list_sum_range (l := gws) (f := fun i => w i • (G : Pt)) hlen (by
    intro i hi
    rw [← hw, List.getElem?_eq_getElem (hlen ▸ hi), Option.some.injEq]
    unfold GlobalStatePhase6.W
    rw [← hgg]
    exact (get_getD (List.getElem?_eq_getElem (hlen ▸ hi))).symm)
  have hRs := list_sum_range (l := ls.map (fun l => l.k • R)) (n := ls.length) (f := fun i => g.K i • R) (by simp) (by
    intro i hi
    rw [List.getElem?_map, List.getElem?_eq_getElem hi]
    simp only [Option.map_some, Option.some.injEq]
    have : g.K i = ls[i].k := by
      unfold GlobalStatePhase6.K
      rw [← hgg]
      exact get_getD (by simp [List.getElem?_eq_getElem hi])
    rw [this])
  rw [← Finset.sum_smul] at hS hYs hRs
  have hok : phase6_check_S_i_sum Y Ss = .ok () := by
    rw [checkS_ok, hS, hsum, mul_smul, ← hRs, hR, ← hYs, hY]
  rw [hok] at hfail
  cases hfail

end

/-! ### Concrete cases

Two signers over the 31-point curve with `k = 4, 6`, Paillier modulus 2021.  In the nonce phase they use
`gamma = 2, 9` and the masks 100 and 200, in the key phase the key shares 5 and 8 and the masks 50 and 60. -/

section

attribute [local instance] Toy.crypto

def bK (i : ℕ) : ZMod 31 := [4, 6].getD i 0
def bGamma (i : ℕ) : ZMod 31 := [2, 9].getD i 0
def bTag (i : ℕ) : ℤ := [100, 200].getD i 0
def bW (i : ℕ) : ZMod 31 := [5, 8].getD i 0
def bMask (i : ℕ) : ℤ := [50, 60].getD i 0

/-- the first message of signer `i` -/
def bMa (i : ℕ) : MessageA := ⟨Paillier.encrypt toyKey.n ((bK i).val) 3, []⟩

/-- the answer with secret `b` and mask `bt` to the first message of signer `i` -/
def bAns (i : ℕ) (b : ZMod 31) (bt : ℤ) : MessageB :=
  ⟨Paillier.add toyKey.n (Paillier.mul toyKey.n (bMa i).c b.val) (Paillier.encrypt toyKey.n bt 5),
    DLogProof.prove b 0, DLogProof.prove ((bt : ℤ) : ZMod 31) 0⟩

/-- the answers of the nonce phase -/
def bMbs : List (List MessageB) := [[bAns 0 (bGamma 1) (bTag 1)], [bAns 1 (bGamma 0) (bTag 0)]]

/-- what signer `i` opens in the nonce phase when it is honest -/
def bL (i : ℕ) : LocalStatePhase5 := ⟨bK i, 3, bGamma i, [5], [bTag i], toyKey.n⟩

/-- the delta of signer `i` when it is honest -/
def bDelta (i : ℕ) : ZMod 31 :=
  bK i * bGamma i + (bK i * bGamma (1 - i) + ((bTag (1 - i) : ℤ) : ZMod 31)) + (0 - ((bTag i : ℤ) : ZMod 31))

def bGG : List (ZMod 31) := [bGamma 0 • (1 : ZMod 31), bGamma 1 • (1 : ZMod 31)]

/-- Whatever the second signer publishes as delta, the first one is honest. -/
theorem bHonest (d : ZMod 31) : HonestNonce 2 0 [toyKey.n, toyKey.n] [bDelta 0, d] bGG [bMa 0, bMa 1] bMbs
    toyKey (bL 0) where
  ek := rfl
  gamma := rfl
  first := ⟨bMa 0, [], fun _ => ⟨0, 0, 0, 0⟩, rfl, rfl⟩
  answers := by
    intro i hi hne
    obtain rfl : i = 1 := by omega
    exact ⟨toyKey.n, bMa 1, _, bAns 1 (bGamma 0) (bTag 0), bTag 0, 5, [], 0, 0, 0 - ((bTag 0 : ℤ) : ZMod 31),
      rfl, rfl, rfl, rfl, rfl, rfl, messageB_nil _ _ _ _ _⟩
  tags := rfl
  delta := ⟨_, [bK 0 * bGamma 1 + ((bTag 1 : ℤ) : ZMod 31)], rfl, rfl,
    .cons ⟨4 * 9 + 200, by decide +kernel⟩ .nil, by
      show some (bDelta 0) = _
      decide +kernel⟩
  phase4 := by
    intro j hj hne
    obtain rfl : j = 1 := by omega
    exact ⟨_, bAns 0 (bGamma 1) (bTag 1), rfl, rfl, by decide +kernel⟩

/-- **C47 (violation).** Signer 1 answers the first message of signer 0 with the mask 200, and later opens
`200 + N` for it: the ciphertext is the same, the scalar is not.  With its own delta chosen to match the
opening, the nonce check fails, and the verdict is that signer 0 – which followed the protocol – is the
only bad actor. -/
theorem C47_honest_signer_framed :
    ∃ (deltas : List (ZMod 31)) (ls : List LocalStatePhase5) (g : GlobalStatePhase5) (deltaInv : ZMod 31),
      HonestNonce 2 0 [toyKey.n, toyKey.n] deltas bGG [bMa 0, bMa 1] bMbs toyKey (bL 0) ∧
      ls.length = 2 ∧ ls[0]? = some (bL 0) ∧
      (phase3_reconstruct_delta deltas : Res Error Sc) = .ok deltaInv ∧
      phase5_check_R_dash_sum (ls.map (fun l => l.k • (deltaInv • (bGG.sum : Pt)))) = .err .Phase5BadSum ∧
      (GlobalStatePhase5.local_state_to_global_state [toyKey.n, toyKey.n] deltas bGG [bMa 0, bMa 1] bMbs ls :
        Res Error GlobalStatePhase5) = .ok g ∧
      g.phase5_blame = .err ⟨"phase6_blame", [0]⟩ :=
  ⟨[bDelta 0, bK 1 * bGamma 1 + (bK 1 * bGamma 0 + 100) + (0 - 2221)],
    [bL 0, ⟨bK 1, 3, bGamma 1, [5], [200 + 2021], toyKey.n⟩], _, _, bHonest _, rfl, rfl, rfl, by decide +kernel, rfl,
    by decide +kernel⟩

/-- One signer publishes a wrong delta (5 instead of the right value) and opens honestly: the nonce check
fails and it is the one that is blamed. -/
theorem bWrong_ok : ∃ g, (GlobalStatePhase5.local_state_to_global_state [toyKey.n, toyKey.n] [bDelta 0, 5] bGG
    [bMa 0, bMa 1] bMbs [bL 0, bL 1] : Res Error GlobalStatePhase5) = .ok g ∧
    g.phase5_blame = .err ⟨"phase6_blame", [1]⟩ := ⟨_, rfl, by decide +kernel⟩

example : ∃ g e, GlobalStatePhase5.phase5_blame g = .err e ∧ 0 ∉ e.bad_actors ∧ e.bad_actors ≠ [] := by
  obtain ⟨g, hg, he⟩ := bWrong_ok
  refine ⟨g, _, he, ?_, ?_⟩
  · refine C47_honest_not_blamed_partial hg rfl rfl (bHonest 5) ?_ he
    intro j hj hne Lj bt row mb h1 h2 h3 h4
    obtain rfl : j = 1 := by simp at hj; omega
    cases h1; cases h2; cases h3; cases h4
    decide +kernel
  · exact C66_nonce_blame_finds_someone (err := .Phase5BadSum) hg rfl rfl rfl (by decide +kernel) he

example := C49_phase5 (ε := Unit) (eks := [toyKey.n, toyKey.n]) (deltas := [bDelta 0, 5]) (gGammas := bGG)
  (mas := [bMa 0, bMa 1]) (mbs := bMbs) (ls := [bL 0, bL 1]) (by
    intro l hl
    simp only [List.mem_cons, List.not_mem_nil, or_false] at hl
    rcases hl with rfl | rfl <;> exact ⟨le_refl _, le_refl _⟩)

example : (peerPos 3 1, peerPos 3 4) = (1, 3) := by decide

/-- the nonce point: `(4 + 6) R = G` -/
def bR : ZMod 31 := 28

/-- the answers of the key phase; `extra` is added to the ciphertext sent by signer 1 -/
def bMbsW (extra : ℤ) : List (List MessageB) :=
  [[{ bAns 0 (bW 1) (bMask 1) with c := (bAns 0 (bW 1) (bMask 1)).c + extra }], [bAns 1 (bW 0) (bMask 0)]]

/-- the value that signer `i` decrypts -/
def bMiu (i : ℕ) : ℤ := ((bK i).val * (bW (1 - i)).val : ℕ) + bMask (1 - i)

/-- the `sigma_i` of signer `i` when it is honest -/
def bSigma (i : ℕ) : ZMod 31 :=
  bK i * bW i + ((bMiu i : ℤ) : ZMod 31) + (0 - ((bMask i : ℤ) : ZMod 31))

/-- the randomness of the answer to signer `i` -/
def bRand (i : ℕ) : ℤ :=
  ((Paillier.openCiphertext toyKey (((bMbsW 0).getD i []).getD 0 (bAns 0 0 0)).c).getD (0, 0)).2

/-- what signer `i` opens in the key phase when it is honest -/
def bL6 (i : ℕ) : LocalStatePhase6 :=
  ⟨bK i, 3, [bMiu i], [bRand i], ecddh_proof (bSigma i) bR (bSigma i • bR) (7 : ZMod 31)⟩

def bGW : List (ZMod 31) := [bW 0 • (1 : ZMod 31), bW 1 • (1 : ZMod 31)]

/-- Whatever the second signer publishes as `S`, and whatever multiple of `N²` it adds to its ciphertext,
the first one is honest. -/
theorem bHonest6 (S : ZMod 31) (b : Bool) : HonestKey 2 0 [toyKey.n, toyKey.n] [bSigma 0 • bR, S] bGW
    [bMa 0, bMa 1] (bMbsW (if b then 2021 * 2021 else 0)) bR toyKey (bW 0) [bMask 0] (bL6 0) where
  ek := rfl
  valid := toyKey_valid
  share := rfl
  first := ⟨bMa 0, [], fun _ => ⟨0, 0, 0, 0⟩, rfl, rfl⟩
  answers := by
    intro i hi hne
    obtain rfl : i = 1 := by omega
    exact ⟨toyKey.n, bMa 1, _, bAns 1 (bW 0) (bMask 0), bMask 0, 5, [], 0, 0, 0 - ((bMask 0 : ℤ) : ZMod 31),
      rfl, rfl, rfl, rfl, rfl, messageB_nil _ _ _ _ _⟩
  masks := rfl
  opens := ⟨_, rfl, rfl, .cons ⟨((bMiu 0 : ℤ) : ZMod 31), by cases b <;> decide +kernel⟩ .nil,
    .cons (by cases b <;> decide +kernel) .nil⟩
  sigma := ⟨7, by
    have : bK 0 * bW 0 + ((bL6 0).miu.map (fun x : ℤ => (x : ZMod 31))).sum +
      ([bMask 0].map (fun b : ℤ => 0 - (b : ZMod 31))).sum = bSigma 0 := by decide +kernel
    exact ⟨congrArg (fun x : ZMod 31 => some (x • bR)) this.symm,
      congrArg (fun x : ZMod 31 => ecddh_proof x bR (x • bR) (7 : ZMod 31)) this.symm⟩⟩

/-- **C48 (violation, opening).** Signer 1 opens `miu + N` for the answer of signer 0: the ciphertext is
the same, the scalar is not.  With its own `S` chosen to match the opening, the key check fails, and the
verdict is that signer 0 – which followed the protocol – is the only bad actor. -/
theorem C48_framed_by_opening :
    ∃ (S : ZMod 31) (ls : List LocalStatePhase6) (g : GlobalStatePhase6),
      HonestKey 2 0 [toyKey.n, toyKey.n] [bSigma 0 • bR, S] bGW [bMa 0, bMa 1] (bMbsW 0) bR toyKey (bW 0)
        [bMask 0] (bL6 0) ∧
      ls.length = 2 ∧ ls[0]? = some (bL6 0) ∧ (ls.map (fun l => l.k • (bR : Pt))).sum = G ∧
      phase6_check_S_i_sum bGW.sum [bSigma 0 • bR, S] = .err .Phase6Error ∧
      (GlobalStatePhase6.local_state_to_global_state [toyKey.n, toyKey.n] [bSigma 0 • bR, S] bGW
        [bMa 0, bMa 1] (bMbsW 0) ls : Res Error GlobalStatePhase6) = .ok g ∧
      g.phase6_blame bR = .err ⟨"phase6_blame", [0]⟩ :=
  ⟨(bSigma 1 + 2021) • bR, [bL6 0, ⟨bK 1, 3, [bMiu 1 + 2021], [bRand 1],
    ecddh_proof (bSigma 1 + 2021 : ZMod 31) bR ((bSigma 1 + 2021) • bR) (7 : ZMod 31)⟩], _,
    bHonest6 _ false, rfl, rfl, by decide +kernel, by decide +kernel, rfl, by decide +kernel⟩

/-- **C48 (violation, ciphertext).** Signer 1 adds `N²` to the ciphertext of its answer to signer 0.
Decryption reduces it away, so signer 0 accepts; but the re-encryption of what signer 0 opens is the
reduced number.  Signer 1 then publishes a wrong `S`; the key check fails, and the verdict is that signer 0
– which followed the protocol – is the only bad actor. -/
theorem C48_framed_by_ciphertext :
    ∃ (S : ZMod 31) (ls : List LocalStatePhase6) (g : GlobalStatePhase6),
      HonestKey 2 0 [toyKey.n, toyKey.n] [bSigma 0 • bR, S] bGW [bMa 0, bMa 1] (bMbsW (2021 * 2021)) bR
        toyKey (bW 0) [bMask 0] (bL6 0) ∧
      ls.length = 2 ∧ ls[0]? = some (bL6 0) ∧ (ls.map (fun l => l.k • (bR : Pt))).sum = G ∧
      phase6_check_S_i_sum bGW.sum [bSigma 0 • bR, S] = .err .Phase6Error ∧
      (GlobalStatePhase6.local_state_to_global_state [toyKey.n, toyKey.n] [bSigma 0 • bR, S] bGW
        [bMa 0, bMa 1] (bMbsW (2021 * 2021)) ls : Res Error GlobalStatePhase6) = .ok g ∧
      g.phase6_blame bR = .err ⟨"phase6_blame", [0]⟩ :=
  ⟨5, [bL6 0, bL6 1], _, bHonest6 _ true, rfl, rfl, by decide +kernel, by decide +kernel, rfl,
    by decide +kernel⟩

/-- Signer 1 publishes a wrong `S` and opens honestly: the key check fails and it is blamed. -/
theorem bWrong6_ok : ∃ g, (GlobalStatePhase6.local_state_to_global_state [toyKey.n, toyKey.n]
    [bSigma 0 • bR, (5 : ZMod 31)] bGW [bMa 0, bMa 1] (bMbsW 0) [bL6 0, bL6 1] : Res Error GlobalStatePhase6) = .ok g ∧
    g.phase6_blame bR = .err ⟨"phase6_blame", [1]⟩ := ⟨_, rfl, by decide +kernel⟩

example : ∃ g e, GlobalStatePhase6.phase6_blame g bR = .err e ∧ 0 ∉ e.bad_actors := by
  obtain ⟨g, hg, he⟩ := bWrong6_ok
  have := C67_key_blame_finds_someone (err := .Phase6Error) (Y := bGW.sum) hg rfl rfl rfl
    (by decide +kernel) (by decide +kernel) he
  refine ⟨g, _, he, ?_⟩
  refine C48_honest_not_blamed_partial hg rfl (bHonest6 5 false) ?_ ?_ he
  · intro row hrow mb hmb
    cases hrow
    simp only [List.mem_cons, List.not_mem_nil, or_false] at hmb
    subst hmb
    decide +kernel
  · intro i hi hne Li miu row mb h1 h2 h3 h4
    obtain rfl : i = 1 := by simp at hi; omega
    cases h1; cases h2; cases h3; cases h4
    decide +kernel

example := C49_phase6 (ε := Unit) (eks := [toyKey.n, toyKey.n]) (Ss := [bSigma 0 • bR, (5 : ZMod 31)]) (gws := bGW)
  (mas := [bMa 0, bMa 1]) (mbs := bMbsW 0) (ls := [bL6 0, bL6 1]) (by
    intro l hl
    simp only [List.mem_cons, List.not_mem_nil, or_false] at hl
    rcases hl with rfl | rfl <;> exact ⟨le_refl _, le_refl _⟩)

/-- A false statement about logarithms -/
example : ¬ DdhTrue ⟨(1 : ZMod 31), (5 : ZMod 31), bR, (5 : ZMod 31)⟩ := by
  rintro ⟨x, h1, h2⟩
  revert h1 h2 x
  decide +kernel

/-- the partial signature of signer `i` for the message 3 -/
def bS (r : ZMod 31) (i : ℕ) : ZMod 31 := 3 * bK i + r * bSigma i

/-- the published points; the partial signatures are `s` -/
def bG7 (s : List (ZMod 31)) (r : ZMod 31) : GlobalStatePhase7 :=
  { s_vec := s, r := r, R_dash_vec := [bK 0 • bR, bK 1 • bR], m := 3, R := bR
    S_vec := [bSigma 0 • bR, bSigma 1 • bR] }

/-- Signer 0 sends a wrong partial signature and is blamed. -/
example : ∃ bad, (bG7 [0, bS 4 1] 4).phase7_blame = .err ⟨"phase7_blame", bad⟩ ∧ bad = [0] := by
  obtain ⟨bad, h, -, -⟩ := C46_exact (g := bG7 [0, bS 4 1] 4) (k := bK) (sigma := bSigma) (by decide +kernel)
    (by intro i hi; rcases i with _ | _ | i <;> [rfl; rfl; (simp [bG7] at hi)])
    (by intro i hi; rcases i with _ | _ | i <;> [rfl; rfl; (simp [bG7] at hi)])
  exact ⟨bad, h, by
    have : (bG7 [0, bS 4 1] 4).phase7_blame = .err ⟨"phase7_blame", [0]⟩ := by decide +kernel
    rw [this] at h
    cases h; rfl⟩

example := C46_someone_blamed (g := bG7 [bS 4 0, bS 4 1] 4) (Y := bGW.sum) (x := 35) (y := 22)
  (by decide +kernel) (by decide +kernel) rfl rfl (by decide +kernel) (by decide +kernel) (by decide +kernel)
  1 (bS 4 1) rfl

example : (bG7 [1, 2, 3] 4).phase7_blame = .panic := (C46_panics_iff _).2 (.inl (by decide))

example : (GlobalStatePhase5.local_state_to_global_state [toyKey.n, toyKey.n] [bDelta 0, bDelta 1] bGG
    [bMa 0, bMa 1] bMbs [bL 0, { bL 1 with beta_tag := [] }] : Res Error GlobalStatePhase5) = .panic :=
  (C49_short_opening_panics _ _ _ _ _ _).2
    ⟨{ bL 1 with beta_tag := [] }, by simp, .inl (by decide)⟩

end

end Verif.Props
