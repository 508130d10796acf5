import Verif.Lemmas.GG18Malicious
import Verif.Props.GG18Clients

/-!
# C100: GG18 key generation with dishonest dealers
-/

namespace Verif.Props

open EC Crypto Spec Spec.GG18 GG18

section

variable [Crypto] {A : Aead} {t n : ℕ} {honest : Finset ℕ} {rnd : ℕ → Demo.Keygen.Rand}
  {b : ℕ → Demo.Keygen.Posted A} {file : ℕ → Demo.Keygen.KeyFile}

/-- **C100** (what holds). The clients in `honest` finished key generation.  If each dishonest party showed
all of them the same polynomial commitments, at most `t + 1` of them, then their files belong together.

Missing with respect to the property: nothing makes the clients compare the commitments they read (see
`C100_equivocation`) or count them (see `C100_threshold_raised`). -/
theorem C100_files_fit_partial (hn : n < q) (ht : t < n) (h : HonestKeygens A t n honest rnd b file)
    (hsame : ∀ i ∈ honest, ∀ i' ∈ honest, ∀ p ∉ honest, 1 ≤ p → p ≤ n →
      ((b i).b4 p).commitments = ((b i').b4 p).commitments)
    (hlen : ∀ i ∈ honest, ∀ p ∉ honest, 1 ≤ p → p ≤ n → ((b i).b4 p).commitments.length ≤ t + 1) :
    FilesFit t honest file := by
  classical
  obtain ⟨o1, o2, o3, o4, o5, hrun, hgen⟩ := h.completed
  rcases honest.eq_empty_or_nonempty with rfl | ⟨i0, hi0⟩
  · refine ⟨0, by simp, fun S hS hc => ?_⟩
    rw [Finset.subset_empty] at hS
    rw [hS] at hc
    simp at hc
  let com : ℕ → List Pt := fun j =>
    if j ∈ honest then ((rnd j).u :: (rnd j).coefs).map (fun c => c • G) else ((b i0).b4 j).commitments
  have hchecks : ∀ i ∈ honest, ∃ share, KeygenChecks A n i (rnd i) (b i) share (file i) := fun i hi =>
    C76_keygen A ht (h.range i hi).1 (h.range i hi).2 (Demo.Keygen.keygenRun_client (hrun i hi))
  have hpos : ∀ i ∈ honest, ∃ v, (file i).vss_scheme_vec[i - 1]? = some v ∧ v.commitments = com i := by
    intro i hi
    obtain ⟨share, hc⟩ := hchecks i hi
    obtain ⟨-, v, h1, h2⟩ := hc.own
    exact ⟨v, h1, by rw [h2]; exact (if_pos hi).symm⟩
  have hview : ∀ i ∈ honest, (file i).vss_scheme_vec.map (·.commitments) =
      (List.range n).map (fun j => com (j + 1)) := by
    intro i hi
    obtain ⟨share, hc⟩ := hchecks i hi
    obtain ⟨hl, v, hv, hc'⟩ := hc.own
    have hir := h.range i hi
    refine List.ext_getElem (by simp [hl]) fun j h1 h2 => ?_
    have hj : j < n := by simpa using h2
    have hj' : j < (file i).vss_scheme_vec.length := by omega
    rw [List.getElem_map, List.getElem_map, List.getElem_range]
    have hget := List.getElem?_eq_getElem hj'
    by_cases e : j + 1 = i
    · subst e
      rw [Nat.add_sub_cancel, hget, Option.some.injEq] at hv
      rw [hv, hc']
      exact (if_pos hi).symm
    · obtain ⟨k, rfl⟩ : ∃ k, i = k + 1 := ⟨i - 1, by omega⟩
      have hm : j + 1 ∈ peers (k + 1) n := by
        rw [peers_eq_others]
        exact List.mem_map.2 ⟨j, GG20.Sign.mem_others.2 ⟨hj, by omega⟩, rfl⟩
      have hb := (hc.keys.2.2.2 (j + 1) hm).2
      rw [Nat.add_sub_cancel, hget, Option.some.injEq] at hb
      rw [hb]
      by_cases hp : j + 1 ∈ honest
      · obtain ⟨-, -, -, g4, -⟩ := hgen _ hi _ hp e
        have := Demo.Keygen.keygenRun_o4 hj (hrun _ hp) g4
        obtain ⟨v', e1, e2⟩ := hpos _ hp
        rw [Nat.add_sub_cancel, this, Option.some.injEq] at e1
        rw [e1, e2]
      · rw [hsame _ hi _ hi0 _ hp (by omega) (by omega)]
        exact (if_neg hp).symm
  have hcom : ∀ v ∈ (List.range n).map (fun j => com (j + 1)), v.length ≤ t + 1 := by
    intro v hv
    obtain ⟨j, hj, rfl⟩ := List.mem_map.1 hv
    have hj : j < n := by simpa using hj
    show (if _ then _ else _ : List Pt).length ≤ _
    split
    · rename_i hp; simp [h.coefs _ hp]
    · rename_i hp; exact hlen i0 hi0 _ hp (by omega) (by omega)
  obtain ⟨F, f1, f2⟩ := exists_sum_poly _ hcom
  have hfile : ∀ i ∈ honest, (file i).shared_keys.x_i = F.eval (i : Sc) ∧
      (file i).y_sum = F.eval 0 • G := by
    intro i hi
    obtain ⟨share, hc⟩ := hchecks i hi
    have hir := h.range i hi
    obtain ⟨k, rfl⟩ : ∃ k, i = k + 1 := ⟨i - 1, by omega⟩
    obtain ⟨g1, g2⟩ := Demo.Keygen.file_shares (by omega) hc
    have hv := hview _ hi
    have hx : ∀ x : Sc, ((file (k + 1)).vss_scheme_vec.map (fun v => feldmanEval v.commitments x)).sum =
        F.eval x • G := by
      intro x
      rw [f2, ← hv, List.map_map]
      rfl
    rw [hx] at g1 g2
    exact ⟨smul_G_inj.1 g1, g2⟩
  refine ⟨F.eval 0, fun i hi => (hfile i hi).2, fun S hS hc => ?_⟩
  have hon : OnPolynomial t n (fun i => F.eval (i : Sc)) F := ⟨f1, fun _ _ _ => rfl⟩
  rw [← hon.reconstructs hn S (fun i hi => h.range i (hS hi)) hc]
  exact Finset.sum_congr rfl fun i hi => by rw [(hfile i (hS hi)).1]

omit [Crypto] in
theorem sum_Icc_one {M : Type} [AddCommMonoid M] (n : ℕ) (f : ℕ → M) :
    ∑ j ∈ Finset.Icc 1 n, f j = ∑ k ∈ Finset.range n, f (k + 1) := by
  induction n with
  | zero => simp
  | succ n ih => rw [Finset.sum_Icc_succ_top (by omega), ih, Finset.sum_range_succ]

theorem natCast_ne_zero_of {i : ℕ} (h1 : 1 ≤ i) (h2 : i < q) : (i : Sc) ≠ 0 := fun h => by
  have := natCast_inj_of_lt h2 (by omega : 0 < q) (h.trans Nat.cast_zero.symm)
  omega

/-- A run in which each dealer shows everybody the same. -/
theorem same_world (A : Aead) (ht : t < n) (hr : ∀ i ∈ honest, 1 ≤ i ∧ i ≤ n)
    (hon : ∀ i ∈ honest, HonestKeygenRand t (rnd i))
    (hany : ∀ i, 1 ≤ i → i ≤ n → ∃ t', HonestKeygenRand t' (rnd i)) :
    ∃ b, HonestKeygens A t n honest rnd b (fun i => Demo.Keygen.kFile t n rnd (i - 1)) ∧
      ∀ i j, 1 ≤ j → ((b i).b4 j).commitments = ((rnd j).u :: (rnd j).coefs).map (fun c => c • G) := by
  refine ⟨fun i => ⟨fun j => Demo.Keygen.kBc rnd (j - 1), fun j => Demo.Keygen.kDec rnd (j - 1),
      fun j => Demo.Keygen.kCt A rnd (j - 1) (i - 1), fun j => Demo.Keygen.kVss t n rnd (j - 1),
      fun j => Demo.Keygen.kPf n rnd (j - 1)⟩,
    ⟨hr, fun i hi => (hon i hi).coefs_len,
    fun i => [⟨i, none, Demo.Keygen.kBc rnd (i - 1)⟩], fun i => [⟨i, none, Demo.Keygen.kDec rnd (i - 1)⟩],
    fun i => (GG20.Sign.others n (i - 1)).map
      (fun j => ⟨i, some (j + 1), Demo.Keygen.kCt A rnd (i - 1) j⟩),
    fun i => [⟨i, none, Demo.Keygen.kVss t n rnd (i - 1)⟩],
    fun i => [⟨i, none, Demo.Keygen.kPf n rnd (i - 1)⟩], fun i hi => ?_, fun i hi j hj hne => ?_⟩,
    fun i j hj => by dsimp only [Demo.Keygen.kVss]; rw [Nat.sub_add_cancel hj]⟩
  · have := hr i hi
    obtain ⟨k, rfl⟩ : ∃ k, i = k + 1 := ⟨i - 1, by omega⟩
    exact Demo.Keygen.run_in_world A ht (fun k hk => hany (k + 1) (by omega) (by omega)) (by omega) rfl
      (fun j _ => DLogProof.verify_prove _ _)
  · have := hr i hi
    have := hr j hj
    obtain ⟨k, rfl⟩ : ∃ k, i = k + 1 := ⟨i - 1, by omega⟩
    refine ⟨List.mem_singleton.2 rfl, List.mem_singleton.2 rfl,
      List.mem_map.2 ⟨k, GG20.Sign.mem_others.2 ⟨by omega, by omega⟩, rfl⟩, List.mem_singleton.2 rfl,
      List.mem_singleton.2 rfl⟩

/-- The sum of the dealt polynomials at a party's index -/
theorem kX_update {n k p : ℕ} (hp1 : 1 ≤ p) (hp2 : p ≤ n) (rnd : ℕ → Demo.Keygen.Rand)
    (r : Demo.Keygen.Rand) {δ : Sc}
    (h : evalPoly (r.u :: r.coefs) ((k + 1 : ℕ) : Sc) =
      evalPoly ((rnd p).u :: (rnd p).coefs) ((k + 1 : ℕ) : Sc) + δ) :
    Demo.Keygen.kX n (Function.update rnd p r) k = Demo.Keygen.kX n rnd k + δ := by
  unfold Demo.Keygen.kX
  rw [sum_map_range_eq, sum_map_range_eq]
  have hm : p - 1 ∈ Finset.range n := by simp; omega
  rw [← Finset.add_sum_erase _ _ hm, ← Finset.add_sum_erase _ _ hm]
  have e1 : Demo.Keygen.kShare (Function.update rnd p r) (p - 1) k =
      Demo.Keygen.kShare rnd (p - 1) k + δ := by
    unfold Demo.Keygen.kShare
    rw [Nat.sub_add_cancel hp1, Function.update_self, h]
  have e2 : ∑ x ∈ (Finset.range n).erase (p - 1), Demo.Keygen.kShare (Function.update rnd p r) x k =
      ∑ x ∈ (Finset.range n).erase (p - 1), Demo.Keygen.kShare rnd x k := by
    refine Finset.sum_congr rfl fun x hx => ?_
    have hne : x + 1 ≠ p := by have := (Finset.mem_erase.1 hx).1; omega
    unfold Demo.Keygen.kShare
    rw [Function.update_of_ne hne]
  rw [e1, e2]
  ring

/-- **C100 is violated** (equivocation). Let everybody sample honestly, with `t ≥ 1`.  A dealer `p` can make
the share of each other client `i` come out as the right one plus any `δ i`: all of them finish, agree on
the public key, and read from each other what the program posts. -/
theorem C100_equivocation (A : Aead) {t n p : ℕ} (hn : n < q) (h1 : 1 ≤ t) (ht : t < n) (hp1 : 1 ≤ p)
    (hp2 : p ≤ n) {rnd : ℕ → Demo.Keygen.Rand}
    (hon : ∀ i, 1 ≤ i → i ≤ n → HonestKeygenRand t (rnd i)) (δ : ℕ → Sc) :
    ∃ b file, HonestKeygens A t n ((Finset.Icc 1 n).erase p) rnd b file ∧
      ∀ i ∈ (Finset.Icc 1 n).erase p,
        (file i).y_sum = (∑ j ∈ Finset.Icc 1 n, (rnd j).u) • G ∧
        (file i).shared_keys.x_i =
          (∑ j ∈ Finset.Icc 1 n, evalPoly ((rnd j).u :: (rnd j).coefs) (i : Sc)) + δ i := by
  obtain ⟨c, cs, hcs⟩ : ∃ c cs, (rnd p).coefs = c :: cs := by
    have := (hon p hp1 hp2).coefs_len
    cases hc : (rnd p).coefs with
    | nil => rw [hc] at this; simp at this; omega
    | cons c cs => exact ⟨c, cs, rfl⟩
  -- towards party `i` the dealer acts like an honest one with another polynomial
  let r : ℕ → Demo.Keygen.Rand := fun i => { rnd p with coefs := (c + δ i / (i : Sc)) :: cs }
  let w : ℕ → ℕ → Demo.Keygen.Rand := fun i => Function.update rnd p (r i)
  have hw : ∀ i, ∀ k < n, ∃ t', HonestKeygenRand t' (w i (k + 1)) := by
    intro i k hk
    refine ⟨t, ?_⟩
    by_cases e : k + 1 = p
    · have := hon p hp1 hp2
      have hl := this.coefs_len
      rw [hcs] at hl
      show HonestKeygenRand t (Function.update rnd p (r i) (k + 1))
      rw [e, Function.update_self]
      exact ⟨this.u_ne, this.dk_valid, this.dk_large, hl⟩
    · show HonestKeygenRand t (Function.update rnd p (r i) (k + 1))
      rw [Function.update_of_ne e]
      exact hon _ (by omega) (by omega)
  have hwu : ∀ i j, (w i j).u = (rnd j).u ∧ (w i j).blind = (rnd j).blind ∧ (w i j).dk = (rnd j).dk ∧
      (w i j).aesNonce = (rnd j).aesNonce := by
    intro i j
    by_cases e : j = p
    · subst e
      show (Function.update rnd j (r i) j).u = _ ∧ _
      simp only [w, Function.update_self]
      exact ⟨rfl, rfl, rfl, rfl⟩
    · simp only [w, Function.update_of_ne e]
      exact ⟨trivial, trivial, trivial, trivial⟩
  have hwne : ∀ i j, j ≠ p → w i j = rnd j := fun i j e => Function.update_of_ne e _ _
  let pf : ℕ → DLogProof := fun j => Demo.Keygen.kPf n (w j) (j - 1)
  let b : ℕ → Demo.Keygen.Posted A := fun i =>
    ⟨fun j => Demo.Keygen.kBc (w i) (j - 1), fun j => Demo.Keygen.kDec (w i) (j - 1),
      fun j => Demo.Keygen.kCt A (w i) (j - 1) (i - 1), fun j => Demo.Keygen.kVss t n (w i) (j - 1), pf⟩
  let file : ℕ → Demo.Keygen.KeyFile := fun i => Demo.Keygen.kFile t n (w i) (i - 1)
  have hmem : ∀ i ∈ (Finset.Icc 1 n).erase p, i ≠ p ∧ 1 ≤ i ∧ i ≤ n := by
    intro i hi
    rw [Finset.mem_erase, Finset.mem_Icc] at hi
    exact hi
  refine ⟨b, file, ⟨fun i hi => (hmem i hi).2, fun i hi => (hon i (hmem i hi).2.1 (hmem i hi).2.2).coefs_len,
    fun i => [⟨i, none, Demo.Keygen.kBc (w i) (i - 1)⟩], fun i => [⟨i, none, Demo.Keygen.kDec (w i) (i - 1)⟩],
    fun i => (GG20.Sign.others n (i - 1)).map
      (fun j => ⟨i, some (j + 1), Demo.Keygen.kCt A (w i) (i - 1) j⟩),
    fun i => [⟨i, none, Demo.Keygen.kVss t n (w i) (i - 1)⟩],
    fun i => [⟨i, none, Demo.Keygen.kPf n (w i) (i - 1)⟩], fun i hi => ?_, fun i hi j hj hne => ?_⟩,
    fun i hi => ⟨?_, ?_⟩⟩
  · obtain ⟨i1, i2, i3⟩ := hmem i hi
    obtain ⟨k, rfl⟩ : ∃ k, i = k + 1 := ⟨i - 1, by omega⟩
    exact Demo.Keygen.run_in_world A ht (hw _) (by omega) (hwne _ _ i1).symm
      (fun j _ => DLogProof.verify_prove _ _)
  · obtain ⟨i1, i2, i3⟩ := hmem i hi
    obtain ⟨j1, j2, j3⟩ := hmem j hj
    obtain ⟨k, rfl⟩ : ∃ k, i = k + 1 := ⟨i - 1, by omega⟩
    obtain ⟨l, rfl⟩ : ∃ l, j = l + 1 := ⟨j - 1, by omega⟩
    have e1 : w (k + 1) (l + 1) = w (l + 1) (l + 1) := (hwne _ _ j1).trans (hwne _ _ j1).symm
    have e2 : ((w (k + 1)) (k + 1)).u = ((w (l + 1)) (k + 1)).u := by rw [(hwu _ _).1, (hwu _ _).1]
    simp only [b, Nat.add_sub_cancel, List.mem_singleton, List.mem_map, Msg.mk.injEq, true_and]
    refine ⟨?_, ?_, ⟨k, GG20.Sign.mem_others.2 ⟨by omega, by omega⟩, rfl, ?_⟩, ?_, rfl⟩
    · unfold Demo.Keygen.kBc Demo.Keygen.kKeys; rw [e1]
    · unfold Demo.Keygen.kDec Demo.Keygen.kKeys; rw [e1]
    · unfold Demo.Keygen.kCt Demo.Keygen.kEnc Demo.Keygen.kShare; rw [e1, e2]
    · unfold Demo.Keygen.kVss; rw [e1]
  · show ((List.range n).map (Demo.Keygen.kY (w i))).sum = _
    rw [Demo.Keygen.kY_sum, sum_Icc_one]
    congr 1
    exact Finset.sum_congr rfl fun k _ => (hwu _ _).1
  · obtain ⟨i1, i2, i3⟩ := hmem i hi
    obtain ⟨k, rfl⟩ : ∃ k, i = k + 1 := ⟨i - 1, by omega⟩
    have hne : ((k + 1 : ℕ) : Sc) ≠ 0 := natCast_ne_zero_of (by omega) (by omega)
    show Demo.Keygen.kX n (Function.update rnd p (r (k + 1))) (k + 1 - 1) = _
    rw [Nat.add_sub_cancel, kX_update hp1 hp2 rnd (r (k + 1)) (δ := δ (k + 1)), sum_Icc_one]
    · unfold Demo.Keygen.kX Demo.Keygen.kShare
      rw [sum_map_range_eq]
    · show evalPoly ((rnd p).u :: (c + δ (k + 1) / ((k + 1 : ℕ) : Sc)) :: cs) _ = _
      rw [hcs]
      simp only [evalPoly_cons]
      have := mul_div_cancel₀ (δ (k + 1)) hne
      linear_combination this

/-- **C100 is violated**: with honest samples, and as many honest parties as are needed to sign, one dealer
can make them all finish with files that do not belong together. -/
theorem C100_files_do_not_fit (A : Aead) {t n p : ℕ} (hn : n < q) (h1 : 1 ≤ t) (ht : t + 2 ≤ n)
    (hp1 : 1 ≤ p) (hp2 : p ≤ n) {rnd : ℕ → Demo.Keygen.Rand}
    (hon : ∀ i, 1 ≤ i → i ≤ n → HonestKeygenRand t (rnd i)) :
    ∃ b file, HonestKeygens A t n ((Finset.Icc 1 n).erase p) rnd b file ∧
      ¬ FilesFit t ((Finset.Icc 1 n).erase p) file := by
  classical
  have hcard : ((Finset.Icc 1 n).erase p).card = n - 1 := by
    rw [Finset.card_erase_of_mem (Finset.mem_Icc.2 ⟨hp1, hp2⟩)]; simp
  obtain ⟨i0, hi0⟩ : ((Finset.Icc 1 n).erase p).Nonempty := Finset.card_pos.1 (by omega)
  have hr : ∀ i ∈ (Finset.Icc 1 n).erase p, 1 ≤ i ∧ i ≤ n := fun i hi => by
    rw [Finset.mem_erase, Finset.mem_Icc] at hi; exact hi.2
  obtain ⟨b, file, hb, hf⟩ := C100_equivocation A hn h1 (by omega) hp1 hp2 hon
    (fun i => if i = i0 then 1 else 0)
  refine ⟨b, file, hb, fun ⟨d, hd, hS⟩ => ?_⟩
  set S := (Finset.Icc 1 n).erase p
  obtain ⟨f, hfp, hf0⟩ := Demo.Keygen.kX_onPolynomial (t := t) (n := n) (rnd := rnd)
    fun k hk => (hon (k + 1) (by omega) (by omega)).coefs_len
  have hrec := hfp.reconstructs hn S hr (by omega)
  have hsum := hS S (Finset.Subset.refl _) (by omega)
  have hdd : d = f.eval 0 := by
    have := (hd i0 hi0).symm.trans (hf i0 hi0).1
    rw [smul_G_inj, sum_Icc_one] at this
    rw [this, hf0]
  have hx : ∀ i ∈ S, lagrangeCoeff S i * (file i).shared_keys.x_i =
      lagrangeCoeff S i * Demo.Keygen.kX n rnd (i - 1) + (if i = i0 then lagrangeCoeff S i else 0) := by
    intro i hi
    have hir := hr i hi
    rw [(hf i hi).2, mul_add]
    congr 1
    · unfold Demo.Keygen.kX Demo.Keygen.kShare
      rw [sum_map_range_eq, sum_Icc_one, Nat.sub_add_cancel hir.1]
    · split <;> simp
  rw [Finset.sum_congr rfl hx, Finset.sum_add_distrib, hrec, hdd, Finset.sum_ite_eq' S i0, if_pos hi0,
    add_eq_left] at hsum
  refine absurd hsum ?_
  unfold lagrangeCoeff
  refine Finset.prod_ne_zero_iff.2 fun j hj => ?_
  obtain ⟨hji, hj⟩ := Finset.mem_erase.1 hj
  have h2 := hr j hj
  have h3 := hr i0 hi0
  refine div_ne_zero (natCast_ne_zero_of (by omega) (by omega)) (sub_ne_zero.2 fun h => ?_)
  exact hji (natCast_inj_of_lt (by omega) (by omega) h)

/-- **C100 is violated** (threshold). A dealer `p` that shows everybody the same commitments, to a polynomial
of degree `t + 1`, is not noticed either: all others finish with the same public key, and no `t + 1` of them
hold its discrete logarithm. -/
theorem C100_threshold_raised (A : Aead) {t n p : ℕ} (hn : n < q) (ht : t < n) (hp1 : 1 ≤ p) (hp2 : p ≤ n)
    {rnd : ℕ → Demo.Keygen.Rand}
    (hon : ∀ i, 1 ≤ i → i ≤ n → i ≠ p → HonestKeygenRand t (rnd i))
    (hdealer : HonestKeygenRand (t + 1) (rnd p)) (hlast : (rnd p).coefs.getLast? ≠ some 0) :
    ∃ b file, HonestKeygens A t n ((Finset.Icc 1 n).erase p) rnd b file ∧
      (∀ i ∈ (Finset.Icc 1 n).erase p, ∀ i' ∈ (Finset.Icc 1 n).erase p, ∀ j, 1 ≤ j → j ≤ n →
        ((b i).b4 j).commitments = ((b i').b4 j).commitments) ∧
      ∃ d, (∀ i ∈ (Finset.Icc 1 n).erase p, (file i).y_sum = d • G) ∧
        ∀ S ⊆ (Finset.Icc 1 n).erase p, S.card = t + 1 →
          ∑ i ∈ S, lagrangeCoeff S i * (file i).shared_keys.x_i ≠ d := by
  have hon' : ∀ i, 1 ≤ i → i ≤ n → ∃ t', HonestKeygenRand t' (rnd i) := by
    intro i i1 i2
    by_cases e : i = p
    · exact ⟨t + 1, e ▸ hdealer⟩
    · exact ⟨t, hon _ (by omega) (by omega) e⟩
  have hmem : ∀ i ∈ (Finset.Icc 1 n).erase p, i ≠ p ∧ 1 ≤ i ∧ i ≤ n := by
    intro i hi
    rw [Finset.mem_erase, Finset.mem_Icc] at hi
    exact hi
  obtain ⟨b, hb, hv⟩ := same_world A ht (fun i hi => (hmem i hi).2)
    (fun i hi => hon i (hmem i hi).2.1 (hmem i hi).2.2 (hmem i hi).1) hon'
  refine ⟨b, _, hb, fun i hi i' hi' j j1 j2 => (hv i j j1).trans (hv i' j j1).symm,
    ∑ k ∈ Finset.range n, (rnd (k + 1)).u, fun i hi => ?_, fun S hS hc => ?_⟩
  · exact Demo.Keygen.kY_sum n rnd
  · obtain ⟨cs, c, hcs, hc0⟩ : ∃ cs c, (rnd p).coefs = cs ++ [c] ∧ c ≠ 0 := by
      have hne : (rnd p).coefs ≠ [] := by
        intro h0; have := hdealer.coefs_len; rw [h0] at this; simp at this
      refine ⟨(rnd p).coefs.dropLast, (rnd p).coefs.getLast hne, (List.dropLast_append_getLast hne).symm,
        fun h0 => hlast ?_⟩
      rw [List.getLast?_eq_getLast_of_ne_nil hne, h0]
    have hl : cs.length = t := by
      have := hdealer.coefs_len
      rw [hcs] at this
      simpa using this
    let P : ℕ → Polynomial Sc := fun j => toPoly ((rnd (j + 1)).u :: (rnd (j + 1)).coefs)
    have hP : (P (p - 1)).degree = (t + 1 : ℕ) := by
      show (toPoly ((rnd (p - 1 + 1)).u :: (rnd (p - 1 + 1)).coefs)).degree = _
      rw [Nat.sub_add_cancel hp1, hcs, ← List.cons_append, degree_toPoly hc0, List.length_cons, hl]
    have hrest : (∑ j ∈ (Finset.range n).erase (p - 1), P j).degree < (t + 1 : ℕ) := by
      refine lt_of_le_of_lt (Polynomial.degree_sum_le _ _) ?_
      rw [Finset.sup_lt_iff (WithBot.bot_lt_coe _)]
      intro j hj
      rw [Finset.mem_erase, Finset.mem_range] at hj
      have := degree_toPoly_lt ((rnd (j + 1)).u :: (rnd (j + 1)).coefs)
      rwa [List.length_cons, (hon (j + 1) (by omega) (by omega) (by omega)).coefs_len] at this
    have hm : p - 1 ∈ Finset.range n := by simp; omega
    have hF : (∑ j ∈ Finset.range n, P j).degree = (t + 1 : ℕ) := by
      rw [← Finset.add_sum_erase _ _ hm, Polynomial.degree_add_eq_left_of_degree_lt, hP]
      rw [hP]; exact hrest
    have hmiss := interpolation_misses hn hF (fun i hi => (hmem i (hS hi)).2) hc
    intro hsum
    refine hmiss ?_
    rw [Polynomial.eval_finsetSum]
    simp only [P, eval_toPoly, evalPoly_zero_cons, Polynomial.eval_finsetSum]
    rw [← hsum]
    refine Finset.sum_congr rfl fun i hi => ?_
    obtain ⟨i1, i2, i3⟩ := hmem i (hS hi)
    congr 1
    show _ = Demo.Keygen.kX n rnd (i - 1)
    unfold Demo.Keygen.kX Demo.Keygen.kShare
    rw [sum_map_range_eq, Nat.sub_add_cancel i2]

end

section examples

attribute [local instance] Toy.crypto

/-- The hypotheses of `C100_files_fit_partial` hold for parties 1 and 3 when party 2 deals like an honest
party. -/
example : ∃ b file, HonestKeygens toyAead 1 3 {1, 3} toyKg b file ∧ FilesFit 1 {1, 3} file := by
  obtain ⟨b, hb, hv⟩ := same_world toyAead (t := 1) (n := 3) (honest := {1, 3}) (rnd := toyKg) (by decide)
    (by decide) (fun i hi => toyKg_honest (by simp at hi; omega) (by simp at hi; omega))
    fun i h1 h2 => ⟨1, toyKg_honest h1 h2⟩
  refine ⟨b, _, hb, C100_files_fit_partial (by decide) (by decide) hb ?_ ?_⟩
  · intro i _ i' _ p _ h1 _
    rw [hv i p h1, hv i' p h1]
  · intro i _ p _ h1 _
    rw [hv i p h1]
    exact le_refl 2

/-- One dealer among three, threshold 1: the two others cannot sign. -/
example : ∃ b file, HonestKeygens toyAead 1 3 ((Finset.Icc 1 3).erase 2) toyKg b file ∧
    ¬ FilesFit 1 ((Finset.Icc 1 3).erase 2) file :=
  C100_files_do_not_fit toyAead (by decide) (by decide) (by decide) (by decide) (by decide)
    fun i h1 h2 => toyKg_honest h1 h2

/-- The samples of a dealer of degree 2 meet the hypotheses of `C100_threshold_raised`. -/
example := C100_threshold_raised toyAead (t := 1) (n := 3) (p := 2) (by decide) (by decide) (by decide)
  (by decide)
  (rnd := Function.update toyKg 2 { toyKg 2 with coefs := [(3 : ZMod 31), (1 : ZMod 31)] })
  (fun i h1 h2 h3 => by rw [Function.update_of_ne h3]; exact toyKg_honest h1 h2)
  (by
    have := toyKg_honest (i := 2) (by decide) (by decide)
    rw [Function.update_self]
    exact ⟨this.u_ne, this.dk_valid, this.dk_large, rfl⟩)
  (by rw [Function.update_self]; decide)

end examples

end Verif.Props
