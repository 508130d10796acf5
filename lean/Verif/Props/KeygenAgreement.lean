import Verif.Lemmas.KeygenAgree
import Verif.Lemmas.KeygenEquiv
import Verif.Props.Keygen

/-!
# C84: agreement among the honest parties of a key generation
-/

namespace Verif.Props

open EC Crypto GG20 Spec

section
variable [Crypto] {t n : ℕ} {honest : Finset ℕ} {rnd : ℕ → KeygenRandomness}
  {b1 : ℕ → ℕ → KeyGenBroadcastMessage1} {b2 : ℕ → ℕ → KeyGenDecommitMessage1}
  {b3 : ℕ → ℕ → Vss × Sc} {b4 : ℕ → ℕ → DLogProof} {key : ℕ → LocalKey}

/-- **C84** (what holds). At least `t + 1` honest parties completed key generation, and none of them
received a commitment vector longer than `t + 1`: then their keys belong together, whatever the other
parties sent, and whether or not they sent everybody the same.

Missing with respect to the property: the code does not check the lengths (see
`C84_public_keys_differ`), and nothing forces agreement on the Paillier keys and auxiliary parameters of
dishonest parties (see `C84_auxiliary_data_differ`). -/
theorem C84_keys_fit_partial (hn : n < q) (h : HonestKeygens t n honest rnd b1 b2 b3 b4 key)
    (hcard : t + 1 ≤ honest.card)
    (hlen : ∀ i ∈ honest, ∀ p ∉ honest, 1 ≤ p → p ≤ n →
      (b3 i p).1.commitments.length ≤ t + 1) :
    KeysFit t honest key := by
  have ht : t < n := by
    have : honest.card ≤ n := by
      have := Finset.card_le_card (s := honest) (t := Finset.Icc 1 n) fun i hi =>
        Finset.mem_Icc.2 (h.range i hi)
      simpa using this
    omega
  have hseen : ∀ i ∈ honest, ∃ bcs ys all pfs, Keygen.Seen (rnd i) (i - 1) t n (b1 i) (b2 i) (b3 i)
      (b4 i) (keygenLine (rnd i) i t n (b1 i) (b2 i) (b3 i) (b4 i)).1 (key i) bcs ys all pfs := by
    intro i hi
    obtain ⟨k, rfl⟩ : ∃ k, i = k + 1 := ⟨i - 1, by have := h.range i hi; omega⟩
    exact Keygen.keygenLine_seen ht (h.range _ hi).2 (h.completed _ hi)
  choose! bcs ys all pfs hs using hseen
  have hx : ∀ i ∈ honest, (key i).keys_linear.x_i = ((all i).map Prod.snd).sum := fun i hi =>
    (hs i hi).x_i
  -- what the honest parties know of each other
  have hmsg : ∀ i ∈ honest, ∀ p ∈ honest,
      (pfs i)[p - 1]? = some (DLogProof.prove (key p).keys_linear.x_i (rnd p).dlogNonce) ∧
      (bcs i)[p - 1]? = some (((Keys.create p (rnd p).u (rnd p).dk (rnd p).aux).phase1_broadcast
        (rnd p).blind (rnd p).cd1 (rnd p).cd2).1) := by
    intro i hi p hp
    have hpr := h.range p hp
    have hir := h.range i hi
    have hsp := hs p hp
    have hm := hsp.mem_sent
    rw [Nat.sub_add_cancel hpr.1] at hm
    rw [(hs i hi).pfs_eq, (hs i hi).bcs_eq, Keygen.assemble_get _ _ (by omega),
      Keygen.assemble_get _ _ (by omega), hx p hp, Nat.sub_add_cancel hpr.1, Nat.sub_add_cancel hir.1]
    by_cases e : p = i
    · subst e; simp
    · rw [if_neg (by omega), if_neg (by omega)]
      obtain ⟨g1, -, -, g4⟩ := h.genuine i hi p hp e
      rw [hm.1 _ g1, hm.2.2 _ g4]
      exact ⟨rfl, rfl⟩
  have hall : ∀ i ∈ honest, ∀ v ∈ all i, v.1.commitments.length ≤ t + 1 := by
    intro i hi v hv
    have hir := h.range i hi
    rw [(hs i hi).all_eq] at hv
    obtain ⟨j, hj, rfl⟩ := List.mem_map.1 hv
    have hj : j < n := by simpa using hj
    by_cases e : j = i - 1
    · rw [if_pos e]; simp [h.coefs i hi]
    · rw [if_neg e]
      by_cases hp : j + 1 ∈ honest
      · obtain ⟨-, -, g3, -⟩ := h.genuine i hi (j + 1) hp (by omega)
        have := (hs (j + 1) hp).mem_sent.2.1 i (b3 i (j + 1)) g3
        rw [this]; simp [h.coefs _ hp]
      · exact hlen i hi _ hp (by omega) hj
  have hpoly : ∀ i ∈ honest, ∃ F : Polynomial Sc, F.degree < (t + 1 : ℕ) ∧
      (ys i).sum = F.eval 0 • G ∧ ∀ p ∈ honest, (key p).keys_linear.x_i = F.eval (p : Sc) := by
    intro i hi
    obtain ⟨F, f1, f2, f3⟩ := (hs i hi).exists_poly (hall i hi)
    refine ⟨F, f1, f2, fun p hp => ?_⟩
    have hpr := h.range p hp
    obtain ⟨pf, e1, e2⟩ := f3 (p - 1) (by omega)
    rw [(hmsg i hi p hp).1, Option.some.injEq] at e1
    rw [← e1, DLogProof.prove_pk, smul_G_inj, Nat.sub_add_cancel hpr.1] at e2
    exact e2
  choose! F f1 f2 f3 using hpoly
  obtain ⟨h0, hh0⟩ : honest.Nonempty := Finset.card_pos.1 (by omega)
  have hinj : Set.InjOn (fun i : ℕ => (i : Sc)) honest := by
    intro i hi j hj hij
    exact natCast_inj_of_lt (lt_of_le_of_lt (h.range i hi).2 hn)
      (lt_of_le_of_lt (h.range j hj).2 hn) hij
  have hF : ∀ i ∈ honest, F i = F h0 := by
    intro i hi
    refine Polynomial.eq_of_degrees_lt_of_eval_index_eq honest (v := fun i : ℕ => (i : Sc)) hinj
      (lt_of_lt_of_le (f1 i hi) (by exact_mod_cast hcard))
      (lt_of_lt_of_le (f1 h0 hh0) (by exact_mod_cast hcard)) fun p hp => ?_
    rw [← f3 i hi p hp, ← f3 h0 hh0 p hp]
  refine ⟨(F h0).eval 0, fun i hi => ?_, fun S hS hc => ?_, fun i hi j hj => ?_⟩
  · rw [(hs i hi).public_key, f2 i hi, hF i hi]
  · have hon : OnPolynomial t n (fun i => (F h0).eval (i : Sc)) (F h0) :=
      ⟨f1 h0 hh0, fun _ _ _ => rfl⟩
    rw [← hon.reconstructs hn S (fun i hi => h.range i (hS hi)) hc]
    refine Finset.sum_congr rfl fun i hi => ?_
    rw [f3 h0 hh0 i (hS hi)]
  · rw [(hs i hi).pk_vec, (hs i hi).paillier_key_vec, List.getElem?_map, List.getElem?_map,
      (hmsg i hi j hj).1, (hmsg i hi j hj).2, (hs j hj).dk]
    exact ⟨rfl, rfl⟩

/-- **C84** (party 1 is honest). Then the lengths need not be assumed: the last round of a party that
received a longer vector would have panicked. -/
theorem C84_keys_fit_party_one (hn : n < q) (h : HonestKeygens t n honest rnd b1 b2 b3 b4 key)
    (hcard : t + 1 ≤ honest.card) (h1 : 1 ∈ honest) : KeysFit t honest key := by
  have ht : t < n := by
    have : honest.card ≤ n := by
      have := Finset.card_le_card (s := honest) (t := Finset.Icc 1 n) fun i hi =>
        Finset.mem_Icc.2 (h.range i hi)
      simpa using this
    omega
  refine C84_keys_fit_partial hn h hcard fun i hi p hp hp1 hpn => ?_
  have hir := h.range i hi
  obtain ⟨k, rfl⟩ : ∃ k, i = k + 1 := ⟨i - 1, by omega⟩
  obtain ⟨bcs, ys, all, pfs, hs⟩ := Keygen.keygenLine_seen ht hir.2 (h.completed _ hi)
  obtain ⟨v0, e0, hle⟩ := hs.le_first (by omega)
  have hv0 : v0.1.commitments.length = t + 1 := by
    rw [hs.all_eq, Keygen.assemble_get _ _ (by omega), Option.some.injEq] at e0
    subst e0
    by_cases e : k = 0
    · rw [if_pos e.symm]; simp [h.coefs _ hi]
    · rw [if_neg (Ne.symm e)]
      obtain ⟨_, _, _, _, hs1⟩ := Keygen.keygenLine_seen ht (show 0 < n by omega) (h.completed _ h1)
      obtain ⟨-, -, g3, -⟩ := h.genuine (k + 1) hi 1 h1 (by omega)
      rw [hs1.mem_sent.2.1 (k + 1) _ g3]
      simp [h.coefs _ h1]
  rw [← hv0]
  refine hle _ ?_
  rw [hs.all_eq]
  refine List.mem_map.2 ⟨p - 1, by simp; omega, ?_⟩
  have : p ≠ k + 1 := fun e => hp (e ▸ hi)
  rw [if_neg (by omega), Nat.sub_add_cancel hp1]

/-- **C84** (violation: public keys). All parties but party 1 run the program.  Party 1 can choose, for
every other party `i`, a value `δ i`, and make all of them finish with party `i` holding the public key
`d + δ i` times the generator; the messages among the others are genuine.  If `t + 2 ≤ n` there are at
least `t + 1` honest parties; party 1's commitment vectors are then longer than `t + 1`. -/
theorem C84_public_keys_differ (ht : t < n) (hn : n < q)
    (hon : ∀ k < n, Keygen.HonestRandomness t (rnd k)) (δ : ℕ → Sc) :
    ∃ b1 b2 b3 b4 key,
      HonestKeygens t n (Finset.Icc 2 n) (fun i => rnd (i - 1)) b1 b2 b3 b4 key ∧
      ∀ i ∈ Finset.Icc 2 n,
        (key i).public_key = (∑ k ∈ Finset.range n, (rnd k).u + δ i) • G := by
  have hne : ∀ j ∈ Finset.Icc 2 n, (0 : Sc) - (j : Sc) ≠ 0 := by
    intro j hj e
    have hj := Finset.mem_Icc.1 hj
    have : ((0 : ℕ) : Sc) = (j : Sc) := by
      rw [Nat.cast_zero]; exact sub_eq_zero.1 e
    have := natCast_inj_of_lt q_prime.out.pos (by omega) this
    omega
  let g : Polynomial Sc := ∏ j ∈ Finset.Icc 2 n, (Polynomial.X - Polynomial.C (j : Sc))
  have hg0 : g.eval 0 ≠ 0 := by
    simp only [g, Polynomial.eval_prod, Polynomial.eval_sub, Polynomial.eval_X, Polynomial.eval_C]
    exact Finset.prod_ne_zero_iff.2 hne
  have hgj : ∀ j ∈ Finset.Icc 2 n, g.eval (j : Sc) = 0 := by
    intro j hj
    simp only [g, Polynomial.eval_prod, Polynomial.eval_sub, Polynomial.eval_X, Polynomial.eval_C]
    exact Finset.prod_eq_zero hj (sub_self _)
  have hgd : g.degree < (n : ℕ) := by
    rw [Polynomial.degree_prod]
    simp only [Polynomial.degree_X_sub_C, Finset.sum_const, Nat.card_Icc, nsmul_eq_mul, mul_one]
    exact_mod_cast (by omega : n + 1 - 2 < n)
  have hF : ∀ i, ∃ cs : List Sc, cs.length = n ∧ toPoly cs =
      toPoly ((rnd 0).u :: (rnd 0).coefs) + Polynomial.C (δ i / g.eval 0) * g := by
    intro i
    refine exists_toPoly (lt_of_le_of_lt (Polynomial.degree_add_le _ _) (max_lt ?_ ?_))
    · refine lt_of_lt_of_le (degree_toPoly_lt _) ?_
      rw [List.length_cons, (hon 0 (by omega)).coefs_len]
      exact_mod_cast ht
    · rw [← Polynomial.smul_eq_C_mul]
      exact lt_of_le_of_lt (Polynomial.degree_smul_le _ _) hgd
  choose cs hcl hcs using hF
  have hsplit : ∀ i, ∃ u l, cs i = u :: l ∧ l.length = n - 1 := by
    intro i
    have := hcl i
    cases h : cs i with
    | nil => rw [h] at this; simp at this; omega
    | cons u l => rw [h] at this; exact ⟨u, l, rfl, by simpa using (by simp at this; omega)⟩
  choose u l hul hll using hsplit
  let V : ℕ → ℕ → KeygenRandomness := fun i k =>
    if k = 0 then { rnd 0 with u := u i, coefs := l i } else rnd k
  have hev : ∀ i x, evalPoly (u i :: l i) x =
      evalPoly ((rnd 0).u :: (rnd 0).coefs) x + δ i / g.eval 0 * g.eval x := by
    intro i x
    rw [← hul, ← eval_toPoly, hcs, Polynomial.eval_add, eval_toPoly, Polynomial.eval_mul,
      Polynomial.eval_C]
  have hk := Keygen.equivocation (t := t) (n := n) (R := rnd) (V := V) ht
    (fun i k hk => if_neg (by omega)) (fun k _ hk => hon k hk)
    (fun i => ⟨n - 1, by omega, by
      have h := hon 0 (by omega)
      exact ⟨h.dk_valid, h.dk_large, h.dk_size, h.aux_gen, hll i⟩⟩)
    (fun i j h1 h2 => by
      have hj : j + 1 ∈ Finset.Icc 2 n := Finset.mem_Icc.2 ⟨by omega, by omega⟩
      show evalPoly (u i :: l i) ((j + 1 : ℕ) : Sc) = evalPoly (u (j + 1) :: l (j + 1)) ((j + 1 : ℕ) : Sc)
      rw [hev, hev, hgj _ hj, mul_zero, mul_zero])
  refine ⟨_, _, _, _, _, hk, fun i hi => ?_⟩
  show ((List.range n).map (fun j => (V i j).u • G)).sum = _
  obtain ⟨m, rfl⟩ : ∃ m, n = m + 1 := ⟨n - 1, by omega⟩
  have hu : u i = (rnd 0).u + δ i := by
    have := hev i 0
    rw [evalPoly_zero_cons, evalPoly_zero_cons, div_mul_cancel₀ _ hg0] at this
    exact this
  rw [sum_map_range_eq, Finset.sum_range_succ', Finset.sum_range_succ', ← Finset.sum_smul, ← add_smul]
  congr 1
  show ∑ k ∈ Finset.range m, (rnd (k + 1)).u + u i = _
  rw [hu, add_assoc]

/-- **C84** (violation: Paillier keys and auxiliary parameters). Party 1 can announce other Paillier keys
and auxiliary parameters to each of the other parties (`A i` are the random values with which it acts
towards party `i`; the polynomial is the same for all).  All of the others finish, with one public key,
but with different ideas of party 1's Paillier modulus and auxiliary parameters. -/
theorem C84_auxiliary_data_differ (ht : t < n) (hon : ∀ k < n, Keygen.HonestRandomness t (rnd k))
    (A : ℕ → KeygenRandomness) (hA : ∀ i, Keygen.HonestRandomness t (A i))
    (hu : ∀ i, (A i).u = (rnd 0).u) (hc : ∀ i, (A i).coefs = (rnd 0).coefs) :
    ∃ b1 b2 b3 b4 key,
      HonestKeygens t n (Finset.Icc 2 n) (fun i => rnd (i - 1)) b1 b2 b3 b4 key ∧
      (∀ i ∈ Finset.Icc 2 n, (b3 i 1).1.commitments.length = t + 1) ∧
      ∀ i ∈ Finset.Icc 2 n,
        (key i).public_key = (∑ k ∈ Finset.range n, (rnd k).u) • G ∧
        (key i).paillier_key_vec[0]? = some (A i).dk.n ∧
        (key i).h1_h2_n_tilde_vec[0]? = some ⟨(A i).aux.1, (A i).aux.2.1, (A i).aux.2.2.1⟩ := by
  let V : ℕ → ℕ → KeygenRandomness := fun i k => if k = 0 then A i else rnd k
  have hk := Keygen.equivocation (t := t) (n := n) (R := rnd) (V := V) ht
    (fun i k hk => if_neg (by omega)) (fun k _ hk => hon k hk) (fun i => ⟨t, le_refl _, hA i⟩)
    (fun i j h1 h2 => by
      show evalPoly ((A i).u :: (A i).coefs) ((j + 1 : ℕ) : Sc) =
        evalPoly ((A (j + 1)).u :: (A (j + 1)).coefs) ((j + 1 : ℕ) : Sc)
      rw [hu, hu, hc, hc])
  refine ⟨_, _, _, _, _, hk, fun i hi => ?_, fun i hi => ⟨?_, ?_, ?_⟩⟩
  · show (((A i).u :: (A i).coefs).map _).length = _
    simp [(hA i).coefs_len]
  · show ((List.range n).map (fun j => (V i j).u • G)).sum = _
    rw [sum_map_range_eq, Finset.sum_smul]
    refine Finset.sum_congr rfl fun k _ => ?_
    by_cases e : k = 0
    · subst e; show (A i).u • (G : Pt) = _; rw [hu]
    · simp only [V]; rw [if_neg e]
  · show ((List.range n).map (fun j => (V i j).dk.n))[0]? = _
    rw [List.getElem?_map, List.getElem?_range (by omega)]
    rfl
  · show ((List.range n).map (fun j => (Keygen.rBc (V i) j).dlog_statement))[0]? = _
    rw [List.getElem?_map, List.getElem?_range (by omega)]
    rfl

end

section
variable [Crypto]

/-- C84 (positive part): an honest execution among any number of parties meets the hypotheses, for every
set of honest parties. -/
example {t n : ℕ} (ht : t < n) (hn : n < q) {rnd : ℕ → KeygenRandomness}
    (hon : ∀ k < n, Keygen.HonestRandomness t (rnd k)) (hn2 : t + 2 ≤ n) :
    ∃ b1 b2 b3 b4 key,
      HonestKeygens t n (Finset.Icc 2 n) (fun i => rnd (i - 1)) b1 b2 b3 b4 key ∧
      KeysFit t (Finset.Icc 2 n) key := by
  obtain ⟨b1, b2, b3, b4, key, h, hl, -⟩ := C84_auxiliary_data_differ ht hon (fun _ => rnd 0)
    (fun _ => hon 0 (by omega)) (fun _ => rfl) (fun _ => rfl)
  refine ⟨b1, b2, b3, b4, key, h, C84_keys_fit_partial hn h (by simp; omega) fun i hi p hp h1 h2 => ?_⟩
  obtain rfl : p = 1 := by
    by_contra hne
    exact hp (Finset.mem_Icc.2 ⟨by omega, h2⟩)
  exact (hl i hi).le

end

section
variable [Crypto]

/-- C84 (violation): party 1 tells the other parties different auxiliary parameters. -/
example (t n : ℕ) (ht : t < n) (hn : 3 ≤ n) (u : Sc) (coefs : List Sc) (hl : coefs.length = t) :
    ∃ rnd b1 b2 b3 b4 key, HonestKeygens t n (Finset.Icc 2 n) rnd b1 b2 b3 b4 key ∧
      (key 2).public_key = (key 3).public_key ∧
      (key 2).h1_h2_n_tilde_vec[0]? ≠ (key 3).h1_h2_n_tilde_vec[0]? := by
  obtain ⟨r, hr, r1, r2, r3⟩ := honestRandomness_exists_h1 t u coefs hl 2 big_gcd_two
  obtain ⟨s, hs, s1, s2, s3⟩ := honestRandomness_exists_h1 t u coefs hl 3 big_gcd_three
  obtain ⟨b1, b2, b3, b4, key, h, -, hk⟩ := C84_auxiliary_data_differ ht (rnd := fun _ => r)
    (fun _ _ => hr) (fun i => if i = 2 then r else s) (fun i => by split <;> assumption)
    (fun i => by split; rfl; rw [s1, r1])
    (fun i => by split; rfl; rw [s2, r2])
  obtain ⟨a1, -, a3⟩ := hk 2 (Finset.mem_Icc.2 ⟨by omega, by omega⟩)
  obtain ⟨c1, -, c3⟩ := hk 3 (Finset.mem_Icc.2 ⟨by omega, by omega⟩)
  refine ⟨_, b1, b2, b3, b4, key, h, a1.trans c1.symm, ?_⟩
  rw [a3, c3]
  intro e
  have := congrArg DLogStatement.g (Option.some.inj e)
  simp [r3, s3] at this

end

section
attribute [local instance] Toy.crypto

/-- C84 (violation): in a 2-of-3 key generation on the 31-point group, parties 2 and 3 are honest and finish
with different public keys. -/
example : ∃ rnd b1 b2 b3 b4 key,
    HonestKeygens 1 3 (Finset.Icc 2 3) rnd b1 b2 b3 b4 key ∧
    (key 2).public_key ≠ (key 3).public_key := by
  have hex := fun k : ℕ => honestRandomness_exists 1 ((k + 2 : ℕ) : ZMod 31) [(7 : ZMod 31)] rfl
  choose rnd hon hu _ using hex
  obtain ⟨b1, b2, b3, b4, key, h, hk⟩ := C84_public_keys_differ (t := 1) (n := 3) (by decide)
    (by decide) (fun k _ => hon k) (fun i => if i = 2 then (0 : ZMod 31) else (1 : ZMod 31))
  refine ⟨_, b1, b2, b3, b4, key, h, ?_⟩
  rw [hk 2 (by decide), hk 3 (by decide), ne_eq, smul_G_inj]
  simp

end
end Verif.Props
