import Verif.Props.MixedMessages

/-!
# Signers that take their presignatures from different sessions (C128)
-/

namespace Verif.Props

open EC Crypto Spec GG20 GG20.Sign

section
variable [Crypto] {n t : ℕ} {d : Sc} {x : ℕ → Sc} {dk : ℕ → DecKey} {sts : List DLogStatement} {s_l : List ℕ}
  {key : ℕ → LocalKey} {rnd rnd₂ : ℕ → SignRandomness}

/-- The online stage over arbitrary completed offline stages. -/
theorem onlineEnds_any {m : ℕ} {message : ℕ → ℤ} {c : ℕ → CompletedOfflineStage} {X Y : ℕ → ℕ}
    (hR : ∀ i < m, coords (c i).R = some (X i, Y i)) :
    onlineEnds message ((List.range m).map c) =
      .ok ((List.range m).map (fun j => SignManual.complete
        ⟨(X j : Sc), (c j).R, (message j : Sc) * (c j).k_i + (X j : Sc) * (c j).sigma_i, message j, (c j).y_sum_s⟩
        ((Sign.others m j).map (fun i => (message i : Sc) * (c i).k_i + (X i : Sc) * (c i).sigma_i)))) := by
  unfold onlineEnds
  rw [List.length_map, List.length_range, Res.mapM_ok_of_forall (g := fun i =>
      ((⟨(X i : Sc), (c i).R, (message i : Sc) * (c i).k_i + (X i : Sc) * (c i).sigma_i, message i,
          (c i).y_sum_s⟩ : LocalSignature), (message i : Sc) * (c i).k_i + (X i : Sc) * (c i).sigma_i))
      fun i hi => by
        rw [Keygen.get_map_range (by simpa using hi), Res.bind_ok]; exact new_eq (hR i (by simpa using hi)),
    Res.bind_ok]
  congr 1
  refine List.map_congr_left fun i hi => ?_
  have hi : i < m := by simpa using hi
  rw [Keygen.get_map_range hi, Res.bind_ok, List.map_map]
  congr 1
  unfold Sign.others
  rw [filter_range_ne hi, ← List.eraseIdx_map]
  rfl

/-- A signer's share of `k d` depends on its own nonce with the factor `d`. -/
theorem oSigma_shift {rnd rnd' : ℕ → SignRandomness} (hw : ∀ i j, (rnd' i).wBeta j = (rnd i).wBeta j)
    (hd : ∑ k ∈ Finset.range s_l.length, signShare x s_l k = d) {k : ℕ} (hk : k < s_l.length) :
    oSigma x s_l rnd' k = oSigma x s_l rnd k + ((rnd' k).k - (rnd k).k) * d := by
  have e : ∀ r : ℕ → SignRandomness, oSigma x s_l r k = (r k).k * d +
      ((Sign.others s_l.length k).map fun j => (((r j).wBeta k : ℤ) : Sc) - (((r k).wBeta j : ℤ) : Sc)).sum := by
    intro r
    have h1 := sum_others hk (fun j => (r k).k * signShare x s_l j)
    unfold oSigma Sign.others
    rw [← hd, Finset.mul_sum, ← h1, add_assoc, ← List.sum_map_add]
    congr 2
    refine List.map_congr_left fun j _ => ?_
    unfold oMiu oNi
    ring
  rw [e, e]
  simp only [hw]
  ring

/-- **C128.** Two honest offline sessions of the same signers. The signers in the set `A` take their presignature
from the first session and the others from the second one, `a` and `b` being one of each kind; all sign the same
message. Among the first sessions that differ only in how the nonce is divided between `a` and `b`, at most two (of
`q`) let the signer `j`, whoever it is, get a signature.

For the nonce points with x-coordinates `x₁`, `x₂` of the sessions it is assumed that `xᵢ < q` and `p ≤ xᵢ + q` (all
but very few points) and that `message + x₁ d ≠ 0`, without which the first session gives no signature anyway. -/
theorem C128_few (hx : Reconstructs t n x d) (hlen : t + 1 ≤ s_l.length) (message : ℤ) {A : Finset ℕ} {a b j : ℕ}
    (ha : a < s_l.length) (haA : a ∈ A) (hbA : b ∉ A) (hj : j < s_l.length)
    (h₂ : HonestSigners n (d • G) x dk sts s_l key rnd₂) {x₁ y₁ x₂ y₂ : ℕ}
    (hR₁ : coords ((∑ j ∈ Finset.range s_l.length, (rnd j).k)⁻¹ • (G : Pt)) = some (x₁, y₁)) (hx₁ : x₁ < q)
    (hx₁' : p ≤ x₁ + q)
    (hR₂ : coords ((∑ j ∈ Finset.range s_l.length, (rnd₂ j).k)⁻¹ • (G : Pt)) = some (x₂, y₂)) (hx₂ : x₂ < q)
    (hx₂' : p ≤ x₂ + q) (hm : (message : Sc) + (x₁ : Sc) * d ≠ 0) (hb : b < s_l.length) :
    {δ : Sc | ∃ rnd₁, rnd₁ = (fun i => { rnd i with k :=
          if i = a then (rnd i).k + δ else if i = b then (rnd i).k - δ else (rnd i).k }) ∧
        HonestSigners n (d • G) x dk sts s_l key rnd₁ ∧
        ∃ cs₁ cs₂ cs ends sig, offline s_l key rnd₁ = .ok cs₁ ∧ offline s_l key rnd₂ = .ok cs₂ ∧
          cs.length = s_l.length ∧ (∀ k < s_l.length, cs[k]? = if k ∈ A then cs₁[k]? else cs₂[k]?) ∧
          onlineEnds (fun _ => message) cs = .ok ends ∧ ends[j]? = some (.ok sig)}.ncard ≤ 2 := by
  have hd := signShare_sum h₂.members h₂.nodup hx hlen
  have hne : a ≠ b := fun e => hbA (e ▸ haA)
  set K₁ := ∑ i ∈ Finset.range s_l.length, (rnd i).k with hK₁
  set K₂ := ∑ i ∈ Finset.range s_l.length, (rnd₂ i).k with hK₂
  -- the sum of the partial signatures for `δ = 0`
  set S := ∑ i ∈ Finset.range s_l.length, (if i ∈ A then
      (message : Sc) * (rnd i).k + (x₁ : Sc) * oSigma x s_l rnd i else
      (message : Sc) * (rnd₂ i).k + (x₂ : Sc) * oSigma x s_l rnd₂ i) with hS
  set B : Sc := if j ∈ A then ((message : Sc) + (x₁ : Sc) * d) * K₁ else
    ((message : Sc) + (x₂ : Sc) * d) * K₂ with hB
  refine (Set.ncard_le_ncard (t := {(B - S) / ((message : Sc) + (x₁ : Sc) * d),
      (-B - S) / ((message : Sc) + (x₁ : Sc) * d)}) ?_ (Set.toFinite _)).trans
    ((Set.ncard_insert_le _ _).trans (by rw [Set.ncard_singleton]))
  rintro δ ⟨rnd₁, hr₁, hon, cs₁, cs₂, cs, ends, sig, h1, h2, hl, hcs, h3, h4⟩
  have hk₁ : ∀ i, (rnd₁ i).k = if i = a then (rnd i).k + δ else if i = b then (rnd i).k - δ else (rnd i).k :=
    fun i => by rw [hr₁]
  have hw₁ : ∀ i j, (rnd₁ i).wBeta j = (rnd i).wBeta j := fun i j => by rw [hr₁]
  have hdiff : ∀ i, (rnd₁ i).k - (rnd i).k = (if i = a then δ else 0) - (if i = b then δ else 0) := by
    intro i
    rw [hk₁]
    by_cases e1 : i = a
    · subst e1; rw [if_pos rfl, if_pos rfl, if_neg hne]; ring
    · by_cases e2 : i = b
      · subst e2; rw [if_neg e1, if_pos rfl, if_neg e1, if_pos rfl]; ring
      · rw [if_neg e1, if_neg e2, if_neg e1, if_neg e2]; ring
  have hKs : ∑ i ∈ Finset.range s_l.length, (rnd₁ i).k = K₁ := by
    rw [← sub_eq_zero, hK₁, ← Finset.sum_sub_distrib, Finset.sum_congr rfl fun i _ => hdiff i,
      Finset.sum_sub_distrib, Finset.sum_ite_eq', Finset.sum_ite_eq', if_pos (by simpa using ha),
      if_pos (by simpa using hb), sub_self]
  have hoR₁ : oR s_l rnd₁ = K₁⁻¹ • (G : Pt) := by rw [oR_eq hon.gamma_sum, hKs]
  have hoR₂ : oR s_l rnd₂ = K₂⁻¹ • (G : Pt) := oR_eq h₂.gamma_sum
  have hK₁0 : K₁ ≠ 0 := hKs ▸ hon.k_sum
  have hK₂0 : K₂ ≠ 0 := h₂.k_sum
  rw [offline_eq hon hd rfl] at h1
  rw [offline_eq h₂ hd rfl] at h2
  cases h1
  cases h2
  set c : ℕ → CompletedOfflineStage := fun k => if k ∈ A then ⟨(rnd₁ k).k, oR s_l rnd₁, oSigma x s_l rnd₁ k, d • G⟩
    else ⟨(rnd₂ k).k, oR s_l rnd₂, oSigma x s_l rnd₂ k, d • G⟩ with hc
  have hcs' : cs = (List.range s_l.length).map c := by
    refine List.ext_getElem? fun k => ?_
    by_cases hk : k < s_l.length
    · rw [hcs k hk, List.getElem?_map, List.getElem?_map, List.getElem?_map, List.getElem?_range hk, hc]
      split_ifs with hA <;> simp [hA]
    · rw [List.getElem?_eq_none (by omega), List.getElem?_eq_none (by simp; omega)]
  set X : ℕ → ℕ := fun k => if k ∈ A then x₁ else x₂ with hX
  set Y : ℕ → ℕ := fun k => if k ∈ A then y₁ else y₂ with hY
  have hR : ∀ i < s_l.length, coords (c i).R = some (X i, Y i) := by
    intro i _
    rw [hc, hX, hY]
    dsimp only
    split_ifs
    · rw [hoR₁]; exact hR₁
    · rw [hoR₂]; exact hR₂
  rw [hcs', onlineEnds_any hR] at h3
  rw [← Res.ok.inj h3, List.getElem?_map, List.getElem?_range hj, Option.map_some, Option.some.injEq] at h4
  have hsum := sum_others hj (fun i => (message : Sc) * (c i).k_i + (X i : Sc) * (c i).sigma_i)
  have h5 := ((gg20_output_ok_iff _ _ (hR j hj) sig).1 h4).1
  dsimp only at h5
  unfold Sign.others at h5
  rw [hsum] at h5
  have htot : ∑ i ∈ Finset.range s_l.length, ((message : Sc) * (c i).k_i + (X i : Sc) * (c i).sigma_i) =
      S + ((message : Sc) + (x₁ : Sc) * d) * δ := by
    have e : ∀ i ∈ Finset.range s_l.length, (message : Sc) * (c i).k_i + (X i : Sc) * (c i).sigma_i =
        (if i ∈ A then (message : Sc) * (rnd i).k + (x₁ : Sc) * oSigma x s_l rnd i else
          (message : Sc) * (rnd₂ i).k + (x₂ : Sc) * oSigma x s_l rnd₂ i) +
        (if i = a then ((message : Sc) + (x₁ : Sc) * d) * δ else 0) := by
      intro i hi
      have hi : i < s_l.length := by simpa using hi
      rw [hc, hX]
      dsimp only
      by_cases hA : i ∈ A
      · have hib : i ≠ b := fun e => hbA (e ▸ hA)
        rw [if_pos hA, if_pos hA, if_pos hA]
        have e1 := oSigma_shift (x := x) hw₁ hd hi
        have e2 := hdiff i
        rw [if_neg hib, sub_zero] at e2
        dsimp only
        rw [e1, e2, show (rnd₁ i).k = (rnd i).k + (if i = a then δ else 0) by rw [← e2]; ring]
        split_ifs <;> ring
      · have hia : i ≠ a := fun e => hA (e ▸ haA)
        rw [if_neg hA, if_neg hA, if_neg hA, if_neg hia, add_zero]
    rw [Finset.sum_congr rfl e, Finset.sum_add_distrib, Finset.sum_ite_eq', if_pos (by simpa using ha)]
  rw [htot] at h5
  have h6 : S + ((message : Sc) + (x₁ : Sc) * d) * δ = B ∨ S + ((message : Sc) + (x₁ : Sc) * d) * δ = -B := by
    have hRj := hR j hj
    rw [hB]
    rw [hc] at h5 hRj
    rw [hX] at h5 hRj
    dsimp only at h5 hRj
    by_cases hA : j ∈ A
    · simp only [if_pos hA] at h5 hRj ⊢
      have h7 := ((ecdsaEq_at hRj hx₁ hx₁').1 h5).2
      simp only [hoR₁, ← mul_smul, ← add_smul, ← neg_smul, smul_G_inj, ← div_eq_mul_inv, div_eq_iff hK₁0] at h7
      rcases h7 with h7 | h7
      · exact .inl h7
      · exact .inr (by rw [h7, neg_mul])
    · simp only [if_neg hA] at h5 hRj ⊢
      have h7 := ((ecdsaEq_at hRj hx₂ hx₂').1 h5).2
      simp only [hoR₂, ← mul_smul, ← add_smul, ← neg_smul, smul_G_inj, ← div_eq_mul_inv, div_eq_iff hK₂0] at h7
      rcases h7 with h7 | h7
      · exact .inl h7
      · exact .inr (by rw [h7, neg_mul])
  rw [Set.mem_insert_iff, Set.mem_singleton_iff, eq_div_iff hm, eq_div_iff hm]
  rcases h6 with h6 | h6
  · left; linear_combination h6
  · right; linear_combination h6

end

/-! ### Examples -/

section Examples
attribute [local instance] Toy.crypto

/-- The random values of a second session: other nonces. -/
def toySign2 (k : ℕ) : SignRandomness := { toySign k with k := ((4 + k : ℕ) : ZMod 31) }

/-- Two signers with moduli above 1901 and usable auxiliary parameters. -/
theorem toySample2 {N : ℕ → ℕ} (hN : ∀ j < 2, 1902 ≤ N j) {sts : List DLogStatement}
    (hst : ∀ st ∈ sts, 0 < st.N ∧ Int.gcd st.g st.N = 1 ∧ Int.gcd st.ni st.N = 1)
    (w : ℕ → ZMod 31) {k : ℕ} (hk : k < 2) :
    HonestSample 2 N (fun j => (toySign2 j).k) w sts k (toySign2 k) := by
  have hv : ∀ a b : ZMod 31, (((a.val * b.val : ℕ)) : ℤ) ≤ 900 := by decide
  have h1 : Int.gcd 1 = fun x => 1 := by ext x; simp
  constructor
  · simp [toySign2, toySign]
  · intro i; simp [toySign2, toySign]
  · refine in_range_of_bound (by have := hN k hk; omega) hst (fun i => by simp [toySign2, toySign]) ?_
    intro l i
    have h2 := toy_hash_le l
    have h3 := ZMod.val_lt (toySign2 k).k
    have h4 : (hashInts l : ℤ) * (toySign2 k).k.val ≤ 30 * 30 := by
      have h5 : (toySign2 k).k.val ≤ 30 := by
        have : (EC.q : ℕ) = 31 := rfl
        omega
      exact_mod_cast Nat.mul_le_mul h2 h5
    have h6 : ((toySign2 k).alice i).alpha = 100 := rfl
    have h7 : ((EC.q : ℕ) : ℤ) = 31 := rfl
    rw [h6, h7]
    generalize (hashInts l : ℤ) * (toySign2 k).k.val = z at h4
    omega
  · intro j _ _; simp [toySign2, toySign]
  · intro j _ _; simp [toySign2, toySign]
  · intro j _ _; simp [toySign2, toySign]; omega
  · intro j _ _; simp [toySign2, toySign]; omega
  · intro j hj _
    have h1 := hv (toySign2 j).k (toySign2 k).gamma
    have h2 := hN j hj
    have h3 : (toySign2 k).gammaBeta j = 1000 + j := rfl
    rw [h3]
    push_cast at h1
    omega
  · intro j hj _
    have h1 := hv (toySign2 j).k (w k)
    have h2 := hN j hj
    have h3 : (toySign2 k).wBeta j = 900 + j := rfl
    rw [h3]
    push_cast at h1
    omega

theorem toyHonest2 : HonestSigners 3 ((5 : ZMod 31) • (G : Pt)) toyX (fun _ => toyKey)
    [toySt, toySt, toySt] [3, 1] (fun k => toyLocal ([3, 1].getD k 0)) toySign2 :=
  { n_lt := by decide, n_u16 := by decide, nodup := by decide, members := by decide
    holds := by
      intro k hk
      have hb : ∀ k < [3, 1].length, 1 ≤ [3, 1].getD k 0 ∧ [3, 1].getD k 0 ≤ 3 := by decide
      exact ⟨(hb k hk).1, (hb k hk).2, rfl, rfl, rfl, rfl, rfl, rfl, rfl⟩
    aux := ⟨rfl, by decide⟩
    dk_valid := fun _ _ _ => toyKey_valid
    sample := fun k hk => toySample2 (fun _ _ => by decide) (by decide) _ hk
    k_sum := by decide
    gamma_sum := by decide }

/-- C128: signer 3 takes its presignature from the session of C39, signer 1 from a second one. -/
example := C128_few (sts := [toySt, toySt, toySt]) (dk := fun _ => toyKey)
  (key := fun k => toyLocal ([3, 1].getD k 0)) (rnd := toySign) (rnd₂ := toySign2) (x := toyX) (d := (5 : ZMod 31))
  (by
    have hrec := toyX_poly.reconstructs (by decide)
    have h0 : (Polynomial.C (5 : ZMod 31) + Polynomial.C (7 : ZMod 31) * Polynomial.X).eval 0 = 5 := by simp
    exact h0 ▸ hrec) (by decide) 10 (A := {0}) (a := 0) (b := 1) (j := 0) (by decide) (by decide) (by decide) (by decide)
  toyHonest2 toyHonest_nonce (by decide) (by decide)
  (show coords ((∑ j ∈ Finset.range [3, 1].length, (toySign2 j).k)⁻¹ • (G : Pt)) = some (25, 18) by decide +kernel)
  (by decide) (by decide) (by decide) (by decide)

end Examples
end Verif.Props
