import Verif.Spec.Demo
import Verif.Lemmas.DemoRounds
import Verif.Lemmas.GG18Keygen
import Verif.Lemmas.Bytes

/-! Helper lemmas on the honest run of the key generation clients. -/

namespace Verif.Demo.Keygen

open EC Crypto GG18 Spec

variable [Crypto]

/-- Party `k + 1`'s values. -/
def kKeys (rnd : ℕ → Rand) (k : ℕ) : Keys := Keys.create (k + 1) (rnd (k + 1)).u (rnd (k + 1)).dk

def kBc (rnd : ℕ → Rand) (k : ℕ) : KeyGenBroadcastMessage1 :=
  ((kKeys rnd k).phase1_broadcast (rnd (k + 1)).blind).1

def kDec (rnd : ℕ → Rand) (k : ℕ) : KeyGenDecommitMessage1 :=
  ((kKeys rnd k).phase1_broadcast (rnd (k + 1)).blind).2

def kVss (t n : ℕ) (rnd : ℕ → Rand) (k : ℕ) : Vss :=
  ⟨t, n, ((rnd (k + 1)).u :: (rnd (k + 1)).coefs).map (fun c => c • G)⟩

/-- Share of dealer `j + 1` for party `k + 1`. -/
def kShare (rnd : ℕ → Rand) (j k : ℕ) : Sc :=
  evalPoly ((rnd (j + 1)).u :: (rnd (j + 1)).coefs) ((k + 1 : ℕ) : Sc)

def kX (n : ℕ) (rnd : ℕ → Rand) (k : ℕ) : Sc := ((List.range n).map (fun j => kShare rnd j k)).sum

def kPf (n : ℕ) (rnd : ℕ → Rand) (k : ℕ) : DLogProof :=
  DLogProof.prove (kX n rnd k) (rnd (k + 1)).dlogNonce

/-- The key shared by parties `k + 1` and `j + 1`. -/
def kEnc (rnd : ℕ → Rand) (k j : ℕ) : List UInt8 :=
  match (pad32 (toBytes ((xc ((rnd (k + 1)).u • (rnd (j + 1)).u • (G : Pt))).getD 0 : ℕ)) : Res Empty _) with
  | .ok bs => bs
  | _ => []

def kY (rnd : ℕ → Rand) (k : ℕ) : Pt := (rnd (k + 1)).u • G

def kCt (A : Aead) (rnd : ℕ → Rand) (k j : ℕ) : A.Ct :=
  A.enc (kEnc rnd k j) (toBytes (kShare rnd k j).val) ((rnd (k + 1)).aesNonce (j + 1))

/-- The key file of party `k + 1`. -/
def kFile (t n : ℕ) (rnd : ℕ → Rand) (k : ℕ) : KeyFile :=
  { party_keys := kKeys rnd k
    shared_keys := ⟨((List.range n).map (kY rnd)).sum, kX n rnd k⟩
    party_id := k + 1
    vss_scheme_vec := (List.range n).map (kVss t n rnd)
    paillier_key_vector := (List.range n).map (fun j => (rnd (j + 1)).dk.n)
    y_sum := ((List.range n).map (kY rnd)).sum }

theorem kEnc_comm (rnd : ℕ → Rand) (k j : ℕ) : kEnc rnd k j = kEnc rnd j k := by
  unfold kEnc
  rw [smul_smul, smul_smul, mul_comm]

theorem encKey_ok {rnd : ℕ → Rand} {k j : ℕ} (h1 : (rnd (k + 1)).u ≠ 0) (h2 : (rnd (j + 1)).u ≠ 0) :
    encKey (kKeys rnd k).u_i (kDec rnd j) = .ok (kEnc rnd k j) ∧ (kEnc rnd k j).length = 32 := by
  have hne : (rnd (k + 1)).u • (rnd (j + 1)).u • (G : Pt) ≠ 0 := by
    rw [smul_smul, ne_eq, smul_G_eq_zero]
    exact mul_ne_zero h1 h2
  obtain ⟨x, y, hc⟩ := exists_coords hne
  have hx : xc ((rnd (k + 1)).u • (rnd (j + 1)).u • (G : Pt)) = some x := by rw [xc, hc]; rfl
  obtain ⟨bs, hbs, hl, -⟩ := pad32_toBytes (ε := Empty) (n := (x : ℤ))
    (lt_trans (coords_lt _ _ _ hc).1 p_lt)
  show (do let x ← Res.ofOption (xc ((rnd (k + 1)).u • (rnd (j + 1)).u • (G : Pt)));
           pad32 (toBytes (x : ℤ))) = _ ∧ _
  unfold kEnc
  rw [hx, Res.ofOption_some, Res.bind_ok, Option.getD_some, hbs]
  exact ⟨rfl, hl⟩

theorem encShares_eq (A : Aead) (num : ℕ) (enc_keys : List (List UInt8)) (shares : List Sc)
    (nonce : ℕ → ℕ) (b : ℕ → List UInt8) (s : ℕ → Sc) :
    ∀ (is : List ℕ) (j : ℕ), (∀ i ∈ is, shares[i - 1]? = some (s i)) →
      enc_keys.drop j = (is.filter (fun i => decide (i ≠ num))).map b →
      encShares A num enc_keys shares nonce is j =
        .ok ((is.filter (fun i => decide (i ≠ num))).map
          (fun i => ⟨num, some i, A.enc (b i) (toBytes (s i).val) (nonce i)⟩))
  | [], j, _, _ => rfl
  | i :: is, j, hs, h => by
    by_cases hi : i = num
    · have h' : enc_keys.drop j = (is.filter (fun i => decide (i ≠ num))).map b := by
        simpa [hi] using h
      rw [encShares, if_pos hi, encShares_eq A num enc_keys shares nonce b s is j
        (fun a ha => hs a (by simp [ha])) h']
      simp [hi]
    · have h1 : enc_keys.drop j = b i :: (is.filter (fun i => decide (i ≠ num))).map b := by
        simpa [hi] using h
      have hget : enc_keys[j]? = some (b i) := by
        have := congrArg (fun l => l[0]?) h1
        simpa using this
      have h' : enc_keys.drop (j + 1) = (is.filter (fun i => decide (i ≠ num))).map b := by
        rw [← List.tail_drop, h1]; rfl
      rw [encShares, if_neg hi]
      simp only [Res.get, hget, hs i (by simp), Res.ofOption_some, Res.bind_ok,
        encShares_eq A num enc_keys shares nonce b s is (j + 1) (fun a ha => hs a (by simp [ha])) h']
      simp [hi]

section run

variable (A : Aead) {t n : ℕ} (ht : t < n) {rnd : ℕ → Rand}
  (hon : ∀ k < n, ∃ t', Spec.GG18.HonestKeygenRand t' (rnd (k + 1)))

theorem round2_ok {k : ℕ} (hk : k < n) :
    round2 (k + 1) ⟨kKeys rnd k, kBc rnd k, kDec rnd k⟩ ((GG20.Sign.others n k).map (kBc rnd)) =
      .ok (⟨kKeys rnd k, (List.range n).map (kBc rnd), kDec rnd k⟩,
        [⟨k + 1, none, kDec rnd k⟩]) := by
  unfold round2
  have hl : k + 1 - 1 ≤ ((GG20.Sign.others n k).map (kBc rnd)).length := by
    rw [List.length_map, length_others hk]; omega
  have := intoVecIncludingMe_filter hk (kBc rnd)
  rw [decide_eq_true hl, Res.assert_true, Res.bind_ok]
  congr 1
  simp only [Prod.mk.injEq, and_true, St2.mk.injEq, true_and]
  exact this

include ht hon in
theorem round3_ok {k : ℕ} (hk : k < n) :
    round3 A ⟨t, n⟩ rnd (k + 1) ⟨kKeys rnd k, (List.range n).map (kBc rnd), kDec rnd k⟩
      ((GG20.Sign.others n k).map (kDec rnd)) =
      .ok (⟨kKeys rnd k, (List.range n).map (kBc rnd), (List.range n).map (kY rnd),
          (GG20.Sign.others n k).map (kEnc rnd k), ((List.range n).map (kY rnd)).sum,
          kVss t n rnd k, (List.range n).map (kShare rnd k)⟩,
        (GG20.Sign.others n k).map (fun i => ⟨k + 1, some (i + 1), kCt A rnd k i⟩)) := by
  unfold round3
  have e1 : Res.mapM (encKey (kKeys rnd k).u_i) ((GG20.Sign.others n k).map (kDec rnd)) =
      .ok ((GG20.Sign.others n k).map (kEnc rnd k)) := by
    have : ∀ l : List ℕ, (∀ j ∈ l, j < n) →
        Res.mapM (encKey (kKeys rnd k).u_i) (l.map (kDec rnd)) = .ok (l.map (kEnc rnd k)) := by
      intro l hl
      induction l with
      | nil => rfl
      | cons a l ih =>
        rw [List.map_cons, Res.mapM, (encKey_ok (hon k hk).choose_spec.u_ne (hon a (hl a (by simp))).choose_spec.u_ne).1,
          Res.bind_ok, ih fun j hj => hl j (by simp [hj])]
        rfl
    exact this _ fun j hj => (GG20.Sign.mem_others.1 hj).1
  simp only [reassemble_others, Res.bind_ok, e1, List.map_map]
  have e2 : (fun d : KeyGenDecommitMessage1 => d.y_i) ∘ kDec rnd = kY rnd := rfl
  rw [e2]
  have hne : (List.range n).map (kY rnd) ≠ [] := by simp; omega
  obtain ⟨y, ys, hys⟩ := List.exists_cons_of_ne_nil hne
  rw [hys]
  simp only
  have hv : ∀ i < n, Spec.GG18.ValidBroadcastAt ((List.range n).map (kBc rnd))
      ((List.range n).map (kDec rnd)) i := fun i hi =>
    ⟨kBc rnd i, kDec rnd i, by simp [hi], by simp [hi], rfl, ck_complete _ (hon i hi).choose_spec.dk_valid (hon i hi).choose_spec.dk_large⟩
  rcases phase1_cases (kKeys rnd k) ht (decoms := (List.range n).map (kDec rnd))
    (bcs := (List.range n).map (kBc rnd)) (rnd (k + 1)).coefs (by simp) (by simp) with
    ⟨-, h⟩ | ⟨i, hi, hbad, -⟩
  · rw [h]
    have e3 : (List.range n).map
        (fun i => evalPoly ((kKeys rnd k).u_i :: (rnd (k + 1)).coefs) ((i + 1 : ℕ) : Sc)) =
        (List.range n).map (kShare rnd k) := rfl
    rw [e3]
    simp only [Res.unwrap, Res.bind_ok]
    rw [encShares_eq A (k + 1) _ _ _ (fun i => kEnc rnd k (i - 1)) (fun i => kShare rnd k (i - 1))]
    · simp only [Res.bind_ok]
      rw [filter_range'_others, GG20.foldl_add_head]
      rfl
    · intro i hi
      rw [List.mem_range'_1] at hi
      rw [List.getElem?_map, List.getElem?_range (by omega)]
      rfl
    · rw [List.drop_zero, filter_range'_others]
      rfl
  · exact absurd (hv i hi) hbad

include hon in
theorem round4_ok {k : ℕ} (hk : k < n) :
    round4 A ⟨t, n⟩ (k + 1) ⟨kKeys rnd k, (List.range n).map (kBc rnd), (List.range n).map (kY rnd),
          (GG20.Sign.others n k).map (kEnc rnd k), ((List.range n).map (kY rnd)).sum,
          kVss t n rnd k, (List.range n).map (kShare rnd k)⟩
      ((GG20.Sign.others n k).map (fun j => kCt A rnd j k)) =
      .ok (⟨kKeys rnd k, (List.range n).map (kBc rnd), (List.range n).map (kY rnd),
          ((List.range n).map (kY rnd)).sum, kVss t n rnd k,
          (List.range n).map (fun j => kShare rnd j k)⟩, [⟨k + 1, none, kVss t n rnd k⟩]) := by
  unfold round4
  have e1 : Res.mapM (decShare A ((GG20.Sign.others n k).map (kEnc rnd k))
      ((GG20.Sign.others n k).map (fun j => kCt A rnd j k))) (List.range (n - 1)) =
      .ok ((GG20.Sign.others n k).map (fun j => kShare rnd j k)) := by
    refine mapM_others hk (fun j => kShare rnd j k) fun j hj => ?_
    unfold decShare
    rw [show (Res.get ((GG20.Sign.others n k).map (fun j => kCt A rnd j k)) j : Res Empty _) = _ from
        get_others hk hj _,
      Res.bind_ok,
      show (Res.get ((GG20.Sign.others n k).map (kEnc rnd k)) j : Res Empty _) = _ from
        get_others hk hj _, Res.bind_ok]
    have hlt := otherInd_lt (k := k) hj
    unfold kCt
    rw [kEnc_comm rnd k, A.dec_enc _ _ _ (encKey_ok (hon _ hlt).choose_spec.u_ne (hon k hk).choose_spec.u_ne).2,
      Res.ofOption_some, Res.bind_ok, fromBytes_toBytes, Int.natAbs_natCast, ZMod.natCast_zmod_val]
  simp only [e1, Res.bind_ok, Nat.add_sub_cancel]
  rw [GG20.Keygen.get_map_range hk, Res.bind_ok,
    reassemble_others n k (fun j => kShare rnd j k), Res.bind_ok]

theorem round5_ok {k : ℕ} :
    round5 ⟨t, n⟩ rnd (k + 1) ⟨kKeys rnd k, (List.range n).map (kBc rnd), (List.range n).map (kY rnd),
          ((List.range n).map (kY rnd)).sum, kVss t n rnd k,
          (List.range n).map (fun j => kShare rnd j k)⟩ ((GG20.Sign.others n k).map (kVss t n rnd)) =
      .ok (⟨kKeys rnd k, (List.range n).map (kBc rnd), (List.range n).map (kY rnd),
          ((List.range n).map (kY rnd)).sum, (List.range n).map (kVss t n rnd),
          ⟨((List.range n).map (kY rnd)).sum, kX n rnd k⟩, kPf n rnd k⟩,
        [⟨k + 1, none, kPf n rnd k⟩]) := by
  unfold round5
  simp only [reassemble_others, Res.bind_ok]
  have hv : ∀ i < n, ValidShareAt ((List.range n).map (kY rnd))
      ((List.range n).map (fun j => kShare rnd j k)) ((List.range n).map (kVss t n rnd))
      (k + 1) i := fun i hi =>
    ⟨kY rnd i, kShare rnd i k, kVss t n rnd i, by simp [hi], by simp [hi], by simp [hi],
      by rw [kVss, feldmanEval_map]; rfl, by simp [kVss, kY]⟩
  rcases phase2_cases (t := t) (n := n) (ys := (List.range n).map (kY rnd))
    (shares := (List.range n).map (fun j => kShare rnd j k))
    (vss := (List.range n).map (kVss t n rnd)) (k + 1) (rnd (k + 1)).dlogNonce (by simp) (by simp)
    (by simp) with ⟨-, h⟩ | ⟨i, hi, hbad, -⟩ | ⟨i, hi, hbad, -⟩
  · rw [h]; rfl
  · exact absurd (hv i hi) hbad
  · simp [hi, kVss] at hbad

theorem finish_ok {k : ℕ} :
    finish ⟨t, n⟩ (k + 1) ⟨kKeys rnd k, (List.range n).map (kBc rnd), (List.range n).map (kY rnd),
          ((List.range n).map (kY rnd)).sum, (List.range n).map (kVss t n rnd),
          ⟨((List.range n).map (kY rnd)).sum, kX n rnd k⟩, kPf n rnd k⟩
      ((GG20.Sign.others n k).map (kPf n rnd)) = .ok (kFile t n rnd k) := by
  unfold finish
  simp only [reassemble_others, Res.bind_ok]
  have hv : ∀ i < n, Spec.GG18.ValidProofAt ((List.range n).map (kPf n rnd)) i := fun i hi =>
    ⟨kPf n rnd i, by simp [hi], DLogProof.verify_prove _ _⟩
  rcases dlog_cases (t := t) (n := n) (proofs := (List.range n).map (kPf n rnd))
    (ys := (List.range n).map (kY rnd)) (by simp) (by simp) with ⟨-, h⟩ | ⟨⟨i, hi, hbad⟩, -⟩
  · rw [h]
    simp only [Res.unwrap, Res.bind_ok]
    rw [Res.mapM_ok_of_forall (g := fun j => (rnd (j + 1)).dk.n)
      (fun j hj => by rw [GG20.Keygen.get_map_range (by simpa using hj)]; rfl), Res.bind_ok]
    rfl
  · exact absurd (hv i hi) hbad

include ht in
/-- The clients all finish, with the key files `kFile`. -/
theorem run_eq (hon : ∀ k < n, Spec.GG18.HonestKeygenRand t (rnd (k + 1))) : run A t n rnd = .ok ((List.range n).map (kFile t n rnd)) := by
  have hon : ∀ k < n, ∃ t', Spec.GG18.HonestKeygenRand t' (rnd (k + 1)) := fun k hk => ⟨t, hon k hk⟩
  unfold run
  have s1 : (List.range n).map (fun k => start (k + 1) (rnd (k + 1))) =
      (List.range n).map (fun k => ((⟨kKeys rnd k, kBc rnd k, kDec rnd k⟩ : St1),
        [(⟨k + 1, none, kBc rnd k⟩ : Msg KeyGenBroadcastMessage1)])) := rfl
  simp only [s1]
  rw [runRound_broadcast _ _ _ fun k hk => round2_ok hk, Res.bind_ok,
    runRound_broadcast _ _ _ fun k hk => round3_ok A ht hon hk, Res.bind_ok,
    runRound_p2p _ (kCt A rnd) _ fun k hk => round4_ok A hon hk, Res.bind_ok,
    runRound_broadcast _ _ _ fun k _ => round5_ok (k := k), Res.bind_ok,
    runRound_broadcast _ _ _ fun k _ => finish_ok]

end run

/-- The final shares lie on the sum of the dealers' polynomials. -/
theorem kX_onPolynomial {t n : ℕ} {rnd : ℕ → Rand}
    (hon : ∀ k < n, (rnd (k + 1)).coefs.length = t) :
    ∃ f : Polynomial Sc, OnPolynomial t n (fun i => kX n rnd (i - 1)) f ∧
      f.eval 0 = ∑ k ∈ Finset.range n, (rnd (k + 1)).u := by
  refine ⟨∑ j ∈ Finset.range n, toPoly ((rnd (j + 1)).u :: (rnd (j + 1)).coefs), ⟨?_, ?_⟩, ?_⟩
  · refine lt_of_le_of_lt (Polynomial.degree_sum_le _ _) ?_
    rw [Finset.sup_lt_iff (WithBot.bot_lt_coe _)]
    intro j hj
    have := degree_toPoly_lt ((rnd (j + 1)).u :: (rnd (j + 1)).coefs)
    rwa [List.length_cons, hon j (by simpa using hj)] at this
  · intro i h1 h2
    simp only [kX, sum_map_range_eq, Polynomial.eval_finsetSum, eval_toPoly, kShare,
      Nat.sub_add_cancel h1]
  · simp only [Polynomial.eval_finsetSum, eval_toPoly, evalPoly_zero_cons]

theorem kY_sum (n : ℕ) (rnd : ℕ → Rand) :
    ((List.range n).map (kY rnd)).sum = (∑ k ∈ Finset.range n, (rnd (k + 1)).u) • (G : Pt) := by
  rw [sum_map_range_eq, Finset.sum_smul]
  rfl

end Verif.Demo.Keygen
