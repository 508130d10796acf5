import Verif.Lemmas.SignOnline
import Verif.Props.Mta
import Verif.Props.Keygen

/-!
# Properties C38-C43: GG20 signing
-/

namespace Verif.Props

open EC Crypto Spec GG20 GG20.Sign

section
variable [Crypto]

/-! ### Signing shares -/

/-- **C38.** For at least `t + 1` distinct signers in any order, the signing share that the signer at
position `k` computes is some `w k`, the shares add up to the private key, and everybody else computes
`w k • G` for it. -/
theorem C38_signing_shares {ε : Type} {t n : ℕ} {x : ℕ → Sc} {f : Polynomial Sc}
    (hx : OnPolynomial t n x f) (hn : n < q) (hu : n < 65536) {s_l : List ℕ} (hnd : s_l.Nodup)
    (hmem : ∀ i ∈ s_l, 1 ≤ i ∧ i ≤ n) (hlen : t + 1 ≤ s_l.length) :
    ∃ w : ℕ → Sc,
      (∀ k i, s_l[k]? = some i → ∀ gamma kk, ∃ sk,
        (SignKeys.create (x i) (i - 1) (s_l.map (· - 1)) gamma kk : Res ε SignKeys) = .ok sk ∧
          sk.w_i = w k ∧ sk.g_w_i = w k • G) ∧
      ∑ k ∈ Finset.range s_l.length, w k = f.eval 0 ∧
      (SignKeys.g_w_vec ((List.range n).map (fun j => x (j + 1) • (G : Pt))) (s_l.map (· - 1)) :
        Res ε (List Pt)) = .ok ((List.range s_l.length).map (fun k => w k • G)) ∧
      ∀ k i, s_l[k]? = some i →
        (update_commitments_to_xi (x i • (G : Pt)) (i - 1) (s_l.map (· - 1)) : Res ε Pt) = .ok (w k • G) := by
  refine ⟨signShare x s_l, ?_, signShare_sum hmem hnd (hx.reconstructs hn) hlen,
    g_w_vec_eq hmem hnd hn hu, ?_⟩
  swap
  · intro k i hi
    obtain ⟨hk, rfl⟩ := List.getElem?_eq_some_iff.1 hi
    have hg : s_l.getD k 0 = s_l[k] := by simp [hk]
    have hlt := (hmem _ (List.getElem_mem hk)).2
    have hc := coeff_eq hmem hnd hn hk
    rw [hg] at hc
    change (update_commitments_to_xi _ _ (zeroBased s_l) : Res ε Pt) = _
    unfold update_commitments_to_xi
    rw [mapM_toU16 fun j hj => (zeroBased_lt hmem j hj).trans hu, Res.bind_ok]
    rw [show (toU16 (s_l[k] - 1) : Res ε ℕ) = .ok (s_l[k] - 1) from by
      unfold toU16; rw [if_pos (by omega)], Res.bind_ok, hc, Res.ofOption_some, Res.bind_ok, ← mul_smul]
    rw [signShare, hg]
  intro k i hi gamma kk
  obtain ⟨hk, rfl⟩ := List.getElem?_eq_some_iff.1 hi
  have hg : s_l.getD k 0 = s_l[k] := by simp [hk]
  have := create_eq (ε := ε) hmem hnd hn hu (x := x) hk gamma kk
  rw [hg] at this
  exact ⟨_, this, rfl, rfl⟩

/-- **C38** (too few signers): for at most `t` signers and any shares they may hold, there is a sharing
of threshold `t` in which they hold exactly these shares and their signing shares do not add up to the
key. -/
theorem C38_too_few {t n : ℕ} (hn : n < q) {s_l : List ℕ} (hnd : s_l.Nodup)
    (hmem : ∀ i ∈ s_l, 1 ≤ i ∧ i ≤ n) (hlen : s_l.length ≤ t) (x : ℕ → Sc) :
    ∃ (x' : ℕ → Sc) (f : Polynomial Sc), OnPolynomial t n x' f ∧ (∀ i ∈ s_l, x' i = x i) ∧
      ∑ k ∈ Finset.range s_l.length, lagrangeCoeff s_l.toFinset (s_l.getD k 0) * x' (s_l.getD k 0) ≠
        f.eval 0 := by
  classical
  have h0 : (0 : ℕ) ∉ s_l.toFinset := fun h => by have := (hmem 0 (by simpa using h)).1; omega
  let S : Finset ℕ := insert 0 s_l.toFinset
  let total : Sc := ∑ k ∈ Finset.range s_l.length,
    lagrangeCoeff s_l.toFinset (s_l.getD k 0) * x (s_l.getD k 0)
  let r : ℕ → Sc := fun i => if i = 0 then total + 1 else x i
  have hinj : Set.InjOn (fun i : ℕ => (i : Sc)) S := by
    intro i hi j hj hij
    have lt : ∀ k ∈ S, k < q := by
      intro k hk
      rcases Finset.mem_insert.1 hk with rfl | hk
      · exact q_pos
      · exact lt_of_le_of_lt (hmem k (by simpa using hk)).2 hn
    exact natCast_inj_of_lt (lt i hi) (lt j hj) hij
  let f : Polynomial Sc := Lagrange.interpolate S (fun i : ℕ => (i : Sc)) r
  have hcard : S.card = s_l.length + 1 := by
    rw [Finset.card_insert_of_notMem h0, List.toFinset_card_of_nodup hnd]
  have hdeg : f.degree < (t + 1 : ℕ) := by
    refine lt_of_lt_of_le (Lagrange.degree_interpolate_lt r hinj) ?_
    rw [hcard]; exact_mod_cast (by omega)
  have heval : ∀ i ∈ S, f.eval (i : Sc) = r i := fun i hi =>
    Lagrange.eval_interpolate_at_node r hinj hi
  have hagree : ∀ i ∈ s_l, f.eval (i : Sc) = x i := by
    intro i hi
    rw [heval i (Finset.mem_insert_of_mem (by simpa using hi))]
    have := (hmem i hi).1
    simp only [r]; rw [if_neg (by omega)]
  refine ⟨fun i => f.eval (i : Sc), f, ⟨hdeg, fun _ _ _ => rfl⟩, hagree, ?_⟩
  have hsum : ∑ k ∈ Finset.range s_l.length, lagrangeCoeff s_l.toFinset (s_l.getD k 0) *
      f.eval ((s_l.getD k 0 : ℕ) : Sc) = total := by
    refine Finset.sum_congr rfl fun k hk => ?_
    rw [hagree _ (getD_mem (by simpa using hk))]
  have hz : f.eval 0 = total + 1 := by
    have := heval 0 (Finset.mem_insert_self _ _)
    simpa [r] using this
  rw [hsum, hz]
  simp

/-! ### Honest signing -/

/-- **C39.** Honest holders of a key `Y = d G` of threshold `t`, listed in any order in `s_l`, at least
`t + 1` of them, with honest samples (see `HonestSigners`): the offline stage succeeds at every signer,
and for every message (with `m + r d ≠ 0`, `r` the x-coordinate of the nonce point `(∑ k)⁻¹ G`) all
signers output one and the same signature, which is valid for `m` under `Y` and has low `s`. -/
theorem C39_honest_signing {t n : ℕ} {x : ℕ → Sc} {d : Sc} {dk : ℕ → DecKey}
    {sts : List DLogStatement} {s_l : List ℕ} {key : ℕ → LocalKey} {rnd : ℕ → SignRandomness}
    (h : HonestSigners n (d • G) x dk sts s_l key rnd) (hx : Reconstructs t n x d)
    (hlen : t + 1 ≤ s_l.length) :
    ∃ cs, offline s_l key rnd = .ok cs ∧ cs.length = s_l.length ∧
      (∀ c ∈ cs, c.public_key = d • G) ∧
      ∀ message : ℤ,
        (∀ xr y, coords ((∑ j ∈ Finset.range s_l.length, (rnd j).k)⁻¹ • (G : Pt)) = some (xr, y) →
          (message : Sc) + (xr : Sc) * d ≠ 0) →
        ∃ sig, online message cs = .ok (List.replicate s_l.length sig) ∧
          EcdsaEq (d • G) message sig.r sig.s ∧ LowS sig.s := by
  have hd := signShare_sum h.members h.nodup hx hlen
  refine ⟨_, offline_eq h hd rfl, by simp, ?_, ?_⟩
  · intro c hc
    obtain ⟨k, -, rfl⟩ := List.mem_map.1 hc
    rfl
  intro message hm
  have hR := oR_eq h.gamma_sum
  have hne : oR s_l rnd ≠ 0 := by
    rw [hR]
    intro h0
    rw [smul_G_eq_zero] at h0
    exact inv_ne_zero h.k_sum h0
  obtain ⟨xr, y, hc⟩ := exists_coords hne
  have hmr := hm xr y (by rw [← hR]; exact hc)
  have hs : ∑ i ∈ Finset.range s_l.length, ((message : Sc) * (rnd i).k + (xr : Sc) * oSigma x s_l rnd i) =
      (∑ i ∈ Finset.range s_l.length, (rnd i).k) * ((message : Sc) + (xr : Sc) * d) := by
    rw [Finset.sum_add_distrib, ← Finset.mul_sum, ← Finset.mul_sum, oSigma_sum, hd]
    ring
  have hs0 : ∑ i ∈ Finset.range s_l.length, ((message : Sc) * (rnd i).k +
      (xr : Sc) * oSigma x s_l rnd i) ≠ 0 := by
    rw [hs]; exact mul_ne_zero h.k_sum hmr
  have he : EcdsaEq (d • G) message (xr : Sc)
      (∑ i ∈ Finset.range s_l.length, ((message : Sc) * (rnd i).k + (xr : Sc) * oSigma x s_l rnd i)) := by
    refine ecdsaEq_of_eq hc hs0 ?_
    rw [hs, hR, ← mul_smul, ← mul_smul, ← add_smul]
    congr 1
    rw [mul_comm _ (∑ i ∈ Finset.range s_l.length, (rnd i).k)⁻¹, ← mul_assoc,
      inv_mul_cancel₀ h.k_sum, one_mul]
  refine ⟨⟨(xr : Sc), normS (∑ i ∈ Finset.range s_l.length, ((message : Sc) * (rnd i).k +
    (xr : Sc) * oSigma x s_l rnd i)), recidOf (∑ i ∈ Finset.range s_l.length,
      ((message : Sc) * (rnd i).k + (xr : Sc) * oSigma x s_l rnd i)) y⟩, ?_, ecdsaEq_normS.2 he,
    normS_low _⟩
  rw [online_eq hc he, List.map_const', List.length_range]

/-- Keys made by an honest key generation are as signing needs them. -/
theorem keygen_honestSigners {t n : ℕ} (ht : t < n) (hn : n < q) (hu : n < 65536)
    {krnd : ℕ → KeygenRandomness} (hon : ∀ k < n, Keygen.HonestRandomness t (krnd k))
    {keys : List LocalKey} (hkeys : Keygen.run t n krnd = .ok keys)
    {s_l : List ℕ} (hnd : s_l.Nodup) (hmem : ∀ i ∈ s_l, 1 ≤ i ∧ i ≤ n)
    {key : ℕ → LocalKey} (hkey : ∀ k i, s_l[k]? = some i → keys[i - 1]? = some (key k))
    {x : ℕ → Sc} (hxk : ∀ i k, keys[i]? = some k → k.keys_linear.x_i = x (i + 1))
    {sts : List DLogStatement} (hsts : ∀ k ∈ keys, k.h1_h2_n_tilde_vec = sts)
    {rnd : ℕ → SignRandomness}
    (hs : ∀ k < s_l.length, HonestSample s_l.length (fun j => (krnd (s_l.getD j 0 - 1)).dk.n)
      (fun j => (rnd j).k) (signShare x s_l) sts k (rnd k))
    (hk0 : ∑ j ∈ Finset.range s_l.length, (rnd j).k ≠ 0)
    (hg0 : ∑ j ∈ Finset.range s_l.length, (rnd j).gamma ≠ 0) :
    ∃ d, (∀ k ∈ keys, k.public_key = d • G) ∧ Reconstructs t n x d ∧
      HonestSigners n (d • G) x (fun i => (krnd (i - 1)).dk) sts s_l key rnd := by
  rw [Keygen.run_eq ht hon, Res.ok.injEq] at hkeys
  subst hkeys
  obtain ⟨f, hf, hf0⟩ := Keygen.rX_onPolynomial (n := n) (fun k hk => (hon k hk).coefs_len)
  have hget : ∀ i, i < n → ((List.range n).map (Keygen.rKey t n krnd))[i]? =
      some (Keygen.rKey t n krnd i) := by intro i hi; simp [hi]
  have hx' : ∀ i, 1 ≤ i → i ≤ n → x i = Keygen.rX n krnd (i - 1) := by
    intro i h1 h2
    have := hxk (i - 1) _ (hget (i - 1) (by omega))
    rw [Nat.sub_add_cancel h1] at this
    exact this.symm
  have hsts' : sts = (List.range n).map (fun j => (Keygen.rBc krnd j).dlog_statement) := by
    rw [← hsts (Keygen.rKey t n krnd 0) (List.mem_map.2 ⟨0, by simp; omega, rfl⟩)]
    rfl
  have hrec : Reconstructs t n x (Keygen.rSecret n krnd) := by
    have := hf.reconstructs hn
    rw [hf0] at this
    intro S hS hc
    rw [← this S hS hc]
    refine Finset.sum_congr rfl fun i hi => ?_
    rw [hx' i (hS i hi).1 (hS i hi).2]
  have hH : HonestSigners n (Keygen.rSecret n krnd • G) x (fun i => (krnd (i - 1)).dk) sts s_l key rnd :=
    { n_lt := hn, n_u16 := hu, nodup := hnd, members := hmem
      holds := by
        intro k hk
        have hm := hmem _ (getD_mem hk)
        have h1 : key k = Keygen.rKey t n krnd (s_l.getD k 0 - 1) := by
          have := hkey k (s_l.getD k 0) (by simp [hk])
          rw [hget _ (by omega), Option.some.injEq] at this
          exact this.symm
        have h2 := keyOf_rKey (t := t) (rnd := krnd) hm.1 hm.2
        rw [h1, hsts']
        exact
          { i_pos := h2.i_pos, i_le := h2.i_le, index := h2.index, public_key := h2.public_key
            share := h2.share.trans (hx' _ hm.1 hm.2).symm
            pks := by
              rw [h2.pks]
              refine List.map_congr_left fun j hj => ?_
              have hj : j < n := by simpa using hj
              rw [hx' (j + 1) (by omega) (by omega)]
            dk_own := h2.dk_own, eks := h2.eks, sts_eq := h2.sts_eq }
      aux := by rw [hsts']; exact auxOk_rBc hon
      dk_valid := fun i h1 h2 => (hon (i - 1) (by omega)).dk_valid
      sample := hs, k_sum := hk0, gamma_sum := hg0 }
  refine ⟨_, ?_, hrec, hH⟩
  intro k hk
  obtain ⟨i, hi, rfl⟩ := List.mem_map.1 hk
  have hi : i < n := by simpa using hi
  exact (keyOf_rKey (t := t) (rnd := krnd) (i := i + 1) (by omega) (by omega)).public_key

/-- **C39** (from key generation to signature): the same for keys made by an honest key generation
among `n` parties with threshold `t`. -/
theorem C39_keygen_then_sign {t n : ℕ} (ht : t < n) (hn : n < q) (hu : n < 65536)
    {krnd : ℕ → KeygenRandomness} (hon : ∀ k < n, Keygen.HonestRandomness t (krnd k))
    {keys : List LocalKey} (hkeys : Keygen.run t n krnd = .ok keys)
    {s_l : List ℕ} (hnd : s_l.Nodup) (hmem : ∀ i ∈ s_l, 1 ≤ i ∧ i ≤ n) (hlen : t + 1 ≤ s_l.length)
    {key : ℕ → LocalKey} (hkey : ∀ k i, s_l[k]? = some i → keys[i - 1]? = some (key k))
    {x : ℕ → Sc} (hxk : ∀ i k, keys[i]? = some k → k.keys_linear.x_i = x (i + 1))
    {sts : List DLogStatement} (hsts : ∀ k ∈ keys, k.h1_h2_n_tilde_vec = sts)
    {rnd : ℕ → SignRandomness}
    (hs : ∀ k < s_l.length, HonestSample s_l.length (fun j => (krnd (s_l.getD j 0 - 1)).dk.n)
      (fun j => (rnd j).k) (signShare x s_l) sts k (rnd k))
    (hk0 : ∑ j ∈ Finset.range s_l.length, (rnd j).k ≠ 0)
    (hg0 : ∑ j ∈ Finset.range s_l.length, (rnd j).gamma ≠ 0) :
    ∃ d, (∀ k ∈ keys, k.public_key = d • G) ∧
      ∃ cs, offline s_l key rnd = .ok cs ∧ cs.length = s_l.length ∧
      ∀ message : ℤ,
        (∀ xr y, coords ((∑ j ∈ Finset.range s_l.length, (rnd j).k)⁻¹ • (G : Pt)) = some (xr, y) →
          (message : Sc) + (xr : Sc) * d ≠ 0) →
        ∃ sig, online message cs = .ok (List.replicate s_l.length sig) ∧
          EcdsaEq (d • G) message sig.r sig.s ∧ LowS sig.s := by
  obtain ⟨d, hd, hrec, hH⟩ := keygen_honestSigners ht hn hu hon hkeys hnd hmem hkey hxk hsts hs hk0 hg0
  obtain ⟨cs, h1, h2, -, h3⟩ := C39_honest_signing hH hrec hlen
  exact ⟨d, hd, cs, h1, h2, h3⟩

/-! ### The nonce point -/

/-- At position `j` the revealed Gamma opens the commitment and is the point of the signer's MtA
response (`b_proofs` lists the responses of the signers other than `index`). -/
def RevealsAt (b_proofs : List DLogProof) (decoms : List SignDecommitPhase1)
    (bcs : List SignBroadcastPhase1) (index j : ℕ) : Prop :=
  ∃ pf d bc, b_proofs[if j < index then j else j - 1]? = some pf ∧ decoms[j]? = some d ∧
    bcs[j]? = some bc ∧ pf.pk = d.g_gamma_i ∧ hashCom (ser d.g_gamma_i) d.blind_factor = bc.com

theorem phase4_test_eq {b_proofs : List DLogProof} {decoms : List SignDecommitPhase1}
    {bcs : List SignBroadcastPhase1} {m index i : ℕ} (hb : b_proofs.length = m - 1)
    (hd : decoms.length = m) (hc : bcs.length = m) (hi : i < m - 1) :
    phase4_test b_proofs decoms bcs index i = .ok true ∧
        RevealsAt b_proofs decoms bcs index (otherInd index i) ∨
      phase4_test b_proofs decoms bcs index i = .ok false ∧
        ¬ RevealsAt b_proofs decoms bcs index (otherInd index i) := by
  have hlt := otherInd_lt (k := index) hi
  have hix : (if otherInd index i < index then otherInd index i else otherInd index i - 1) = i := by
    unfold otherInd; split_ifs <;> omega
  unfold RevealsAt
  rw [hix]
  unfold phase4_test
  simp only
  rw [Res.get_of_lt (by omega : i < b_proofs.length), Res.bind_ok,
    Res.get_of_lt (by omega : otherInd index i < decoms.length), Res.bind_ok,
    Res.get_of_lt (by omega : otherInd index i < bcs.length)]
  rw [List.getElem?_eq_getElem (by omega : i < b_proofs.length),
    List.getElem?_eq_getElem (by omega : otherInd index i < decoms.length),
    List.getElem?_eq_getElem (by omega : otherInd index i < bcs.length)]
  simp only [Res.bind_ok, Option.some.injEq, exists_and_left, exists_eq_left']
  by_cases h1 : b_proofs[i].pk = decoms[otherInd index i].g_gamma_i
  · simp only [if_pos h1, Res.ok.injEq, decide_eq_true_eq, decide_eq_false_iff_not]
    by_cases h2 : hashCom (ser decoms[otherInd index i].g_gamma_i)
      decoms[otherInd index i].blind_factor = bcs[otherInd index i].com
    · left; exact ⟨h2, h1, h2⟩
    · right; exact ⟨h2, fun h => h2 h.2⟩
  · simp only [if_neg h1]
    right; exact ⟨trivial, fun h => h1 h.1⟩

/-- The outcomes of `phase4`. -/
theorem phase4_cases {b_proofs : List DLogProof} {decoms : List SignDecommitPhase1}
    {bcs : List SignBroadcastPhase1} {m index : ℕ} (delta_inv : Sc) (hm : 0 < m) (hix : index < m)
    (hb : b_proofs.length = m - 1) (hd : decoms.length = m) (hc : bcs.length = m) :
    ((∀ j < m, j ≠ index → RevealsAt b_proofs decoms bcs index j) ∧
      phase4 delta_inv b_proofs decoms bcs index =
        .ok (delta_inv • (decoms.map (·.g_gamma_i)).sum)) ∨
    (∃ j < m, j ≠ index ∧ ¬ RevealsAt b_proofs decoms bcs index j ∧
      (∀ l < j, l ≠ index → RevealsAt b_proofs decoms bcs index l) ∧
      phase4 delta_inv b_proofs decoms bcs index = .err ⟨"bad gamma_i decommit", [j]⟩) := by
  have hinv : ∀ j < m, j ≠ index → ∃ i < m - 1, otherInd index i = j := by
    intro j hj hne
    refine ⟨if j < index then j else j - 1, by split <;> omega, ?_⟩
    unfold otherInd
    split_ifs <;> omega
  obtain ⟨a, l, rfl⟩ : ∃ a l, decoms = a :: l := by
    cases decoms with
    | nil => simp at hd; omega
    | cons a l => exact ⟨a, l, rfl⟩
  by_cases hall : ∀ i < m - 1, RevealsAt b_proofs (a :: l) bcs index (otherInd index i)
  · left
    refine ⟨fun j hj hne => ?_, ?_⟩
    · obtain ⟨i, hi, rfl⟩ := hinv j hj hne
      exact hall i hi
    · unfold phase4
      rw [hb, allPush_range_true.2 ⟨rfl, fun i hi => ?_⟩, Res.bind_ok]
      · simp only [if_true]
        rw [show l.foldl (fun acc (x : SignDecommitPhase1) => acc + x.g_gamma_i) a.g_gamma_i =
          ((a :: l).map (·.g_gamma_i)).sum from by
            rw [List.map_cons, ← foldl_add_head, List.foldl_map]]
      · rcases phase4_test_eq hb hd hc hi with ⟨h, -⟩ | ⟨-, h⟩
        · exact h
        · exact absurd (hall i hi) h
  · right
    push Not at hall
    classical
    obtain ⟨i, ⟨hi, hbad⟩, hmin⟩ : ∃ i, (i < m - 1 ∧
        ¬ RevealsAt b_proofs (a :: l) bcs index (otherInd index i)) ∧
        ∀ j < i, ¬ (j < m - 1 ∧ ¬ RevealsAt b_proofs (a :: l) bcs index (otherInd index j)) :=
      ⟨Nat.find hall, Nat.find_spec hall, fun j hj => Nat.find_min hall hj⟩
    refine ⟨otherInd index i, otherInd_lt hi, otherInd_ne, hbad, ?_, ?_⟩
    · intro j hj hne
      have hjm : j < m := hj.trans (otherInd_lt hi)
      obtain ⟨i', hi', rfl⟩ := hinv j hjm hne
      have : i' < i := by
        unfold otherInd at hj; split at hj <;> split at hj <;> omega
      by_contra hb'
      exact hmin i' this ⟨hi', hb'⟩
    · unfold phase4
      rw [hb, allPush_range_false.2 ⟨i, hi, rfl, ?_, ?_⟩, Res.bind_ok]
      · rfl
      · rcases phase4_test_eq hb hd hc hi with ⟨-, h⟩ | ⟨h, -⟩
        · exact absurd h hbad
        · exact h
      · intro j hj
        have hjm : j < m - 1 := by omega
        rcases phase4_test_eq hb hd hc hjm with ⟨h, -⟩ | ⟨-, h⟩
        · exact h
        · exact absurd ⟨hjm, h⟩ (hmin j hj)

/-- **C40.** `phase4` returns a nonce point exactly when every other signer's Gamma opens its commitment
and equals the point of its MtA response, and then the point is `delta⁻¹` times the sum of all revealed
Gammas. -/
theorem C40_nonce_point_iff {b_proofs : List DLogProof} {decoms : List SignDecommitPhase1}
    {bcs : List SignBroadcastPhase1} {m index : ℕ} (delta_inv : Sc) (hm : 0 < m) (hix : index < m)
    (hb : b_proofs.length = m - 1) (hd : decoms.length = m) (hc : bcs.length = m) (R : Pt) :
    phase4 delta_inv b_proofs decoms bcs index = .ok R ↔
      (∀ j < m, j ≠ index → RevealsAt b_proofs decoms bcs index j) ∧
        R = delta_inv • (decoms.map (·.g_gamma_i)).sum := by
  rcases phase4_cases delta_inv hm hix hb hd hc with ⟨h1, h2⟩ | ⟨j, hj, hne, hbad, -, h2⟩
  · rw [h2, Res.ok.injEq]
    exact ⟨fun h => ⟨h1, h.symm⟩, fun h => h.2.symm⟩
  · rw [h2]
    constructor
    · intro h; cases h
    · rintro ⟨h, -⟩; exact absurd (h j hj hne) hbad

/-- **C40** (partial): otherwise the error names the first offender, and nobody else.  Missing: the
other offenders (see `C40_second_offender_not_named`). -/
theorem C40_blames_first_partial {b_proofs : List DLogProof} {decoms : List SignDecommitPhase1}
    {bcs : List SignBroadcastPhase1} {m index : ℕ} (delta_inv : Sc) (hm : 0 < m) (hix : index < m)
    (hb : b_proofs.length = m - 1) (hd : decoms.length = m) (hc : bcs.length = m) {j : ℕ} (hj : j < m)
    (hne : j ≠ index) (hbad : ¬ RevealsAt b_proofs decoms bcs index j) :
    ∃ e l, phase4 delta_inv b_proofs decoms bcs index = .err e ∧ e.bad_actors = [l] ∧ l ≤ j ∧
      l < m ∧ l ≠ index ∧ ¬ RevealsAt b_proofs decoms bcs index l := by
  rcases phase4_cases delta_inv hm hix hb hd hc with ⟨h1, -⟩ | ⟨l, hl, hle, hbl, hmin, h2⟩
  · exact absurd (h1 j hj hne) hbad
  · refine ⟨_, l, h2, rfl, ?_, hl, hle, hbl⟩
    by_contra hlt
    exact hbad (hmin j (by omega) hne)

/-- **C40 is violated**: of two offenders, the second is never named. -/
theorem C40_second_offender_not_named {b_proofs : List DLogProof} {decoms : List SignDecommitPhase1}
    {bcs : List SignBroadcastPhase1} {m index : ℕ} (delta_inv : Sc) (hm : 0 < m) (hix : index < m)
    (hb : b_proofs.length = m - 1) (hd : decoms.length = m) (hc : bcs.length = m) {i j : ℕ} (hij : i < j)
    (hj : j < m) (hi1 : i ≠ index) (hbi : ¬ RevealsAt b_proofs decoms bcs index i) :
    ∃ e, phase4 delta_inv b_proofs decoms bcs index = .err e ∧ j ∉ e.bad_actors := by
  obtain ⟨e, l, h1, h2, h3, -⟩ :=
    C40_blames_first_partial delta_inv hm hix hb hd hc (hij.trans hj) hi1 hbi
  exact ⟨e, h1, by rw [h2, List.mem_singleton]; omega⟩

/-- **C40** (binding): if a commitment is opened to two different Gammas, then the two openings are a
collision of the hash commitment. -/
theorem C40_binding {p1 p2 : List DLogProof} {d1 d2 : List SignDecommitPhase1}
    {bcs : List SignBroadcastPhase1} {i1 i2 j : ℕ} {a b : SignDecommitPhase1}
    (h1 : RevealsAt p1 d1 bcs i1 j) (h2 : RevealsAt p2 d2 bcs i2 j) (ha : d1[j]? = some a)
    (hb : d2[j]? = some b) :
    a.g_gamma_i = b.g_gamma_i ∨
      ser a.g_gamma_i ≠ ser b.g_gamma_i ∧
        hashCom (ser a.g_gamma_i) a.blind_factor = hashCom (ser b.g_gamma_i) b.blind_factor := by
  obtain ⟨_, d, bc, -, e1, e2, -, e3⟩ := h1
  obtain ⟨_, d', bc', -, e1', e2', -, e3'⟩ := h2
  rw [ha, Option.some.injEq] at e1
  rw [hb, Option.some.injEq] at e1'
  rw [e2, Option.some.injEq] at e2'
  subst e1 e1' e2'
  by_cases hg : a.g_gamma_i = b.g_gamma_i
  · exact Or.inl hg
  · refine Or.inr ⟨fun h => hg (ser_inj h), e3.trans e3'.symm⟩

/-! ### The public checks -/

/-- **C41.** If the points `k_i R` pass the nonce check and the points `sigma_i R` pass the key check for
`Y`, then for every message every signer's combination of the partial signatures `m k_i + r sigma_i` is
a valid signature under `Y` – unless `m G + r Y` is zero, in which case the combination panics. -/
theorem C41_checks_force_signature {m : ℕ} {k sigma : ℕ → Sc} {R Y : Pt}
    (h5 : phase5_check_R_dash_sum ((List.range m).map (fun i => k i • R)) = .ok ())
    (h6 : phase6_check_S_i_sum Y ((List.range m).map (fun i => sigma i • R)) = .ok ()) :
    ∃ x y, coords R = some (x, y) ∧ ∀ (message : ℤ) (i : ℕ), i < m →
      let s_i : ℕ → Sc := fun j => (message : Sc) * k j + (x : Sc) * sigma j
      let peers := ((List.range m).map s_i).eraseIdx i
      ∃ st, SignManual.new message ⟨k i, R, sigma i, Y⟩ = .ok (st, s_i i) ∧
        ((message : Sc) • G + (x : Sc) • Y ≠ 0 →
          ∃ sig, SignManual.complete st peers = .ok sig ∧ EcdsaEq Y message sig.r sig.s ∧ LowS sig.s ∧
            sig.r = (x : Sc)) ∧
        ((message : Sc) • G + (x : Sc) • Y = 0 → SignManual.complete st peers = .panic) := by
  rw [checkR_ok, sum_map_range_eq, ← Finset.sum_smul] at h5
  rw [checkS_ok, sum_map_range_eq, ← Finset.sum_smul] at h6
  have hR : R ≠ 0 := by
    rintro rfl
    rw [smul_zero] at h5
    exact G_ne_zero h5.symm
  obtain ⟨x, y, hc⟩ := exists_coords hR
  refine ⟨x, y, hc, ?_⟩
  intro message i hi s_i peers
  have hsum : s_i i + peers.sum = ∑ j ∈ Finset.range m, s_i j := by
    have := sum_others hi s_i
    rw [filter_range_ne hi, ← List.eraseIdx_map] at this
    exact this
  have hs : (∑ j ∈ Finset.range m, s_i j) • R = (message : Sc) • G + (x : Sc) • Y := by
    simp only [s_i]
    rw [Finset.sum_add_distrib, ← Finset.mul_sum, ← Finset.mul_sum, add_smul, mul_smul, mul_smul, h5, h6]
  refine ⟨_, new_eq hc, ?_, ?_⟩
  · intro hne
    have hs0 : ∑ j ∈ Finset.range m, s_i j ≠ 0 := by
      intro h0; rw [h0, zero_smul] at hs; exact hne hs.symm
    have he := ecdsaEq_of_eq hc hs0 hs
    refine ⟨_, complete_eq (x := x) (y := y) hc ?_, ?_, normS_low _, rfl⟩
    · simp only; rw [show (message : Sc) * k i + (x : Sc) * sigma i = s_i i from rfl, hsum]; exact he
    · simp only
      rw [show (message : Sc) * k i + (x : Sc) * sigma i = s_i i from rfl, hsum]
      exact ecdsaEq_normS.2 he
  · intro h0
    refine complete_zero hR ?_
    simp only
    rw [show (message : Sc) * k i + (x : Sc) * sigma i = s_i i from rfl, hsum]
    rw [h0] at hs
    exact (smul_eq_zero_iff.1 hs).resolve_right hR

/-! ### The nonce consistency proofs -/

/-- The `j`-th proof of the signer at position `i` verifies against the auxiliary parameters of the `j`-th
of the other signers. -/
def PdlAt (proofs : List PDLwSlackProof) (R_dash R : Pt) (c : ℤ) (ek : ℕ) (sts : List DLogStatement)
    (s : List ℕ) (i j : ℕ) (result : Option Bool) : Prop :=
  ∃ pf si st, proofs[j]? = some pf ∧ s[if j < i then j else j + 1]? = some si ∧ sts[si]? = some st ∧
    pf.verify { ciphertext := c, ek := ek, Q := R_dash, G := R, h1 := st.g, h2 := st.ni,
                N_tilde := st.N } = result

/-- **C42.** For signers that are parties of the key, the check succeeds exactly when there is one proof
per other signer and each verifies; when it returns an error, the error names signer `i` and nobody
else.  Missing: it can also panic, blaming nobody (see `C42_panics_iff`). -/
theorem C42_pdl_check_partial {proofs : List PDLwSlackProof} {R_dash R : Pt} {c : ℤ} {ek : ℕ}
    {sts : List DLogStatement} {s : List ℕ} {i : ℕ} (hs : 0 < s.length) (hmem : ∀ x ∈ s, x < sts.length) :
    (phase5_verify_pdl proofs R_dash R c ek sts s i = .ok () ↔
      proofs.length = s.length - 1 ∧
        ∀ j < proofs.length, PdlAt proofs R_dash R c ek sts s i j (some true)) ∧
    (∀ e, phase5_verify_pdl proofs R_dash R c ek sts s i = .err e → e.bad_actors = [i]) := by
  have htest : ∀ j, proofs.length = s.length - 1 → j < proofs.length → ∃ r,
      PdlAt proofs R_dash R c ek sts s i j r ∧
      phase5_pdl_test proofs R_dash R c ek sts s i j = Res.ofOption r := by
    intro j hl hj
    have hlt : otherInd i j < s.length := otherInd_lt (by omega)
    have hst := hmem s[otherInd i j] (List.getElem_mem hlt)
    refine ⟨_, ⟨proofs[j], s[otherInd i j], sts[s[otherInd i j]], by simp [hj],
      List.getElem?_eq_getElem hlt, List.getElem?_eq_getElem hst, rfl⟩, ?_⟩
    unfold phase5_pdl_test
    simp only
    rw [Res.get_of_lt hlt, Res.bind_ok, Res.get_of_lt hst, Res.bind_ok, Res.get_of_lt hj, Res.bind_ok]
    rfl
  have huniq : ∀ {j r r'}, PdlAt proofs R_dash R c ek sts s i j r →
      PdlAt proofs R_dash R c ek sts s i j r' → r = r' := by
    rintro j r r' ⟨pf, si, st, h1, h2, h3, rfl⟩ ⟨pf', si', st', h1', h2', h3', rfl⟩
    rw [h1, Option.some.injEq] at h1'
    rw [h2, Option.some.injEq] at h2'
    subst h1' h2'
    rw [h3, Option.some.injEq] at h3'
    subst h3'
    rfl
  unfold phase5_verify_pdl
  rw [if_neg (by omega)]
  by_cases hl : proofs.length = s.length - 1
  · rw [if_neg (by simpa using hl)]
    refine ⟨⟨fun h => ⟨hl, ?_⟩, fun h => ?_⟩, ?_⟩
    · rw [Res.bind_eq_ok] at h
      obtain ⟨⟨ok, bad⟩, h1, h2⟩ := h
      cases ok with
      | false => simp at h2
      | true =>
        intro j hj
        obtain ⟨r, hr, ht⟩ := htest j hl hj
        rw [(allPush_range_true.1 h1).2 j hj] at ht
        rwa [Res.ofOption_eq_ok.1 ht.symm] at hr
    · rw [allPush_range_true.2 ⟨rfl, fun j hj => ?_⟩, Res.bind_ok]
      · rfl
      · obtain ⟨r, hr, ht⟩ := htest j hl hj
        rw [ht, huniq hr (h.2 j hj)]
        rfl
    · intro e h
      rw [Res.bind_eq_err] at h
      rcases h with h | ⟨⟨ok, bad⟩, h1, h2⟩
      · refine absurd h (allPush_ne_err ?_)
        intro j hj e'
        obtain ⟨r, -, ht⟩ := htest j hl (by simpa using hj)
        rw [ht]
        cases r <;> simp
      · cases ok with
        | true => simp at h2
        | false =>
          obtain ⟨j, -, rfl, -⟩ := allPush_range_false.1 h1
          simp only [Bool.false_eq_true, if_false, Res.err.injEq] at h2
          rw [← h2]
          rfl
  · rw [if_pos (by simpa using hl)]
    refine ⟨⟨fun h => (by cases h), fun h => absurd h.1 hl⟩, ?_⟩
    intro e h
    rw [Res.err.injEq] at h
    rw [← h]

/-- **C42** (the third outcome): it panics exactly when the count is right and some proof makes the
verification abort, all earlier ones being accepted. -/
theorem C42_panics_iff {proofs : List PDLwSlackProof} {R_dash R : Pt} {c : ℤ} {ek : ℕ}
    {sts : List DLogStatement} {s : List ℕ} {i : ℕ} (hs : 0 < s.length) (hmem : ∀ x ∈ s, x < sts.length) :
    phase5_verify_pdl proofs R_dash R c ek sts s i = .panic ↔
      proofs.length = s.length - 1 ∧ ∃ j < proofs.length,
        PdlAt proofs R_dash R c ek sts s i j none ∧
        ∀ l < j, PdlAt proofs R_dash R c ek sts s i l (some true) := by
  have htest : ∀ j, proofs.length = s.length - 1 → j < proofs.length → ∀ r,
      PdlAt proofs R_dash R c ek sts s i j r ↔
      phase5_pdl_test proofs R_dash R c ek sts s i j = Res.ofOption r := by
    intro j hl hj r
    have hlt : otherInd i j < s.length := otherInd_lt (by omega)
    have hst := hmem s[otherInd i j] (List.getElem_mem hlt)
    unfold phase5_pdl_test PdlAt
    simp only
    rw [Res.get_of_lt hlt, Res.bind_ok, Res.get_of_lt hst, Res.bind_ok, Res.get_of_lt hj, Res.bind_ok]
    rw [show (if j < i then j else j + 1) = otherInd i j from rfl, List.getElem?_eq_getElem hlt,
      List.getElem?_eq_getElem hj]
    constructor
    · rintro ⟨pf, si, st, h1, h2, h3, rfl⟩
      cases h1; cases h2
      rw [List.getElem?_eq_getElem hst] at h3
      cases h3
      rfl
    · intro h
      refine ⟨_, _, _, rfl, rfl, List.getElem?_eq_getElem hst, ?_⟩
      have : ∀ a b : Option Bool, (Res.ofOption a : Res ErrorType Bool) = Res.ofOption b → a = b := by
        intro a b h
        cases a <;> cases b <;> simp_all
      exact this _ _ h
  unfold phase5_verify_pdl
  rw [if_neg (by omega)]
  by_cases hl : proofs.length = s.length - 1
  · rw [if_neg (by simpa using hl), Res.bind_eq_panic]
    constructor
    · rintro (h | ⟨⟨ok, bad⟩, -, h⟩)
      · obtain ⟨j, hj, h1, h2⟩ := allPush_range_panic.1 h
        exact ⟨hl, j, hj, (htest j hl hj none).2 h1,
          fun l hlj => (htest l hl (hlj.trans hj) (some true)).2 (h2 l hlj)⟩
      · cases ok <;> simp at h
    · rintro ⟨-, j, hj, h1, h2⟩
      exact Or.inl (allPush_range_panic.2 ⟨j, hj, (htest j hl hj none).1 h1,
        fun l hlj => (htest l hl (hlj.trans hj) (some true)).1 (h2 l hlj)⟩)
  · rw [if_pos (by simpa using hl)]
    constructor
    · intro h; cases h
    · exact fun h => absurd h.1 hl

end

/-! ### Using an offline stage twice -/

section
variable [EC]

/-- The two candidates for the private key that anybody can compute from two signatures with the same
`r`. -/
def keyCandidates (r s1 s2 : Sc) (m1 m2 : ℤ) : List Sc :=
  [(s2 * m1 - s1 * m2) / (r * (s1 - s2)), (-s2 * m1 - s1 * m2) / (r * (s1 + s2))]

/-- **C43 is violated**: signers who complete two messages that differ modulo the group order with the same
offline stage (nonce `k`, key `d`, partial signatures adding up to `k (m + r d)`), disclose the key to
everybody: it is one of two values computed from the two signatures. -/
theorem C43_reuse_discloses_key {R Y : Pt} {k d : Sc} (hk : k ≠ 0) {x y : ℕ}
    (hR : coords R = some (x, y)) (hr : (x : Sc) ≠ 0) {m1 m2 : ℤ} (hm : (m1 : Sc) ≠ (m2 : Sc))
    {s1 s2 : Sc} {peers1 peers2 : List Sc}
    (h1 : s1 + peers1.sum = k * (m1 + (x : Sc) * d)) (h2 : s2 + peers2.sum = k * (m2 + (x : Sc) * d))
    {sig1 sig2 : SignatureRecid}
    (hs1 : SignManual.complete ⟨(x : Sc), R, s1, m1, Y⟩ peers1 = .ok sig1)
    (hs2 : SignManual.complete ⟨(x : Sc), R, s2, m2, Y⟩ peers2 = .ok sig2) :
    sig1.r = sig2.r ∧ d ∈ keyCandidates sig1.r sig1.s sig2.s m1 m2 := by
  obtain ⟨-, e1⟩ := (gg20_output_ok_iff ⟨(x : Sc), R, s1, m1, Y⟩ peers1 hR sig1).1 hs1
  obtain ⟨-, e2⟩ := (gg20_output_ok_iff ⟨(x : Sc), R, s2, m2, Y⟩ peers2 hR sig2).1 hs2
  simp only [h1] at e1
  simp only [h2] at e2
  subst e1 e2
  refine ⟨rfl, ?_⟩
  unfold keyCandidates
  have hkm : k * ((m1 : Sc) - m2) ≠ 0 := mul_ne_zero hk (sub_ne_zero.2 hm)
  simp only [List.mem_cons, List.not_mem_nil, or_false]
  rcases normS_cases (k * ((m1 : Sc) + (x : Sc) * d)) with h1 | h1 <;>
    rcases normS_cases (k * ((m2 : Sc) + (x : Sc) * d)) with h2 | h2 <;> rw [h1, h2]
  · left
    rw [eq_div_iff (mul_ne_zero hr (by convert hkm using 1; ring))]; ring
  · right
    rw [eq_div_iff (mul_ne_zero hr (by convert hkm using 1; ring))]; ring
  · right
    rw [eq_div_iff (mul_ne_zero hr (by
      intro h0; apply hkm; linear_combination -h0))]; ring
  · left
    rw [eq_div_iff (mul_ne_zero hr (by
      intro h0; apply hkm; linear_combination -h0))]; ring

/-- **C43** (the partial signatures): from one signer's two partial signatures anybody computes its
nonce share and its share of `k d`. -/
theorem C43_reuse_discloses_shares {c : CompletedOfflineStage} {m1 m2 : ℤ}
    (hm : (m1 : Sc) ≠ (m2 : Sc)) {st1 st2 : LocalSignature} {p1 p2 : Sc} {x y : ℕ}
    (hR : coords c.R = some (x, y)) (hr : (x : Sc) ≠ 0)
    (h1 : SignManual.new m1 c = .ok (st1, p1)) (h2 : SignManual.new m2 c = .ok (st2, p2)) :
    c.k_i = (p1 - p2) / ((m1 : Sc) - m2) ∧
      c.sigma_i = (p2 * m1 - p1 * m2) / ((x : Sc) * ((m1 : Sc) - m2)) := by
  rw [new_eq hR, Res.ok.injEq, Prod.mk.injEq] at h1 h2
  obtain ⟨-, rfl⟩ := h1
  obtain ⟨-, rfl⟩ := h2
  have hne := sub_ne_zero.2 hm
  constructor
  · rw [eq_div_iff hne]; ring
  · rw [eq_div_iff (mul_ne_zero hr hne)]; ring

/-- **C43** (partial): signing one message (or two messages equal modulo the group order) again gives the
same partial signature and hence nothing new.  Missing: different messages, for which the property is
false. -/
theorem C43_same_message_partial {c : CompletedOfflineStage} {m1 m2 : ℤ} (hm : (m1 : Sc) = (m2 : Sc))
    {st1 st2 : LocalSignature} {p1 p2 : Sc}
    (h1 : SignManual.new m1 c = .ok (st1, p1)) (h2 : SignManual.new m2 c = .ok (st2, p2)) :
    p1 = p2 := by
  have hne : c.R ≠ 0 := by
    intro h0
    unfold SignManual.new phase7_local_sig at h1
    rw [h0] at h1
    simp [xc] at h1
  obtain ⟨x, y, hR⟩ := exists_coords hne
  rw [new_eq hR, Res.ok.injEq, Prod.mk.injEq] at h1 h2
  rw [← h1.2, ← h2.2, hm]

end
/-! ### Examples -/

section Examples
attribute [local instance] Toy.crypto

/-- Shares of the secret 5 on the line `5 + 7 X`. -/
def toyX (i : ℕ) : ZMod 31 := 5 + 7 * i

theorem toyX_poly : OnPolynomial 1 3 toyX
    (Polynomial.C (5 : ZMod 31) + Polynomial.C (7 : ZMod 31) * Polynomial.X) := by
  constructor
  · refine lt_of_le_of_lt (Polynomial.degree_add_le _ _) (max_lt ?_ ?_)
    · exact lt_of_le_of_lt Polynomial.degree_C_le (by norm_num)
    · exact lt_of_le_of_lt (Polynomial.degree_C_mul_X_le _) (by norm_num)
  · intro i _ _
    rw [Polynomial.eval_add, Polynomial.eval_mul, Polynomial.eval_C, Polynomial.eval_C, Polynomial.eval_X]
    rfl

example := C38_signing_shares (ε := Unit) toyX_poly (by decide) (by decide) (s_l := [3, 1]) (by decide)
  (by decide) (by decide)
example := C38_too_few (t := 2) (n := 3) (by decide) (s_l := [3, 1]) (by decide) (by decide) (by decide) toyX

/-- Samples of the signer at position `k`. -/
def toySign (k : ℕ) : SignRandomness :=
  { k := ((3 + k : ℕ) : ZMod 31), gamma := ((6 + 2 * k : ℕ) : ZMod 31), blind := 77, ra := 1
    alice := fun _ => ⟨100, 7, 11, 13⟩, gammaR := fun _ => 1, gammaBeta := fun j => 1000 + j
    gammaT1 := fun _ => (3 : ZMod 31), gammaT2 := fun _ => (4 : ZMod 31), wR := fun _ => 1
    wBeta := fun j => 900 + j, wT1 := fun _ => (3 : ZMod 31), wT2 := fun _ => (4 : ZMod 31)
    l := (8 : ZMod 31), ped1 := (9 : ZMod 31), ped2 := (10 : ZMod 31), pdl := fun _ => ⟨100, 7, 11, 13⟩
    heg1 := (11 : ZMod 31), heg2 := (12 : ZMod 31) }

/-- Two signers with moduli above 1901 and usable auxiliary parameters. -/
theorem toySample {N : ℕ → ℕ} (hN : ∀ j < 2, 1902 ≤ N j) {sts : List DLogStatement}
    (hst : ∀ st ∈ sts, 0 < st.N ∧ Int.gcd st.g st.N = 1 ∧ Int.gcd st.ni st.N = 1)
    (w : ℕ → ZMod 31) {k : ℕ} (hk : k < 2) :
    HonestSample 2 N (fun j => (toySign j).k) w sts k (toySign k) := by
  have hv : ∀ a b : ZMod 31, (((a.val * b.val : ℕ)) : ℤ) ≤ 900 := by decide
  have h1 : Int.gcd 1 = fun x => 1 := by ext x; simp
  constructor
  · simp [toySign]
  · intro i; simp [toySign]
  · refine in_range_of_bound (by have := hN k hk; omega) hst (fun i => by simp [toySign]) ?_
    intro l i
    have h2 := toy_hash_le l
    have h3 := ZMod.val_lt (toySign k).k
    have h4 : (hashInts l : ℤ) * (toySign k).k.val ≤ 30 * 30 := by
      have h5 : (toySign k).k.val ≤ 30 := by
        have : (EC.q : ℕ) = 31 := rfl
        omega
      exact_mod_cast Nat.mul_le_mul h2 h5
    have h6 : ((toySign k).alice i).alpha = 100 := rfl
    have h7 : ((EC.q : ℕ) : ℤ) = 31 := rfl
    rw [h6, h7]
    generalize (hashInts l : ℤ) * (toySign k).k.val = z at h4
    omega
  · intro j _ _; simp [toySign]
  · intro j _ _; simp [toySign]
  · intro j _ _; simp [toySign]; omega
  · intro j _ _; simp [toySign]; omega
  · intro j hj _
    have h1 := hv (toySign j).k (toySign k).gamma
    have h2 := hN j hj
    have h3 : (toySign k).gammaBeta j = 1000 + j := rfl
    rw [h3]
    push_cast at h1
    omega
  · intro j hj _
    have h1 := hv (toySign j).k (w k)
    have h2 := hN j hj
    have h3 : (toySign k).wBeta j = 900 + j := rfl
    rw [h3]
    push_cast at h1
    omega

/-- The key of party `i`. -/
def toyLocal (i : ℕ) : LocalKey :=
  { paillier_dk := toyKey, pk_vec := (List.range 3).map (fun j => toyX (j + 1) • (1 : ZMod 31))
    keys_linear := ⟨(5 : ZMod 31), toyX i⟩, paillier_key_vec := (List.range 3).map (fun _ => toyKey.n)
    y_sum_s := (5 : ZMod 31) • (1 : ZMod 31), h1_h2_n_tilde_vec := [toySt, toySt, toySt]
    vss_scheme := ⟨1, 3, []⟩, i := i, t := 1, n := 3 }

theorem toyHonest : HonestSigners 3 ((5 : ZMod 31) • (G : Pt)) toyX (fun _ => toyKey)
    [toySt, toySt, toySt] [3, 1] (fun k => toyLocal ([3, 1].getD k 0)) toySign :=
  { n_lt := by decide, n_u16 := by decide, nodup := by decide, members := by decide
    holds := by
      intro k hk
      have hb : ∀ k < [3, 1].length, 1 ≤ [3, 1].getD k 0 ∧ [3, 1].getD k 0 ≤ 3 := by decide
      exact ⟨(hb k hk).1, (hb k hk).2, rfl, rfl, rfl, rfl, rfl, rfl, rfl⟩
    aux := ⟨rfl, by decide⟩
    dk_valid := fun _ _ _ => toyKey_valid
    sample := fun k hk => toySample (fun _ _ => by decide) (by decide) _ hk
    k_sum := by decide
    gamma_sum := by decide }

/-- C39's hypotheses hold for signers 3 and 1 of a 2-of-3 key and the message 10. -/
example : ∃ cs sig, offline [3, 1] (fun k => toyLocal ([3, 1].getD k 0)) toySign = .ok cs ∧
    online 10 cs = .ok [sig, sig] ∧
    EcdsaEq ((5 : ZMod 31) • (G : Pt)) 10 sig.r sig.s ∧ LowS sig.s := by
  have hrec := toyX_poly.reconstructs (by decide)
  have h0 : (Polynomial.C (5 : ZMod 31) + Polynomial.C (7 : ZMod 31) * Polynomial.X).eval 0 = 5 := by simp
  obtain ⟨cs, h1, -, -, h2⟩ := C39_honest_signing toyHonest (h0 ▸ hrec) (by decide)
  obtain ⟨sig, h3, h4, h5⟩ := h2 10 (by
    intro xr y h
    have : ∀ xy ∈ coords ((∑ j ∈ Finset.range [3, 1].length, (toySign j).k)⁻¹ • (G : Pt)),
      ((10 : ℤ) : ZMod 31) + (xy.1 : ZMod 31) * 5 ≠ 0 := by decide +kernel
    exact this (xr, y) h)
  exact ⟨cs, sig, h1, h3, h4, h5⟩

/-- The hypotheses of `C39_keygen_then_sign` can be met. -/
example : ∃ (krnd : ℕ → KeygenRandomness) (keys : List LocalKey) (key : ℕ → LocalKey) (x : ℕ → Sc)
    (sts : List DLogStatement), (∀ k < 3, Keygen.HonestRandomness 1 (krnd k)) ∧
    Keygen.run 1 3 krnd = .ok keys ∧ (∀ k i, [3, 1][k]? = some i → keys[i - 1]? = some (key k)) ∧
    (∀ i k, keys[i]? = some k → k.keys_linear.x_i = x (i + 1)) ∧
    (∀ k ∈ keys, k.h1_h2_n_tilde_vec = sts) ∧
    ∀ k < 2, HonestSample 2 (fun j => (krnd ([3, 1].getD j 0 - 1)).dk.n) (fun j => (toySign j).k)
      (signShare x [3, 1]) sts k (toySign k) := by
  have hex := fun k : ℕ => honestRandomness_exists 1 ((k + 2 : ℕ) : ZMod 31) [(7 : ZMod 31)] rfl
  choose krnd hon _ _ using hex
  refine ⟨krnd, _, fun k => Keygen.rKey 1 3 krnd ([3, 1].getD k 0 - 1),
    fun i => Keygen.rX 3 krnd (i - 1), (List.range 3).map (fun j => (Keygen.rBc krnd j).dlog_statement),
    fun k _ => hon k, Keygen.run_eq (by decide) (fun k _ => hon k),
    ?_, ?_, ?_, ?_⟩
  · intro k i hi
    rcases k with _ | _ | k <;> simp at hi <;> subst hi <;> rfl
  · intro i k hk
    rw [List.getElem?_map] at hk
    obtain ⟨j, hj, rfl⟩ := Option.map_eq_some_iff.1 hk
    obtain ⟨h1, rfl⟩ := List.getElem?_eq_some_iff.1 hj
    simp only [List.getElem_range]
    rfl
  · intro k hk
    obtain ⟨i, -, rfl⟩ := List.mem_map.1 hk
    rfl
  · intro k hk
    refine toySample ?_ (auxOk_rBc (fun k _ => hon k)).usable _ hk
    intro j _
    by_contra hlt
    have h1 : Nat.size (krnd ([3, 1].getD j 0 - 1)).dk.n ≤ 11 := Nat.size_le.2 (by omega)
    have h2 := (hon ([3, 1].getD j 0 - 1)).dk_size
    rw [bitLength, Int.natAbs_natCast] at h2
    omega

/-- Two signers' first messages for C40, C41 and C42: signer 0 looks at signer 1. -/
def toyPf : DLogProof := DLogProof.prove (7 : ZMod 31) (3 : ZMod 31)

example := (C40_nonce_point_iff (b_proofs := [toyPf, toyPf])
  (decoms := [⟨5, (2 : ZMod 31)⟩, ⟨5, (7 : ZMod 31)⟩, ⟨6, (7 : ZMod 31)⟩])
  (bcs := [⟨0⟩, ⟨hashCom (ser (7 : ZMod 31)) 5⟩, ⟨hashCom (ser (7 : ZMod 31)) 6⟩]) (m := 3) (index := 0)
  (2 : ZMod 31) (by decide) (by decide) rfl rfl rfl (1 : ZMod 31)).1 (by decide +kernel)

example := C40_second_offender_not_named (b_proofs := [toyPf, toyPf])
  (decoms := [⟨5, (2 : ZMod 31)⟩, ⟨5, (8 : ZMod 31)⟩, ⟨6, (9 : ZMod 31)⟩])
  (bcs := [⟨0⟩, ⟨hashCom (ser (7 : ZMod 31)) 5⟩, ⟨hashCom (ser (7 : ZMod 31)) 6⟩]) (m := 3) (index := 0)
  (2 : ZMod 31) (by decide) (by decide) rfl rfl rfl (i := 1) (j := 2) (by decide) (by decide) (by decide)
  (by
    rintro ⟨pf, d, bc, h1, h2, -, h3, -⟩
    cases h1; cases h2
    revert h3; decide +kernel)

example := C41_checks_force_signature (m := 2) (k := fun i => ((3 + i : ℕ) : ZMod 31))
  (sigma := fun i => ((4 : ℕ) : ZMod 31)) (R := (9 : ZMod 31)) (Y := (10 : ZMod 31)) (by decide) (by decide)

/-- Two signatures from one offline stage, and the key 5 they disclose. -/
example := C43_reuse_discloses_key (R := (9 : ZMod 31)) (Y := (5 : ZMod 31)) (k := (7 : ZMod 31))
  (d := (5 : ZMod 31)) (by decide) (x := 20) (y := 40) (by decide) (by decide) (m1 := 10) (m2 := 11)
  (by decide) (s1 := (3 : ZMod 31)) (s2 := (4 : ZMod 31)) (peers1 := [(7 * (10 + 100) - 3 : ZMod 31)])
  (peers2 := [(7 * (11 + 100) - 4 : ZMod 31)]) (by decide) (by decide)
  (sig1 := ⟨(20 : ZMod 31), (5 : ZMod 31), 0⟩) (sig2 := ⟨(20 : ZMod 31), (2 : ZMod 31), 1⟩)
  (by decide +kernel) (by decide +kernel)

/-- A remote panic: a proof whose `z` has no inverse modulo the auxiliary modulus. -/
example := (C42_panics_iff (proofs := [⟨5, (0 : ZMod 31), 1, 1, 0, 1, 0⟩]) (R_dash := (3 : ZMod 31))
  (R := (9 : ZMod 31)) (c := 2) (ek := toyKey.n) (sts := [toySt, toySt]) (s := [0, 1]) (i := 0)
  (by decide) (by decide)).1 (by decide +kernel)

end Examples
end Verif.Props
