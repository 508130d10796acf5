import Verif.Spec.SignSecrecy
import Verif.Lemmas.SignDraws
import Verif.Lemmas.SignChecks

/-! Lemmas on the shares that honest signers compute beside dishonest ones. -/

namespace Verif.Spec

/-! ### Counting masks with given residues -/

theorem count_residue_le {q n : ℕ} (u : ZMod q) :
    count (Finset.Ico 0 n) (fun v => (v : ZMod q) = u) ≤ n / q + 1 := by
  rw [count_eq]
  refine (Finset.card_le_card_of_injOn (t := Finset.range (n / q + 1)) (fun v => v / q) (fun v hv => ?_)
    fun v hv w hw e => ?_).trans (by simp)
  · obtain ⟨h1, -⟩ := mem_sel.1 hv
    rw [Finset.mem_Ico] at h1
    rw [Finset.coe_range, Set.mem_Iio]
    exact Nat.lt_succ_of_le (Nat.div_le_div_right h1.2.le)
  · have h1 := (mem_sel.1 hv).2
    have h2 := (mem_sel.1 hw).2
    have h3 := (ZMod.natCast_eq_natCast_iff' v w q).1 (h1.trans h2.symm)
    rw [← Nat.div_add_mod v q, ← Nat.div_add_mod w q, h3]
    dsimp only at e
    rw [e]

theorem le_count_residue {q n : ℕ} [NeZero q] (u : ZMod q) :
    n / q ≤ count (Finset.Ico 0 n) (fun v => (v : ZMod q) = u) := by
  rw [count_eq]
  have h0 : 0 < q := Nat.pos_of_ne_zero (NeZero.ne q)
  refine le_trans (by simp) (Finset.card_le_card_of_injOn (s := Finset.range (n / q)) (fun t => u.val + q * t)
    (fun t ht => ?_) fun v _ w _ e => ?_)
  · rw [Finset.coe_range, Set.mem_Iio] at ht
    refine mem_sel.2 ⟨Finset.mem_Ico.2 ⟨Nat.zero_le _, ?_⟩, by simp⟩
    have h1 := ZMod.val_lt u
    calc u.val + q * t < q + q * t := by omega
      _ = q * (t + 1) := by ring
      _ ≤ q * (n / q) := Nat.mul_le_mul_left _ ht
      _ ≤ n := Nat.mul_div_le n q
  · dsimp only at e
    exact Nat.eq_of_mul_eq_mul_left h0 (by omega)

/-- If points with the residues `u` and below `n - b` are selected, and only points with these residues, then
nearly a fraction `1 / q` per coordinate is. -/
theorem count_residues {ι : Type} [Fintype ι] [DecidableEq ι] {q n b : ℕ} [NeZero q] (u : ι → ZMod q)
    {P : (ι → ℕ) → Prop} (h1 : ∀ f, P f → ∀ i, (f i : ZMod q) = u i)
    (h2 : ∀ f, (∀ i, f i < n - b ∧ (f i : ZMod q) = u i) → P f) :
    ((n - b) / q) ^ Fintype.card ι ≤ count (Fintype.piFinset fun _ : ι => Finset.Ico 0 n) P ∧
    count (Fintype.piFinset fun _ : ι => Finset.Ico 0 n) P ≤ (n / q + 1) ^ Fintype.card ι := by
  constructor
  · calc ((n - b) / q) ^ Fintype.card ι
        ≤ ∏ i : ι, (sel (Finset.Ico 0 (n - b)) (fun v => (v : ZMod q) = u i)).card := by
          rw [← Finset.card_univ, ← Finset.prod_const]
          exact Finset.prod_le_prod' fun i _ => le_count_residue (u i)
      _ = (Fintype.piFinset fun i => sel (Finset.Ico 0 (n - b)) (fun v => (v : ZMod q) = u i)).card := by
          rw [Fintype.card_piFinset]
      _ ≤ _ := by
          rw [count_eq]
          refine Finset.card_le_card fun f hf => ?_
          rw [Fintype.mem_piFinset] at hf
          have hf' : ∀ i, f i < n - b ∧ (f i : ZMod q) = u i := fun i => by
            have := mem_sel.1 (hf i)
            exact ⟨(Finset.mem_Ico.1 this.1).2, this.2⟩
          refine mem_sel.2 ⟨Fintype.mem_piFinset.2 fun i => Finset.mem_Ico.2 ⟨Nat.zero_le _, ?_⟩, h2 f hf'⟩
          have := (hf' i).1
          omega
  · calc _ ≤ (Fintype.piFinset fun i => sel (Finset.Ico 0 n) (fun v => (v : ZMod q) = u i)).card := by
          rw [count_eq]
          refine Finset.card_le_card fun f hf => ?_
          obtain ⟨m1, m2⟩ := mem_sel.1 hf
          exact Fintype.mem_piFinset.2 fun i => mem_sel.2 ⟨Fintype.mem_piFinset.1 m1 i, h1 f m2 i⟩
      _ = ∏ i : ι, (sel (Finset.Ico 0 n) (fun v => (v : ZMod q) = u i)).card := by
          rw [Fintype.card_piFinset]
      _ ≤ (n / q + 1) ^ Fintype.card ι := by
          rw [← Finset.card_univ, ← Finset.prod_const]
          exact Finset.prod_le_prod' fun i _ => count_residue_le (u i)

end Verif.Spec

namespace Verif.GG20.Sign

open EC Crypto Spec

variable [Crypto]

variable {n : ℕ} {Y : Pt} {x : ℕ → Sc} {dk : ℕ → DecKey} {sts : List DLogStatement}
  {s_l : List ℕ} {k : ℕ} {key : LocalKey} {rnd : SignRandomness}

/-- The answer of a signer with share `b` to the ciphertext `c`. -/
def reply (N : ℕ) (c : ℤ) (b : Sc) (r beta : ℤ) (t1 t2 : Sc) : MessageB :=
  ⟨Paillier.add N (Paillier.mul N c b.val) (Paillier.encrypt N beta r), DLogProof.prove b t1,
    DLogProof.prove (beta : Sc) t2⟩

/-- The checks on the first message `m` of the signer at position `j`. -/
def FirstOk (dk : ℕ → DecKey) (sts : List DLogStatement) (s_l : List ℕ) (j : ℕ) (m : MessageA) : Prop :=
  m.range_proofs.length = sts.length ∧ ∀ y ∈ m.range_proofs.zip sts, y.1.verify m.c (oN dk s_l j) y.2 = some true

theorem MessageB.b_ok_reply {b : Sc} {N : ℕ} {m_a : MessageA} {r beta : ℤ} {sts : List DLogStatement}
    {t1 t2 : Sc} {out : MessageB × Sc} : MessageB.b b N m_a r beta sts t1 t2 = .ok out ↔
      (m_a.range_proofs.length = sts.length ∧
        ∀ y ∈ m_a.range_proofs.zip sts, y.1.verify m_a.c N y.2 = some true) ∧
      out = (reply N m_a.c b r beta t1 t2, 0 - (beta : Sc)) := by
  rw [MessageB.b_ok_iff, and_assoc]; rfl

section
variable (h : HonestSigner n Y x dk sts s_l k key rnd)
include h

/-- Honest signer `k` answers iff the first messages pass the checks; then with this. -/
theorem secondRound_iff {rr : SignRandomness} {r : Round1} (hr : Inv1 dk s_l k key rnd r)
    (b1 : ℕ → MessageA × SignBroadcastPhase1) {r2 : Round2} {out : List (Msg (MessageB × MessageB))} :
    r.proceed ((others s_l.length k).map b1) rr = .ok (r2, out) ↔
      (∀ j < s_l.length, j ≠ k → FirstOk dk sts s_l j (b1 j).1) ∧
      r2 = { i := k + 1, s_l := s_l, local_key := key, sign_keys := r.sign_keys, m_a := r.m_a,
             beta_vec := (others s_l.length k).map (fun j => 0 - ((rr.gammaBeta j : ℤ) : Sc)),
             ni_vec := (others s_l.length k).map (fun j => 0 - ((rr.wBeta j : ℤ) : Sc)),
             bc_vec := (List.range s_l.length).map (fun j => if j = k then r.phase1_com else (b1 j).2),
             m_a_vec := (List.range s_l.length).map (fun j => if j = k then r.m_a.1 else (b1 j).1),
             phase1_decom := r.phase1_decom } ∧
      out = (others s_l.length k).map (fun j => ⟨k + 1, some (j + 1),
        (reply (oN dk s_l j) (b1 j).1.c r.sign_keys.gamma_i (rr.gammaR j) (rr.gammaBeta j) (rr.gammaT1 j)
          (rr.gammaT2 j),
         reply (oN dk s_l j) (b1 j).1.c r.sign_keys.w_i (rr.wR j) (rr.wBeta j) (rr.wT1 j) (rr.wT2 j))⟩) := by
  have hans : ∀ (l : List MessageA) (i : ℕ) (_ : i < s_l.length - 1) (y : (MessageB × Sc) × (MessageB × Sc)),
      l = (List.range s_l.length).map (fun j => if j = k then r.m_a.1 else (b1 j).1) →
      (r.answer l rr i = .ok y ↔ FirstOk dk sts s_l (otherInd k i) (b1 (otherInd k i)).1 ∧
        y = ((reply (oN dk s_l (otherInd k i)) (b1 (otherInd k i)).1.c r.sign_keys.gamma_i
                (rr.gammaR (otherInd k i)) (rr.gammaBeta (otherInd k i)) (rr.gammaT1 (otherInd k i))
                (rr.gammaT2 (otherInd k i)), 0 - ((rr.gammaBeta (otherInd k i) : ℤ) : Sc)),
             (reply (oN dk s_l (otherInd k i)) (b1 (otherInd k i)).1.c r.sign_keys.w_i
                (rr.wR (otherInd k i)) (rr.wBeta (otherInd k i)) (rr.wT1 (otherInd k i))
                (rr.wT2 (otherInd k i)), 0 - ((rr.wBeta (otherInd k i) : ℤ) : Sc)))) := by
    rintro l i hi y rfl
    have hj := otherInd_lt (k := k) hi
    unfold Round1.answer
    simp only [hr.i, Nat.add_sub_cancel, hr.sl, hr.key, h.holds.sts_eq]
    rw [get_zeroBased hj, Res.bind_ok, hs_ek h hj, Res.bind_ok, Keygen.get_map_range hj, Res.bind_ok,
      if_neg (otherInd_ne (k := k) (j := i))]
    simp only [Res.bind_eq_ok, Res.mapErr_eq_ok, MessageB.b_ok_reply, Res.ok.injEq]
    constructor
    · rintro ⟨_, ⟨h1, rfl⟩, _, ⟨-, rfl⟩, rfl⟩
      exact ⟨h1, rfl⟩
    · rintro ⟨h1, rfl⟩
      exact ⟨_, ⟨h1, rfl⟩, _, ⟨h1, rfl⟩, rfl⟩
  have hall : (intoVecIncludingMe ((others s_l.length k).map b1) r.i (r.m_a.1, r.phase1_com)).map Prod.fst =
      (List.range s_l.length).map (fun j => if j = k then r.m_a.1 else (b1 j).1) := by
    rw [hr.i, intoVec_others h.pos, List.map_map]
    refine List.map_congr_left fun j _ => ?_
    simp only [Function.comp]
    split <;> rfl
  have hall2 : (intoVecIncludingMe ((others s_l.length k).map b1) r.i (r.m_a.1, r.phase1_com)).map Prod.snd =
      (List.range s_l.length).map (fun j => if j = k then r.phase1_com else (b1 j).2) := by
    rw [hr.i, intoVec_others h.pos, List.map_map]
    refine List.map_congr_left fun j _ => ?_
    simp only [Function.comp]
    split <;> rfl
  have hrecv : ((List.range s_l.length).map (· + 1)).filter (fun j => j ≠ k + 1) =
      (others s_l.length k).map (· + 1) := by
    unfold others
    rw [List.filter_map]
    congr 1
    refine List.filter_congr fun j _ => ?_
    simp
  have hmapM : ∀ as, Res.mapM (r.answer ((List.range s_l.length).map
        (fun j => if j = k then r.m_a.1 else (b1 j).1)) rr) (List.range (s_l.length - 1)) = .ok as ↔
      (∀ j < s_l.length, j ≠ k → FirstOk dk sts s_l j (b1 j).1) ∧
      as = (others s_l.length k).map (fun j =>
        ((reply (oN dk s_l j) (b1 j).1.c r.sign_keys.gamma_i
                (rr.gammaR j) (rr.gammaBeta j) (rr.gammaT1 j)
                (rr.gammaT2 j), 0 - ((rr.gammaBeta j : ℤ) : Sc)),
             (reply (oN dk s_l j) (b1 j).1.c r.sign_keys.w_i
                (rr.wR j) (rr.wBeta j) (rr.wT1 j)
                (rr.wT2 j), 0 - ((rr.wBeta j : ℤ) : Sc)))) := by
    intro as
    have hback : (∀ j < s_l.length, j ≠ k → FirstOk dk sts s_l j (b1 j).1) →
        Res.mapM (r.answer ((List.range s_l.length).map
          (fun j => if j = k then r.m_a.1 else (b1 j).1)) rr) (List.range (s_l.length - 1)) =
        .ok ((others s_l.length k).map (fun j =>
          ((reply (oN dk s_l j) (b1 j).1.c r.sign_keys.gamma_i
                (rr.gammaR j) (rr.gammaBeta j) (rr.gammaT1 j)
                (rr.gammaT2 j), 0 - ((rr.gammaBeta j : ℤ) : Sc)),
             (reply (oN dk s_l j) (b1 j).1.c r.sign_keys.w_i
                (rr.wR j) (rr.wBeta j) (rr.wT1 j)
                (rr.wT2 j), 0 - ((rr.wBeta j : ℤ) : Sc))))) := fun hok =>
      mapM_others h.pos (F := r.answer _ rr) _ (fun i hi => (hans _ i hi _ rfl).2
        ⟨hok _ (otherInd_lt (k := k) hi) otherInd_ne, rfl⟩)
    constructor
    · intro ha
      have hok : ∀ j < s_l.length, j ≠ k → FirstOk dk sts s_l j (b1 j).1 := by
        intro j hj hjk
        obtain ⟨i, hi, rfl⟩ := index_of_other h.pos hj hjk
        have hl : as.length = s_l.length - 1 := by
          rw [← (Res.mapM_eq_ok.1 ha).length_eq]; simp
        have hb := (List.forall₂_iff_get.1 (Res.mapM_eq_ok.1 ha)).2 i (by simpa using hi) (by omega)
        simp only [List.get_eq_getElem, List.getElem_range] at hb
        exact ((hans _ i hi _ rfl).1 hb).1
      have := hback hok
      rw [ha] at this
      exact ⟨hok, Res.ok.inj this⟩
    · rintro ⟨hok, rfl⟩
      exact hback hok
  unfold Round1.proceed
  dsimp only
  rw [hall, hall2, hr.sl, hr.i, hrecv, hr.key]
  simp only [Res.bind_eq_ok, hmapM, Res.ok.injEq, Prod.mk.injEq]
  constructor
  · rintro ⟨as, ⟨h1, rfl⟩, rfl, rfl⟩
    refine ⟨h1, ?_, ?_⟩
    · simp only [List.map_map]; rfl
    · rw [List.zip_map', List.map_map]; rfl
  · rintro ⟨h1, rfl, rfl⟩
    refine ⟨_, ⟨h1, rfl⟩, ?_, ?_⟩
    · simp only [List.map_map]; rfl
    · rw [List.zip_map', List.map_map]; rfl

/-- Honest signer `k` gets its shares iff the answers pass the checks. -/
theorem shares_iff {rr : SignRandomness} {r : Round2} (hi : r.i = k + 1) (hs : r.s_l = s_l)
    (hkey : r.local_key = key) {be ni : ℕ → Sc} (hbe : r.beta_vec = (others s_l.length k).map be)
    (hni : r.ni_vec = (others s_l.length k).map ni) (b2 : ℕ → MessageB × MessageB) {d s : Sc} :
    (∃ y, r.proceed ((others s_l.length k).map b2) rr = .ok y ∧ y.1.delta_i = d ∧ y.1.sigma_i = s) ↔
      ∃ al mi : ℕ → Sc, (∀ j < s_l.length, j ≠ k →
        (∃ z, (b2 j).1.verify_proofs_get_alpha (dk (s_l.getD k 0)) r.sign_keys.k_i = .ok (al j, z)) ∧
        (∃ z, (b2 j).2.verify_proofs_get_alpha (dk (s_l.getD k 0)) r.sign_keys.k_i = .ok (mi j, z)) ∧
        (b2 j).2.b_proof.pk = signShare x s_l j • G) ∧
      d = r.sign_keys.k_i * r.sign_keys.gamma_i + ((others s_l.length k).map (fun j => al j + be j)).sum ∧
      s = r.sign_keys.k_i * r.sign_keys.w_i + ((others s_l.length k).map (fun j => mi j + ni j)).sum := by
  have hgw : (SignKeys.g_w_vec r.local_key.pk_vec (zeroBased r.s_l) : Res SignError (List Pt)) =
      .ok ((List.range s_l.length).map (fun k => signShare x s_l k • G)) := by
    rw [hkey, h.holds.pks, hs, g_w_vec_eq h.members h.nodup h.n_lt h.n_u16]
  have hfold : ∀ (a0 : Sc) (al be : ℕ → Sc) (l : List ℕ),
      (List.zipWith (· + ·) (l.map al) (l.map be)).foldl (· + ·) a0 = a0 + (l.map (fun j => al j + be j)).sum := by
    intro a0 al be l
    rw [List.zipWith_map, List.zipWith_self]
    generalize l.map (fun j => al j + be j) = l'
    induction l' generalizing a0 with
    | nil => simp
    | cons a l ih => rw [List.foldl_cons, ih, List.sum_cons, add_assoc]
  have hsh : ∀ (i : ℕ) (_ : i < s_l.length - 1) (y : Sc × Sc),
      r.shares ((List.range s_l.length).map (fun k => signShare x s_l k • G))
        ((others s_l.length k).map b2) i = .ok y ↔
      (∃ z, (b2 (otherInd k i)).1.verify_proofs_get_alpha (dk (s_l.getD k 0)) r.sign_keys.k_i = .ok (y.1, z)) ∧
      (∃ z, (b2 (otherInd k i)).2.verify_proofs_get_alpha (dk (s_l.getD k 0)) r.sign_keys.k_i = .ok (y.2, z)) ∧
        (b2 (otherInd k i)).2.b_proof.pk = signShare x s_l (otherInd k i) • G := by
    intro i hlt y
    unfold Round2.shares
    simp only [hi, Nat.add_sub_cancel, hkey, h.holds.dk_own]
    rw [show (Res.get ((others s_l.length k).map b2) i : Res SignError _) = _ from get_others h.pos hlt _,
      Res.bind_ok, Keygen.get_map_range (otherInd_lt (k := k) hlt)]
    simp only [Res.bind_eq_ok, Res.mapErr_eq_ok, Res.assert_eq_ok, decide_eq_true_eq, Res.ok.injEq, Res.bind_ok]
    constructor
    · rintro ⟨a, ha, b, hb, _, e, rfl⟩
      exact ⟨⟨a.2, ha⟩, ⟨b.2, hb⟩, e⟩
    · rintro ⟨⟨z, hz⟩, ⟨z', hz'⟩, e⟩
      exact ⟨_, hz, _, hz', (), e, rfl⟩
  unfold Round2.proceed
  rw [hgw, hs]
  constructor
  · rintro ⟨y, hy, rfl, rfl⟩
    simp only [Res.bind_eq_ok, Res.ok.injEq] at hy
    obtain ⟨_, rfl, sh, hm, d, hd, s, hs', rfl⟩ := hy
    have hl : sh.length = s_l.length - 1 := by
      rw [← (Res.mapM_eq_ok.1 hm).length_eq]; simp
    have hget : ∀ i (hlt : i < s_l.length - 1), r.shares ((List.range s_l.length).map
        (fun k => signShare x s_l k • G)) ((others s_l.length k).map b2) i = .ok (sh[i]'(by omega)) := by
      intro i hlt
      have hb := (List.forall₂_iff_get.1 (Res.mapM_eq_ok.1 hm)).2 i (by simpa using hlt) (by omega)
      simpa only [List.get_eq_getElem, List.getElem_range] using hb
    let pos : ℕ → ℕ := fun j => if j < k then j else j - 1
    have hpos : ∀ i, pos (otherInd k i) = i := by
      intro i
      simp only [pos, otherInd]
      split_ifs <;> omega
    have hmap : sh = (others s_l.length k).map (fun j => sh.getD (pos j) (0, 0)) := by
      have e : others s_l.length k = (List.range (s_l.length - 1)).map (otherInd k) :=
        (range_map_otherInd h.pos).symm
      rw [e, List.map_map]
      refine List.ext_getElem (by simp [hl]) fun i h1 h2 => ?_
      simp [hpos, h1]
    have hmap1 : sh.map Prod.fst = (others s_l.length k).map (fun j => (sh.getD (pos j) (0, 0)).1) := by
      conv_lhs => rw [hmap]
      rw [List.map_map]; rfl
    have hmap2 : sh.map Prod.snd = (others s_l.length k).map (fun j => (sh.getD (pos j) (0, 0)).2) := by
      conv_lhs => rw [hmap]
      rw [List.map_map]; rfl
    refine ⟨fun j => (sh.getD (pos j) (0, 0)).1, fun j => (sh.getD (pos j) (0, 0)).2, ?_, ?_, ?_⟩
    · intro j hj hjk
      obtain ⟨i, hlt, rfl⟩ := index_of_other h.pos hj hjk
      have := (hsh i hlt _).1 (hget i hlt)
      have e : sh.getD (pos (otherInd k i)) (0, 0) = sh[i]'(by omega) := by
        rw [hpos, List.getD_eq_getElem?_getD, List.getElem?_eq_getElem (by omega)]; rfl
      dsimp only
      rw [e]
      exact this
    · unfold SignKeys.phase2_delta_i at hd
      simp only [Res.bind_eq_ok, Res.ok.injEq] at hd
      obtain ⟨_, -, rfl⟩ := hd
      dsimp only
      rw [hbe, hmap1]
      exact hfold _ (fun j => (sh.getD (pos j) (0, 0)).1) be _
    · unfold SignKeys.phase2_sigma_i at hs'
      simp only [Res.bind_eq_ok, Res.ok.injEq] at hs'
      obtain ⟨_, -, rfl⟩ := hs'
      dsimp only
      rw [hni, hmap2]
      exact hfold _ (fun j => (sh.getD (pos j) (0, 0)).2) ni _
  · rintro ⟨al, mi, hv, rfl, rfl⟩
    have hm : Res.mapM (r.shares ((List.range s_l.length).map (fun k => signShare x s_l k • G))
        ((others s_l.length k).map b2)) (List.range (s_l.length - 1)) =
        .ok ((others s_l.length k).map (fun j => (al j, mi j))) :=
      mapM_others h.pos _ fun i hlt => (hsh i hlt _).2 (hv _ (otherInd_lt (k := k) hlt) otherInd_ne)
    have hd : (r.sign_keys.phase2_delta_i (((others s_l.length k).map (fun j => (al j, mi j))).map Prod.fst)
        r.beta_vec : Res SignError Sc) = .ok (r.sign_keys.k_i * r.sign_keys.gamma_i +
          ((others s_l.length k).map (fun j => al j + be j)).sum) := by
      unfold SignKeys.phase2_delta_i
      rw [hbe, List.map_map]
      simp only [List.length_map, decide_true, Res.assert_true, Res.bind_ok]
      rw [show (Prod.fst ∘ fun j => (al j, mi j)) = al from rfl, hfold]
    have hs' : (r.sign_keys.phase2_sigma_i (((others s_l.length k).map (fun j => (al j, mi j))).map Prod.snd)
        r.ni_vec : Res SignError Sc) = .ok (r.sign_keys.k_i * r.sign_keys.w_i +
          ((others s_l.length k).map (fun j => mi j + ni j)).sum) := by
      unfold SignKeys.phase2_sigma_i
      rw [hni, List.map_map]
      simp only [List.length_map, decide_true, Res.assert_true, Res.bind_ok]
      rw [show (Prod.snd ∘ fun j => (al j, mi j)) = mi from rfl, hfold]
    rw [Res.bind_ok, hm, Res.bind_ok, hd, Res.bind_ok, hs', Res.bind_ok]
    exact ⟨_, rfl, rfl, rfl⟩

end

end Verif.GG20.Sign
