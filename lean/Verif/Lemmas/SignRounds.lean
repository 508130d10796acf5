import Verif.Lemmas.SignRun
import Verif.Spec.TooFewSigners

/-! The rounds of an honest signing run. -/

namespace Verif.GG20.Sign

open EC Crypto Spec

variable [Crypto] {n : ℕ} {Y : Pt} {x : ℕ → Sc} {dk : ℕ → DecKey} {sts : List DLogStatement}
  {s_l : List ℕ} {key : ℕ → LocalKey} {rnd : ℕ → SignRandomness}

/-- What the messages `MessageA` of the run satisfy. -/
def IsMA (dk : ℕ → DecKey) (sts : List DLogStatement) (s_l : List ℕ)
    (rnd : ℕ → SignRandomness) (mA : ℕ → MessageA) : Prop :=
  ∀ k < s_l.length, MessageA.a (rnd k).k (oN dk s_l k) (rnd k).ra sts (rnd k).alice = some (mA k) ∧
    (mA k).c = Paillier.encrypt (oN dk s_l k) (rnd k).k.val (rnd k).ra ∧
    (mA k).range_proofs.length = sts.length ∧
    ∀ z ∈ (mA k).range_proofs.zip sts, z.1.verify (mA k).c (oN dk s_l k) z.2 = some true

/-- What the PDL proofs of the run satisfy. -/
def IsPdl (dk : ℕ → DecKey) (sts : List DLogStatement) (s_l : List ℕ) (rnd : ℕ → SignRandomness)
    (mA : ℕ → MessageA) (pf : ℕ → ℕ → PDLwSlackProof) : Prop :=
  ∀ k < s_l.length, ∀ j < s_l.length, ∃ st, sts[s_l.getD j 0 - 1]? = some st ∧
    PDLwSlackProof.prove ⟨(rnd k).k, (rnd k).ra⟩
      (pdlStatement (oRd s_l rnd k) (oR s_l rnd) (mA k).c (oN dk s_l k) st) ((rnd k).pdl j) =
        some (pf k j) ∧
    (pf k j).verify (pdlStatement (oRd s_l rnd k) (oR s_l rnd) (mA k).c (oN dk s_l k) st) =
      some true

/-- The part of `HonestSigners` that does not depend on random values. -/
structure Keyed (n : ℕ) (Y : Pt) (x : ℕ → Sc) (dk : ℕ → DecKey) (sts : List DLogStatement)
    (s_l : List ℕ) (key : ℕ → LocalKey) : Prop where
  n_lt : n < q
  n_u16 : n < 65536
  nodup : s_l.Nodup
  members : ∀ i ∈ s_l, 1 ≤ i ∧ i ≤ n
  holds : ∀ k < s_l.length, KeyOf n Y x dk sts (s_l.getD k 0) (key k)
  dk_valid : ∀ i, 1 ≤ i → i ≤ n → (dk i).Valid

/-- What signer `j` draws to answer signer `k` is usable. -/
structure Answers (x : ℕ → Sc) (dk : ℕ → DecKey) (s_l : List ℕ) (rnd : ℕ → SignRandomness) (j k : ℕ) :
    Prop where
  gammaR_unit : Int.gcd ((rnd j).gammaR k) (oN dk s_l k) = 1
  wR_unit : Int.gcd ((rnd j).wR k) (oN dk s_l k) = 1
  gammaBeta_nonneg : 0 ≤ (rnd j).gammaBeta k
  wBeta_nonneg : 0 ≤ (rnd j).wBeta k
  gamma_no_wrap : (rnd k).k.val * (rnd j).gamma.val + (rnd j).gammaBeta k < oN dk s_l k
  w_no_wrap : (rnd k).k.val * (signShare x s_l j).val + (rnd j).wBeta k < oN dk s_l k

section
variable (h : HonestSigners n Y x dk sts s_l key rnd)
include h

theorem keyed : Keyed n Y x dk sts s_l key :=
  ⟨h.n_lt, h.n_u16, h.nodup, h.members, h.holds, h.dk_valid⟩

theorem answers {j k : ℕ} (hj : j < s_l.length) (hk : k < s_l.length) (hne : k ≠ j) :
    Answers x dk s_l rnd j k :=
  have hs := h.sample j hj
  ⟨hs.gammaR_unit k hk hne, hs.wR_unit k hk hne, hs.gammaBeta_nonneg k hk hne, hs.wBeta_nonneg k hk hne,
    hs.gamma_no_wrap k hk hne, hs.w_no_wrap k hk hne⟩

theorem valid_at {k : ℕ} (hk : k < s_l.length) : (dk (s_l.getD k 0)).Valid :=
  h.dk_valid _ (h.members _ (getD_mem hk)).1 (h.members _ (getD_mem hk)).2

theorem oN_pos {k : ℕ} (hk : k < s_l.length) : 0 < oN dk s_l k :=
  Nat.mul_pos (valid_at h hk).p_prime.pos (valid_at h hk).q_prime.pos

theorem exists_mA : ∃ mA, IsMA dk sts s_l rnd mA := by
  have : ∀ k, ∃ m : MessageA, k < s_l.length →
      MessageA.a (rnd k).k (oN dk s_l k) (rnd k).ra sts (rnd k).alice = some m ∧
      m.c = Paillier.encrypt (oN dk s_l k) (rnd k).k.val (rnd k).ra ∧
      m.range_proofs.length = sts.length ∧
      ∀ z ∈ m.range_proofs.zip sts, z.1.verify m.c (oN dk s_l k) z.2 = some true := by
    intro k
    by_cases hk : k < s_l.length
    · obtain ⟨pfs, h1, h2, h3⟩ := aliceProofs_spec (rs := (rnd k).alice) (oN_pos h hk)
        (Int.natCast_nonneg (rnd k).k.val) (h.sample k hk).ra_unit
        (Paillier.isEnc_encrypt (oN dk s_l k) (rnd k).k.val (rnd k).ra) 0
        (fun st hst => ⟨(h.aux.usable st hst).1, (h.aux.usable st hst).2.1, (h.aux.usable st hst).2.2⟩)
        (h.sample k hk).alpha_nonneg
      have h4 : MessageA.a (rnd k).k (oN dk s_l k) (rnd k).ra sts (rnd k).alice =
          some ⟨Paillier.encrypt (oN dk s_l k) (rnd k).k.val (rnd k).ra, pfs⟩ := by
        unfold MessageA.a; simp only [h1]; rfl
      refine ⟨⟨Paillier.encrypt (oN dk s_l k) (rnd k).k.val (rnd k).ra, pfs⟩, fun _ =>
        ⟨h4, rfl, h2, fun z hz => ?_⟩⟩
      refine (h3 z hz).trans ?_
      have := (h.sample k hk).in_range _ h4 z.1 (List.of_mem_zip hz).1
      rw [decide_eq_true (show z.1.s1 ≤ q3 from this)]
    · exact ⟨⟨0, []⟩, fun h' => absurd h' hk⟩
  choose mA hmA using this
  exact ⟨mA, fun k hk => hmA k hk⟩

theorem exists_pdl {mA : ℕ → MessageA} (hmA : IsMA dk sts s_l rnd mA) :
    ∃ pf, IsPdl dk sts s_l rnd mA pf := by
  have : ∀ k j, ∃ pf : PDLwSlackProof, k < s_l.length → j < s_l.length →
      ∃ st, sts[s_l.getD j 0 - 1]? = some st ∧
      PDLwSlackProof.prove ⟨(rnd k).k, (rnd k).ra⟩
        (pdlStatement (oRd s_l rnd k) (oR s_l rnd) (mA k).c (oN dk s_l k) st) ((rnd k).pdl j) =
          some pf ∧
      pf.verify (pdlStatement (oRd s_l rnd k) (oR s_l rnd) (mA k).c (oN dk s_l k) st) =
        some true := by
    intro k j
    by_cases hk : k < s_l.length
    · by_cases hj : j < s_l.length
      · have hlt : s_l.getD j 0 - 1 < sts.length := by
          have := h.members _ (getD_mem hj)
          rw [h.aux.count]; omega
        have hu := h.aux.usable sts[s_l.getD j 0 - 1] (List.getElem_mem hlt)
        obtain ⟨pf, h1, h2⟩ := pdl_complete (w := ⟨(rnd k).k, (rnd k).ra⟩)
          (st := pdlStatement (oRd s_l rnd k) (oR s_l rnd) (mA k).c (oN dk s_l k)
            sts[s_l.getD j 0 - 1]) (rnd := (rnd k).pdl j) hu.1 hu.2.1 hu.2.2 (oN_pos h hk) rfl
          (h.sample k hk).ra_unit
          (by
            show Paillier.IsEnc (oN dk s_l k) (mA k).c _ _
            rw [(hmA k hk).2.1]
            exact Paillier.isEnc_encrypt _ _ _)
        exact ⟨pf, fun _ _ => ⟨_, List.getElem?_eq_getElem hlt, h1, h2⟩⟩
      · exact ⟨⟨0, 0, 0, 0, 0, 0, 0⟩, fun _ h' => absurd h' hj⟩
    · exact ⟨⟨0, 0, 0, 0, 0, 0, 0⟩, fun h' => absurd h' hk⟩
  choose pf hpf using this
  exact ⟨pf, fun k hk j hj => hpf k j hk hj⟩

variable {mA : ℕ → MessageA} (hmA : IsMA dk sts s_l rnd mA)
include hmA

/-! ### Round 0 -/

noncomputable def st1 (x : ℕ → Sc) (s_l : List ℕ) (key : ℕ → LocalKey) (rnd : ℕ → SignRandomness)
    (mA : ℕ → MessageA) (k : ℕ) : Round1 :=
  { i := k + 1, s_l := s_l, local_key := key k, m_a := (mA k, (rnd k).ra), sign_keys := oSK x s_l rnd k
    phase1_com := oCom rnd k, phase1_decom := oDec rnd k }

omit h in
theorem round0_keyed (h : Keyed n Y x dk sts s_l key) {k : ℕ} (hk : k < s_l.length) :
    Round0.proceed ⟨k + 1, s_l, key k⟩ (rnd k) =
      .ok (st1 x s_l key rnd mA k, [⟨k + 1, none, (mA k, oCom rnd k)⟩]) := by
  have hK := h.holds k hk
  have hm := h.members _ (getD_mem hk)
  unfold Round0.proceed
  simp only [Nat.add_sub_cancel]
  have hget : (Res.get s_l k : Res SignError ℕ) = .ok (s_l.getD k 0) := by
    rw [Res.get_of_lt hk]; simp [hk]
  rw [hget, Res.bind_ok, hK.share, create_eq h.members h.nodup h.n_lt h.n_u16 hk, Res.bind_ok, hK.eks,
    hK.index, Keygen.get_map_range (show s_l.getD k 0 - 1 < n by omega), Res.bind_ok,
    Nat.sub_add_cancel hm.1, hK.sts_eq]
  simp only
  have hma := (hmA k hk).1
  unfold oN at hma
  rw [hma, Res.ofOption_some, Res.bind_ok]
  rfl

theorem round0_eq {k : ℕ} (hk : k < s_l.length) :
    Round0.proceed ⟨k + 1, s_l, key k⟩ (rnd k) =
      .ok (st1 x s_l key rnd mA k, [⟨k + 1, none, (mA k, oCom rnd k)⟩]) :=
  round0_keyed hmA (keyed h) hk

/-! ### Round 1 -/

noncomputable def st2 (x : ℕ → Sc) (s_l : List ℕ) (key : ℕ → LocalKey) (rnd : ℕ → SignRandomness)
    (mA : ℕ → MessageA) (k : ℕ) : Round2 :=
  { i := k + 1, s_l := s_l, local_key := key k, sign_keys := oSK x s_l rnd k, m_a := (mA k, (rnd k).ra)
    beta_vec := (others s_l.length k).map (oBeta rnd k)
    ni_vec := (others s_l.length k).map (oNi rnd k)
    bc_vec := (List.range s_l.length).map (oCom rnd)
    m_a_vec := (List.range s_l.length).map mA
    phase1_decom := oDec rnd k }

omit h in
theorem answer_eq (h : Keyed n Y x dk sts s_l key) {k j : ℕ} (hk : k < s_l.length) (hj : j < s_l.length - 1) :
    (st1 x s_l key rnd mA k).answer ((List.range s_l.length).map mA) (rnd k) j =
      .ok ((oBg dk s_l rnd mA k (otherInd k j), oBeta rnd k (otherInd k j)),
        (oBw x dk s_l rnd mA k (otherInd k j), oNi rnd k (otherInd k j))) := by
  have hK := h.holds k hk
  have hj' := otherInd_lt (k := k) hj
  have hm := h.members _ (getD_mem hj')
  unfold Round1.answer
  simp only [st1, Nat.add_sub_cancel]
  rw [get_zeroBased hj', Res.bind_ok, hK.eks,
    Keygen.get_map_range (show s_l.getD (otherInd k j) 0 - 1 < n by omega), Res.bind_ok,
    Nat.sub_add_cancel hm.1, Keygen.get_map_range hj', Res.bind_ok, hK.sts_eq]
  obtain ⟨-, -, hl, hv⟩ := hmA _ hj'
  have hg := (MessageB.b_ok_iff (b := (rnd k).gamma) (r := (rnd k).gammaR (otherInd k j))
    (beta_tag := (rnd k).gammaBeta (otherInd k j)) (t_b := (rnd k).gammaT1 (otherInd k j))
    (t_beta := (rnd k).gammaT2 (otherInd k j)) (N := oN dk s_l (otherInd k j))).2 ⟨hl, hv, rfl⟩
  have hw := (MessageB.b_ok_iff (b := signShare x s_l k) (r := (rnd k).wR (otherInd k j))
    (beta_tag := (rnd k).wBeta (otherInd k j)) (t_b := (rnd k).wT1 (otherInd k j))
    (t_beta := (rnd k).wT2 (otherInd k j)) (N := oN dk s_l (otherInd k j))).2 ⟨hl, hv, rfl⟩
  unfold oN at hg hw
  simp only [oSK]
  rw [hg, hw]
  rfl

omit h in
theorem round1_keyed (h : Keyed n Y x dk sts s_l key) {k : ℕ} (hk : k < s_l.length) :
    (st1 x s_l key rnd mA k).proceed ((others s_l.length k).map (fun j => (mA j, oCom rnd j))) (rnd k) =
      .ok (st2 x s_l key rnd mA k, (others s_l.length k).map (fun j =>
        ⟨k + 1, some (j + 1), (oBg dk s_l rnd mA k j, oBw x dk s_l rnd mA k j)⟩)) := by
  have hall : intoVecIncludingMe ((others s_l.length k).map (fun j => (mA j, oCom rnd j))) (k + 1)
      (mA k, oCom rnd k) = (List.range s_l.length).map (fun j => (mA j, oCom rnd j)) :=
    intoVecIncludingMe_filter hk (fun j => (mA j, oCom rnd j))
  have hans := mapM_others hk (F := (st1 x s_l key rnd mA k).answer ((List.range s_l.length).map mA) (rnd k))
    (fun i => ((oBg dk s_l rnd mA k i, oBeta rnd k i), (oBw x dk s_l rnd mA k i, oNi rnd k i)))
    (fun j hj => answer_eq hmA h hk hj)
  unfold Round1.proceed
  have e1 : (st1 x s_l key rnd mA k).i = k + 1 := rfl
  have e2 : (st1 x s_l key rnd mA k).m_a.1 = mA k := rfl
  have e3 : (st1 x s_l key rnd mA k).phase1_com = oCom rnd k := rfl
  have e4 : (st1 x s_l key rnd mA k).s_l = s_l := rfl
  have hrec : ((List.range s_l.length).map (· + 1)).filter (fun j => decide (j ≠ k + 1)) =
      (others s_l.length k).map (· + 1) := by
    rw [List.filter_map]
    unfold others
    congr 1
    refine List.filter_congr fun j _ => ?_
    simp
  simp only [e1, e2, e3, e4, hall, List.map_map, Function.comp_def, hans, Res.bind_ok, hrec]
  simp only [Res.ok.injEq, Prod.mk.injEq]
  refine ⟨?_, ?_⟩
  · simp only [st2, st1, others]
  · rw [show (List.range s_l.length).filter (fun j => decide (j ≠ k)) = others s_l.length k from rfl,
      List.zip_map, List.map_map, List.zip_eq_zipWith, List.map_zipWith]
    rw [List.zipWith_self]
    rfl

theorem round1_eq {k : ℕ} (hk : k < s_l.length) :
    (st1 x s_l key rnd mA k).proceed ((others s_l.length k).map (fun j => (mA j, oCom rnd j))) (rnd k) =
      .ok (st2 x s_l key rnd mA k, (others s_l.length k).map (fun j =>
        ⟨k + 1, some (j + 1), (oBg dk s_l rnd mA k j, oBw x dk s_l rnd mA k j)⟩)) :=
  round1_keyed hmA (keyed h) hk

/-! ### Round 2 -/

noncomputable def st3 (x : ℕ → Sc) (dk : ℕ → DecKey) (s_l : List ℕ) (key : ℕ → LocalKey)
    (rnd : ℕ → SignRandomness) (mA : ℕ → MessageA) (k : ℕ) : Round3 :=
  { i := k + 1, s_l := s_l, local_key := key k, sign_keys := oSK x s_l rnd k, m_a := (mA k, (rnd k).ra)
    mb_gamma_s := (others s_l.length k).map (fun j => oBg dk s_l rnd mA j k)
    bc_vec := (List.range s_l.length).map (oCom rnd)
    m_a_vec := (List.range s_l.length).map mA
    delta_i := oDelta s_l rnd k
    t_i := oT x s_l rnd k
    l_i := (rnd k).l
    sigma_i := oSigma x s_l rnd k
    t_i_proof := PedersenProof.prove (oSigma x s_l rnd k) (rnd k).l (rnd k).ped1 (rnd k).ped2
    phase1_decom := oDec rnd k }

omit h in
/-- Alice's side of an exchange without wrap-around. -/
theorem alpha_eq (h : Keyed n Y x dk sts s_l key) {k : ℕ} (hk : k < s_l.length)
    (hra : Int.gcd (rnd k).ra (oN dk s_l k) = 1) {b : Sc} {r bt : ℤ} {t1 t2 : Sc}
    (hr : Int.gcd r (oN dk s_l k) = 1) (hbt : 0 ≤ bt) (hw : (rnd k).k.val * b.val + bt < oN dk s_l k) :
    MessageB.verify_proofs_get_alpha
      ⟨Paillier.add (oN dk s_l k) (Paillier.mul (oN dk s_l k) (mA k).c b.val)
        (Paillier.encrypt (oN dk s_l k) bt r), DLogProof.prove b t1, DLogProof.prove (bt : Sc) t2⟩
      (dk (s_l.getD k 0)) (rnd k).k =
      .ok ((rnd k).k * b + (bt : Sc), ((rnd k).k.val * b.val + bt : ℤ)) := by
  obtain ⟨-, hc, hl, hv⟩ := hmA k hk
  have hb := (MessageB.b_ok_iff (b := b) (r := r) (beta_tag := bt) (t_b := t1) (t_beta := t2)
    (N := oN dk s_l k)).2 ⟨hl, hv, rfl⟩
  have hver := mta_verify_honest
    (h.dk_valid _ (h.members _ (getD_mem hk)).1 (h.members _ (getD_mem hk)).2) hra hr hb
    (by rw [hc]; exact Paillier.isEnc_encrypt _ _ _)
  have hshare : ((rnd k).k.val * b.val + bt : ℤ) % (dk (s_l.getD k 0)).n =
      (rnd k).k.val * b.val + bt := Int.emod_eq_of_lt (by positivity) hw
  have hcast : (((rnd k).k.val * b.val + bt : ℤ) : Sc) = (rnd k).k * b + bt := by push_cast; simp
  simp only [hshare] at hver
  rw [if_pos hcast] at hver
  rw [hver, hcast]

omit h in
theorem shares_keyed (h : Keyed n Y x dk sts s_l key) {k j : ℕ} (hk : k < s_l.length)
    (hra : Int.gcd (rnd k).ra (oN dk s_l k) = 1) (hj : j < s_l.length - 1)
    (hs : Answers x dk s_l rnd (otherInd k j) k) :
    (st2 x s_l key rnd mA k).shares ((List.range s_l.length).map (fun k => signShare x s_l k • G))
      ((others s_l.length k).map (fun j => (oBg dk s_l rnd mA j k, oBw x dk s_l rnd mA j k))) j =
      .ok (oAlpha rnd k (otherInd k j), oMiu x s_l rnd k (otherInd k j)) := by
  have hK := h.holds k hk
  have hj' := otherInd_lt (k := k) hj
  unfold Round2.shares
  simp only [st2, Nat.add_sub_cancel, oSK]
  rw [show (others s_l.length k) = (List.range s_l.length).filter (fun j => decide (j ≠ k)) from rfl,
    get_others hk hj, Res.bind_ok, hK.dk_own]
  have hg := alpha_eq hmA h hk hra (b := (rnd (otherInd k j)).gamma)
    (t1 := (rnd (otherInd k j)).gammaT1 k) (t2 := (rnd (otherInd k j)).gammaT2 k) hs.gammaR_unit
    hs.gammaBeta_nonneg hs.gamma_no_wrap
  have hw := alpha_eq hmA h hk hra (b := signShare x s_l (otherInd k j))
    (t1 := (rnd (otherInd k j)).wT1 k) (t2 := (rnd (otherInd k j)).wT2 k) hs.wR_unit
    hs.wBeta_nonneg hs.w_no_wrap
  simp only [oBg, oBw]
  rw [hg, hw]
  simp only [Res.mapErr_ok, Res.bind_ok]
  rw [Keygen.get_map_range hj', Res.bind_ok]
  have hpk : (oBw x dk s_l rnd mA (otherInd k j) k).b_proof.pk = signShare x s_l (otherInd k j) • (G : Pt) :=
    rfl
  exact (congrArg (fun b => (Res.assert b : Res SignError Unit) >>= fun _ => _)
    (decide_eq_true hpk))

omit [Crypto] h hmA in
theorem zipWith_map_same {α β γ δ : Type} (l : List α) (f : α → β) (g : α → γ) (op : β → γ → δ) :
    List.zipWith op (l.map f) (l.map g) = l.map (fun a => op (f a) (g a)) := by
  induction l with
  | nil => rfl
  | cons a l ih => simp [ih]

omit h in
theorem round2_keyed (h : Keyed n Y x dk sts s_l key) {k : ℕ} (hk : k < s_l.length)
    (hra : Int.gcd (rnd k).ra (oN dk s_l k) = 1)
    (hs : ∀ j < s_l.length, k ≠ j → Answers x dk s_l rnd j k) :
    (st2 x s_l key rnd mA k).proceed
      ((others s_l.length k).map (fun j => (oBg dk s_l rnd mA j k, oBw x dk s_l rnd mA j k))) (rnd k) =
      .ok (st3 x dk s_l key rnd mA k, [⟨k + 1, none, oTMsg x s_l rnd k⟩]) := by
  have hK := h.holds k hk
  unfold Round2.proceed
  have e1 : (st2 x s_l key rnd mA k).local_key.pk_vec = (List.range n).map (fun j => x (j + 1) • G) := hK.pks
  have e2 : (st2 x s_l key rnd mA k).s_l = s_l := rfl
  rw [e1, e2, g_w_vec_eq h.members h.nodup h.n_lt h.n_u16, Res.bind_ok,
    mapM_others hk (fun i => (oAlpha rnd k i, oMiu x s_l rnd k i))
      (fun j hj => shares_keyed hmA h hk hra hj
        (hs _ (otherInd_lt hj) (fun e => otherInd_ne e.symm))), Res.bind_ok]
  have ed : SignKeys.phase2_delta_i (ε := SignError) (st2 x s_l key rnd mA k).sign_keys
      ((((List.range s_l.length).filter (fun j => decide (j ≠ k))).map
        (fun j => (oAlpha rnd k j, oMiu x s_l rnd k j))).map Prod.fst)
      (st2 x s_l key rnd mA k).beta_vec = .ok (oDelta s_l rnd k) := by
    unfold SignKeys.phase2_delta_i
    simp only [st2, List.map_map, List.length_map, others]
    rw [decide_true, Res.assert_true, Res.bind_ok, zipWith_map_same, foldl_add_head,
      List.sum_cons]
    rfl
  have es : SignKeys.phase2_sigma_i (ε := SignError) (st2 x s_l key rnd mA k).sign_keys
      ((((List.range s_l.length).filter (fun j => decide (j ≠ k))).map
        (fun j => (oAlpha rnd k j, oMiu x s_l rnd k j))).map Prod.snd)
      (st2 x s_l key rnd mA k).ni_vec = .ok (oSigma x s_l rnd k) := by
    unfold SignKeys.phase2_sigma_i
    simp only [st2, List.map_map, List.length_map, others]
    rw [decide_true, Res.assert_true, Res.bind_ok, zipWith_map_same, foldl_add_head,
      List.sum_cons]
    rfl
  rw [ed, Res.bind_ok, es, Res.bind_ok]
  simp only [List.map_map]
  rfl

theorem round2_eq {k : ℕ} (hk : k < s_l.length) :
    (st2 x s_l key rnd mA k).proceed
      ((others s_l.length k).map (fun j => (oBg dk s_l rnd mA j k, oBw x dk s_l rnd mA j k))) (rnd k) =
      .ok (st3 x dk s_l key rnd mA k, [⟨k + 1, none, oTMsg x s_l rnd k⟩]) :=
  round2_keyed hmA (keyed h) hk (h.sample k hk).ra_unit (fun _ hj hne => answers h hj hk hne)

/-! ### Round 3 -/

noncomputable def st4 (x : ℕ → Sc) (dk : ℕ → DecKey) (s_l : List ℕ) (key : ℕ → LocalKey)
    (rnd : ℕ → SignRandomness) (mA : ℕ → MessageA) (k : ℕ) : Round4 :=
  { i := k + 1, s_l := s_l, local_key := key k, sign_keys := oSK x s_l rnd k, m_a := (mA k, (rnd k).ra)
    mb_gamma_s := (others s_l.length k).map (fun j => oBg dk s_l rnd mA j k)
    bc_vec := (List.range s_l.length).map (oCom rnd)
    m_a_vec := (List.range s_l.length).map mA
    t_i := oT x s_l rnd k
    l_i := (rnd k).l
    sigma_i := oSigma x s_l rnd k
    delta_inv := oDeltaInv s_l rnd
    t_vec := (List.range s_l.length).map (oT x s_l rnd)
    phase1_decom := oDec rnd k }

omit hmA in
theorem round3_eq {k : ℕ} (hk : k < s_l.length) :
    (st3 x dk s_l key rnd mA k).proceed ((others s_l.length k).map (oTMsg x s_l rnd)) =
      .ok (st4 x dk s_l key rnd mA k, [⟨k + 1, none, oDec rnd k⟩]) := by
  have hall : intoVecIncludingMe ((others s_l.length k).map (oTMsg x s_l rnd)) (k + 1)
      (oTMsg x s_l rnd k) = (List.range s_l.length).map (oTMsg x s_l rnd) :=
    intoVecIncludingMe_filter hk _
  unfold Round3.proceed
  have e1 : (st3 x dk s_l key rnd mA k).i = k + 1 := rfl
  have e2 : (⟨(st3 x dk s_l key rnd mA k).delta_i, (st3 x dk s_l key rnd mA k).t_i,
    (st3 x dk s_l key rnd mA k).t_i_proof⟩ : TMsg) = oTMsg x s_l rnd k := rfl
  have e3 : (st3 x dk s_l key rnd mA k).s_l = s_l := rfl
  simp only [e1, e2, e3, hall]
  rw [show ((List.range s_l.length).map (oTMsg x s_l rnd)).all
      (fun m => decide (m.t_i = m.t_i_proof.com)) = true from by
    rw [List.all_eq_true]
    intro m hm
    obtain ⟨j, -, rfl⟩ := List.mem_map.1 hm
    exact decide_eq_true rfl, Res.assert_true, Res.bind_ok]
  have hd : (phase3_reconstruct_delta (((List.range s_l.length).map (oTMsg x s_l rnd)).map (·.delta_i)) :
      Res SignError Sc) = .ok (oDeltaInv s_l rnd) := by
    unfold phase3_reconstruct_delta
    rw [foldl_add_zero, List.map_map]
    rw [show ((fun m : TMsg => m.delta_i) ∘ oTMsg x s_l rnd) = oDelta s_l rnd from rfl, sum_map_range_eq]
    rw [scInvert_of_ne (by rw [oDelta_sum]; exact mul_ne_zero h.k_sum h.gamma_sum)]
    rfl
  rw [hd, Res.bind_ok, if_pos]
  · simp only [List.map_map]
    rfl
  · rw [List.all_eq_true]
    intro m hm
    obtain ⟨j, -, rfl⟩ := List.mem_map.1 (List.mem_of_mem_take hm)
    exact PedersenProof.verify_prove _ _ _ _

/-! ### Round 4 -/

variable {pf : ℕ → ℕ → PDLwSlackProof} (hpf : IsPdl dk sts s_l rnd mA pf)

noncomputable def st5 (x : ℕ → Sc) (s_l : List ℕ) (key : ℕ → LocalKey)
    (rnd : ℕ → SignRandomness) (mA : ℕ → MessageA) (pf : ℕ → ℕ → PDLwSlackProof) (k : ℕ) : Round5 :=
  { i := k + 1, s_l := s_l, local_key := key k, sign_keys := oSK x s_l rnd k
    t_vec := (List.range s_l.length).map (oT x s_l rnd)
    m_a_vec := (List.range s_l.length).map mA
    t_i := oT x s_l rnd k
    l_i := (rnd k).l
    sigma_i := oSigma x s_l rnd k
    R := oR s_l rnd
    R_dash := oRd s_l rnd k
    phase5_proofs_vec := (others s_l.length k).map (pf k) }

omit h hmA in
theorem phase4_eq {k : ℕ} (hk : k < s_l.length) :
    phase4 (oDeltaInv s_l rnd)
      ((others s_l.length k).map (fun j => (oBg dk s_l rnd mA j k).b_proof))
      ((List.range s_l.length).map (oDec rnd)) ((List.range s_l.length).map (oCom rnd)) k =
      .ok (oR s_l rnd) := by
  unfold phase4
  have hl : (others s_l.length k).length = s_l.length - 1 := by
    unfold others; rw [← range_map_otherInd hk]; simp
  have ht : allPush (phase4_test ((others s_l.length k).map (fun j => (oBg dk s_l rnd mA j k).b_proof))
      ((List.range s_l.length).map (oDec rnd)) ((List.range s_l.length).map (oCom rnd)) k)
      (List.range ((others s_l.length k).map (fun j => (oBg dk s_l rnd mA j k).b_proof)).length) =
      .ok (true, []) := by
    rw [List.length_map, hl, allPush_range_true]
    refine ⟨rfl, fun j hj => ?_⟩
    unfold phase4_test
    simp only
    have hj' := otherInd_lt (k := k) hj
    unfold others
    rw [get_others hk hj, Res.bind_ok, Keygen.get_map_range hj', Res.bind_ok,
      if_pos (show (oBg dk s_l rnd mA (otherInd k j) k).b_proof.pk = (oDec rnd (otherInd k j)).g_gamma_i
        from rfl), Keygen.get_map_range hj', Res.bind_ok]
    simp only [oDec, oCom, decide_true]
  rw [ht, Res.bind_ok]
  obtain ⟨m, hm⟩ : ∃ m, s_l.length = m + 1 := ⟨s_l.length - 1, by omega⟩
  have hsum : ∑ k ∈ Finset.range s_l.length, (rnd k).gamma • (G : Pt) =
      (((List.range s_l.length).map (oDec rnd)).map (·.g_gamma_i)).sum := by
    rw [List.map_map, sum_map_range_eq]; rfl
  unfold oR
  rw [hsum]
  generalize hL : (List.range s_l.length).map (oDec rnd) = L
  cases L with
  | nil => simp [hm] at hL
  | cons a l =>
    simp only [if_true]
    rw [show l.foldl (fun acc (x : SignDecommitPhase1) => acc + x.g_gamma_i) a.g_gamma_i =
      ((a :: l).map (·.g_gamma_i)).sum from by
        rw [List.map_cons, ← foldl_add_head, List.foldl_map]]

omit hmA in
include hpf in
theorem round4_eq {k : ℕ} (hk : k < s_l.length) :
    (st4 x dk s_l key rnd mA k).proceed ((others s_l.length k).map (oDec rnd)) (rnd k) =
      .ok (st5 x s_l key rnd mA pf k, [⟨k + 1, none, oPdl s_l rnd pf k⟩]) := by
  have hK := h.holds k hk
  have hall : intoVecIncludingMe ((others s_l.length k).map (oDec rnd)) (k + 1)
      (oDec rnd k) = (List.range s_l.length).map (oDec rnd) :=
    intoVecIncludingMe_filter hk _
  unfold Round4.proceed
  simp only [st4, hall, Nat.add_sub_cancel]
  have hbp : (Res.mapM (fun i => do
      let m ← Res.get ((others s_l.length k).map (fun j => oBg dk s_l rnd mA j k)) i
      .ok m.b_proof) (List.range (s_l.length - 1)) : Res SignError (List DLogProof)) =
      .ok ((others s_l.length k).map (fun j => (oBg dk s_l rnd mA j k).b_proof)) := by
    refine mapM_others hk (fun j => (oBg dk s_l rnd mA j k).b_proof) fun j hj => ?_
    unfold others
    rw [get_others hk hj, Res.bind_ok]
  rw [hbp, Res.bind_ok, phase4_eq hk]
  simp only [Res.mapErr_ok, Res.bind_ok]
  rw [mapM_others hk (pf k)]
  · rfl
  · intro j hj
    have hj' := otherInd_lt (k := k) hj
    have hm := h.members _ (getD_mem hk)
    obtain ⟨st, hst, hp, -⟩ := hpf k hk _ hj'
    rw [get_zeroBased hk, Res.bind_ok, hK.eks,
      Keygen.get_map_range (show s_l.getD k 0 - 1 < n by omega), Res.bind_ok,
      Nat.sub_add_cancel hm.1, get_zeroBased hj', Res.bind_ok, hK.sts_eq,
      Res.get_eq_ok.2 hst, Res.bind_ok]
    unfold phase5_proof_pdl
    exact congrArg Res.ofOption hp

/-! ### Round 5 -/

noncomputable def st6 (Y : Pt) (x : ℕ → Sc) (s_l : List ℕ) (rnd : ℕ → SignRandomness) (k : ℕ) : Round6 :=
  { S_i := (oHeg x s_l rnd k).1, homo_elgamal_proof := (oHeg x s_l rnd k).2, s_l := s_l, i := k + 1
    t_vec := (List.range s_l.length).map (oT x s_l rnd)
    protocol_output := ⟨(rnd k).k, oR s_l rnd, oSigma x s_l rnd k, Y⟩ }

omit hmA in
include hpf in
theorem checkPdl_eq {k i : ℕ} (hk : k < s_l.length) (hi : i < s_l.length) :
    (st5 x s_l key rnd mA pf k).checkPdl ((List.range s_l.length).map (oPdl s_l rnd pf)) i = .ok () := by
  have hK := h.holds k hk
  have hm := h.members _ (getD_mem hi)
  unfold Round5.checkPdl
  simp only [st5]
  rw [Keygen.get_map_range hi, Res.bind_ok, Keygen.get_map_range hi, Res.bind_ok, get_zeroBased hi,
    Res.bind_ok, hK.eks, Keygen.get_map_range (show s_l.getD i 0 - 1 < n by omega), Res.bind_ok,
    Nat.sub_add_cancel hm.1, hK.sts_eq]
  have hz : (zeroBased s_l).length = s_l.length := by simp [zeroBased]
  have hl : (others s_l.length i).length = s_l.length - 1 := by
    unfold others; rw [← range_map_otherInd hi]; simp
  unfold phase5_verify_pdl
  simp only [oPdl, List.length_map, hz, hl]
  rw [if_neg (by omega), if_neg (by simp)]
  rw [show allPush (phase5_pdl_test ((others s_l.length i).map (pf i)) (oRd s_l rnd i) (oR s_l rnd)
      (mA i).c (dk (s_l.getD i 0)).n sts (zeroBased s_l) i) (List.range (s_l.length - 1)) =
      .ok (true, []) from by
    rw [allPush_range_true]
    refine ⟨rfl, fun j hj => ?_⟩
    have hj' := otherInd_lt (k := i) hj
    obtain ⟨st, hst, -, hv⟩ := hpf i hi _ hj'
    unfold phase5_pdl_test
    simp only
    rw [get_zeroBased hj', Res.bind_ok, Res.get_eq_ok.2 hst, Res.bind_ok]
    unfold others
    rw [get_others hi hj, Res.bind_ok]
    exact congrArg Res.ofOption hv]
  rfl

omit hmA in
include hpf in
theorem round5_eq {k : ℕ} (hk : k < s_l.length) :
    (st5 x s_l key rnd mA pf k).proceed ((others s_l.length k).map (oPdl s_l rnd pf)) (rnd k) =
      .ok (st6 Y x s_l rnd k, [⟨k + 1, none, oHeg x s_l rnd k⟩]) := by
  have hK := h.holds k hk
  have hall : intoVecIncludingMe ((others s_l.length k).map (oPdl s_l rnd pf)) (k + 1)
      (oPdl s_l rnd pf k) = (List.range s_l.length).map (oPdl s_l rnd pf) :=
    intoVecIncludingMe_filter hk _
  unfold Round5.proceed
  have e1 : (st5 x s_l key rnd mA pf k).i = k + 1 := rfl
  have e2 : ((st5 x s_l key rnd mA pf k).R_dash, (st5 x s_l key rnd mA pf k).phase5_proofs_vec) =
    oPdl s_l rnd pf k := rfl
  have e3 : (st5 x s_l key rnd mA pf k).s_l = s_l := rfl
  simp only [e1, e2, e3, hall]
  rw [Res.mapM_ok_of_forall (g := fun _ => ())
    (fun i hi => checkPdl_eq h hpf hk (by simpa using hi)), Res.bind_ok]
  have hsum : phase5_check_R_dash_sum (((List.range s_l.length).map (oPdl s_l rnd pf)).map Prod.fst) =
      .ok () := by
    unfold phase5_check_R_dash_sum
    simp only
    rw [foldl_add_head, List.sum_cons, List.map_map, add_sub_cancel_left, if_pos]
    rw [show (Prod.fst ∘ oPdl s_l rnd pf) = oRd s_l rnd from rfl, sum_map_range_eq]
    exact oRd_sum h.k_sum h.gamma_sum
  rw [hsum]
  simp only [Res.mapErr_ok, Res.bind_ok, st5, hK.public_key]
  rfl

/-! ### Round 6 -/

omit h hmA in
theorem phase6_bad_nil {ε : Type} {S_vec : List Pt} {proof_vec : List HomoElGamalProof}
    {R_vec T_vec : List Pt} {l : List ℕ}
    (hl : ∀ i ∈ l, ∃ R T S pf, R_vec[i]? = some R ∧ T_vec[i]? = some T ∧ S_vec[i]? = some S ∧
      proof_vec[i]? = some pf ∧ pf.verify (hegStatement R T S) = true) :
    (phase6_bad S_vec proof_vec R_vec T_vec l : Res ε (List ℕ)) = .ok [] := by
  induction l with
  | nil => rfl
  | cons i l ih =>
    obtain ⟨R, T, S, pf, h1, h2, h3, h4, h5⟩ := hl i (by simp)
    unfold phase6_bad
    rw [Res.get_eq_ok.2 h1, Res.get_eq_ok.2 h2, Res.get_eq_ok.2 h3, Res.get_eq_ok.2 h4,
      ih fun j hj => hl j (by simp [hj])]
    simp only [Res.bind_ok, h5, if_true]

omit hmA in
/-- The last round of honest signers: all that can go wrong is that their shares of the key do not add up
to the public key. -/
theorem round6_eq' {k : ℕ} (hk : k < s_l.length) :
    (st6 Y x s_l rnd k).proceed ((others s_l.length k).map (oHeg x s_l rnd)) =
      if (∑ k ∈ Finset.range s_l.length, signShare x s_l k) • G = Y then
        .ok ⟨(rnd k).k, oR s_l rnd, oSigma x s_l rnd k, Y⟩
      else .err (.Round6CheckSig .Phase6Error) := by
  have hall : intoVecIncludingMe ((others s_l.length k).map (oHeg x s_l rnd)) (k + 1)
      (oHeg x s_l rnd k) = (List.range s_l.length).map (oHeg x s_l rnd) :=
    intoVecIncludingMe_filter hk _
  unfold Round6.proceed
  simp only [st6, hall]
  have hv : phase6_verify_proof (((List.range s_l.length).map (oHeg x s_l rnd)).map Prod.fst)
      (((List.range s_l.length).map (oHeg x s_l rnd)).map Prod.snd)
      (List.replicate s_l.length (oR s_l rnd)) ((List.range s_l.length).map (oT x s_l rnd)) = .ok () := by
    unfold phase6_verify_proof
    rw [phase6_bad_nil]
    · rfl
    · intro i hi
      have hi : i < s_l.length := by simpa using hi
      refine ⟨oR s_l rnd, oT x s_l rnd i, (oHeg x s_l rnd i).1, (oHeg x s_l rnd i).2, by simp [hi],
        by simp [hi], by simp [hi], by simp [hi], ?_⟩
      refine HomoElGamalProof.verify_prove _ _ _ _ _ ?_ rfl
      exact add_comm _ _
  have hs : phase6_check_S_i_sum Y (((List.range s_l.length).map (oHeg x s_l rnd)).map Prod.fst) =
      if (∑ k ∈ Finset.range s_l.length, signShare x s_l k) • G = Y then .ok ()
      else .err .Phase6Error := by
    unfold phase6_check_S_i_sum
    simp only
    rw [foldl_add_head, List.sum_cons, List.map_map, add_sub_cancel_left]
    rw [show (Prod.fst ∘ oHeg x s_l rnd) = fun k => oSigma x s_l rnd k • oR s_l rnd from rfl,
      sum_map_range_eq, oS_sum x h.k_sum h.gamma_sum]
  rw [hv, hs]
  split_ifs <;> rfl

omit hmA in
theorem round6_eq {d : Sc} (hd : ∑ k ∈ Finset.range s_l.length, signShare x s_l k = d)
    (hY : Y = d • G) {k : ℕ} (hk : k < s_l.length) :
    (st6 Y x s_l rnd k).proceed ((others s_l.length k).map (oHeg x s_l rnd)) =
      .ok ⟨(rnd k).k, oR s_l rnd, oSigma x s_l rnd k, Y⟩ := by
  rw [round6_eq' h hk, if_pos (by rw [hd, hY])]

/-- The offline stage of honest signers succeeds. -/
theorem offline_eq' (pf : ℕ → ℕ → PDLwSlackProof) (hpf : IsPdl dk sts s_l rnd mA pf) {d : Sc}
    (hd : ∑ k ∈ Finset.range s_l.length, signShare x s_l k = d)
    (hY : Y = d • G) :
    offline s_l key rnd = .ok ((List.range s_l.length).map (fun k =>
      ⟨(rnd k).k, oR s_l rnd, oSigma x s_l rnd k, Y⟩)) := by
  unfold offline
  simp only
  rw [Res.mapM_ok_of_forall (g := fun k => (st1 x s_l key rnd mA k, [⟨k + 1, none, (mA k, oCom rnd k)⟩]))
    (fun k hk => round0_eq h hmA (by simpa using hk)), Res.bind_ok]
  rw [Res.mapM_ok_of_forall (g := fun k => (st2 x s_l key rnd mA k, (others s_l.length k).map (fun j =>
        ⟨k + 1, some (j + 1), (oBg dk s_l rnd mA k j, oBw x dk s_l rnd mA k j)⟩)))
    (fun k hk => by
      have hk : k < s_l.length := by simpa using hk
      rw [Keygen.get_map_range hk, Res.bind_ok, List.map_map]
      refine Eq.trans ?_ (round1_eq h hmA hk)
      exact congrArg (fun l => (st1 x s_l key rnd mA k).proceed l (rnd k))
        (inbox_broadcast s_l.length k (fun j => (mA j, oCom rnd j)))), Res.bind_ok]
  rw [Res.mapM_ok_of_forall (g := fun k =>
      (st3 x dk s_l key rnd mA k, [⟨k + 1, none, oTMsg x s_l rnd k⟩]))
    (fun k hk => by
      have hk : k < s_l.length := by simpa using hk
      rw [Keygen.get_map_range hk, Res.bind_ok, List.map_map]
      refine Eq.trans ?_ (round2_eq h hmA hk)
      exact congrArg (fun l => (st2 x s_l key rnd mA k).proceed l (rnd k))
        (inbox_p2p hk (fun j i => (oBg dk s_l rnd mA j i, oBw x dk s_l rnd mA j i)))), Res.bind_ok]
  rw [Res.mapM_ok_of_forall (g := fun k => (st4 x dk s_l key rnd mA k, [⟨k + 1, none, oDec rnd k⟩]))
    (fun k hk => by
      have hk : k < s_l.length := by simpa using hk
      rw [Keygen.get_map_range hk, Res.bind_ok, List.map_map]
      refine Eq.trans ?_ (round3_eq h hk)
      exact congrArg (fun l => (st3 x dk s_l key rnd mA k).proceed l)
        (inbox_broadcast s_l.length k (oTMsg x s_l rnd))), Res.bind_ok]
  rw [Res.mapM_ok_of_forall (g := fun k =>
      (st5 x s_l key rnd mA pf k, [⟨k + 1, none, oPdl s_l rnd pf k⟩]))
    (fun k hk => by
      have hk : k < s_l.length := by simpa using hk
      rw [Keygen.get_map_range hk, Res.bind_ok, List.map_map]
      refine Eq.trans ?_ (round4_eq h hpf hk)
      exact congrArg (fun l => (st4 x dk s_l key rnd mA k).proceed l (rnd k))
        (inbox_broadcast s_l.length k (oDec rnd))), Res.bind_ok]
  rw [Res.mapM_ok_of_forall (g := fun k => (st6 Y x s_l rnd k, [⟨k + 1, none, oHeg x s_l rnd k⟩]))
    (fun k hk => by
      have hk : k < s_l.length := by simpa using hk
      rw [Keygen.get_map_range hk, Res.bind_ok, List.map_map]
      refine Eq.trans ?_ (round5_eq h hpf hk)
      exact congrArg (fun l => (st5 x s_l key rnd mA pf k).proceed l (rnd k))
        (inbox_broadcast s_l.length k (oPdl s_l rnd pf))), Res.bind_ok]
  refine Res.mapM_ok_of_forall fun k hk => ?_
  have hk : k < s_l.length := by simpa using hk
  rw [Keygen.get_map_range hk, Res.bind_ok, List.map_map]
  refine Eq.trans ?_ (round6_eq h hd hY hk)
  exact congrArg (fun l => (st6 Y x s_l rnd k).proceed l)
    (inbox_broadcast s_l.length k (oHeg x s_l rnd))

omit hmA in
theorem offline_eq {d : Sc} (hd : ∑ k ∈ Finset.range s_l.length, signShare x s_l k = d)
    (hY : Y = d • G) :
    offline s_l key rnd = .ok ((List.range s_l.length).map (fun k =>
      ⟨(rnd k).k, oR s_l rnd, oSigma x s_l rnd k, Y⟩)) := by
  obtain ⟨mA, hmA⟩ := exists_mA h
  obtain ⟨pf, hpf⟩ := exists_pdl h hmA
  exact offline_eq' h hmA pf hpf hd hY

omit hmA in
/-- How the offline stage of honest signers ends. -/
theorem offlineEnds_eq :
    offlineEnds s_l key rnd = .ok ((List.range s_l.length).map fun k =>
      if (∑ k ∈ Finset.range s_l.length, signShare x s_l k) • G = Y then
        .ok ⟨(rnd k).k, oR s_l rnd, oSigma x s_l rnd k, Y⟩
      else .err (.Round6CheckSig .Phase6Error)) := by
  obtain ⟨mA, hmA⟩ := exists_mA h
  obtain ⟨pf, hpf⟩ := exists_pdl h hmA
  unfold offlineEnds
  simp only
  rw [Res.mapM_ok_of_forall (g := fun k => (st1 x s_l key rnd mA k, [⟨k + 1, none, (mA k, oCom rnd k)⟩]))
    (fun k hk => round0_eq h hmA (by simpa using hk)), Res.bind_ok]
  rw [Res.mapM_ok_of_forall (g := fun k => (st2 x s_l key rnd mA k, (others s_l.length k).map (fun j =>
        ⟨k + 1, some (j + 1), (oBg dk s_l rnd mA k j, oBw x dk s_l rnd mA k j)⟩)))
    (fun k hk => by
      have hk : k < s_l.length := by simpa using hk
      rw [Keygen.get_map_range hk, Res.bind_ok, List.map_map]
      refine Eq.trans ?_ (round1_eq h hmA hk)
      exact congrArg (fun l => (st1 x s_l key rnd mA k).proceed l (rnd k))
        (inbox_broadcast s_l.length k (fun j => (mA j, oCom rnd j)))), Res.bind_ok]
  rw [Res.mapM_ok_of_forall (g := fun k =>
      (st3 x dk s_l key rnd mA k, [⟨k + 1, none, oTMsg x s_l rnd k⟩]))
    (fun k hk => by
      have hk : k < s_l.length := by simpa using hk
      rw [Keygen.get_map_range hk, Res.bind_ok, List.map_map]
      refine Eq.trans ?_ (round2_eq h hmA hk)
      exact congrArg (fun l => (st2 x s_l key rnd mA k).proceed l (rnd k))
        (inbox_p2p hk (fun j i => (oBg dk s_l rnd mA j i, oBw x dk s_l rnd mA j i)))), Res.bind_ok]
  rw [Res.mapM_ok_of_forall (g := fun k => (st4 x dk s_l key rnd mA k, [⟨k + 1, none, oDec rnd k⟩]))
    (fun k hk => by
      have hk : k < s_l.length := by simpa using hk
      rw [Keygen.get_map_range hk, Res.bind_ok, List.map_map]
      refine Eq.trans ?_ (round3_eq h hk)
      exact congrArg (fun l => (st3 x dk s_l key rnd mA k).proceed l)
        (inbox_broadcast s_l.length k (oTMsg x s_l rnd))), Res.bind_ok]
  rw [Res.mapM_ok_of_forall (g := fun k =>
      (st5 x s_l key rnd mA pf k, [⟨k + 1, none, oPdl s_l rnd pf k⟩]))
    (fun k hk => by
      have hk : k < s_l.length := by simpa using hk
      rw [Keygen.get_map_range hk, Res.bind_ok, List.map_map]
      refine Eq.trans ?_ (round4_eq h hpf hk)
      exact congrArg (fun l => (st4 x dk s_l key rnd mA k).proceed l (rnd k))
        (inbox_broadcast s_l.length k (oDec rnd))), Res.bind_ok]
  rw [Res.mapM_ok_of_forall (g := fun k => (st6 Y x s_l rnd k, [⟨k + 1, none, oHeg x s_l rnd k⟩]))
    (fun k hk => by
      have hk : k < s_l.length := by simpa using hk
      rw [Keygen.get_map_range hk, Res.bind_ok, List.map_map]
      refine Eq.trans ?_ (round5_eq h hpf hk)
      exact congrArg (fun l => (st5 x s_l key rnd mA pf k).proceed l (rnd k))
        (inbox_broadcast s_l.length k (oPdl s_l rnd pf))), Res.bind_ok]
  refine congrArg Res.ok (List.map_congr_left fun k hk => ?_)
  have hk : k < s_l.length := by simpa using hk
  rw [Keygen.get_map_range hk, Res.bind_ok, List.map_map]
  refine Eq.trans ?_ (round6_eq' h hk)
  exact congrArg (fun l => (st6 Y x s_l rnd k).proceed l)
    (inbox_broadcast s_l.length k (oHeg x s_l rnd))

end
end Verif.GG20.Sign
