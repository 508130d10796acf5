import Verif.Lemmas.DemoKeygen
import Verif.Lemmas.GG18Sign
import Verif.Lemmas.SignOnline

/-! Helper lemmas on the honest run of the signing clients. -/

namespace Verif.Demo.Sign

open EC Crypto GG18 Spec Spec.GG18 Demo.Keygen
open GG20.Sign (oN oBg oBw oAlpha oMiu oBeta oNi oDelta oSigma oDeltaInv oR oDelta_sum oSigma_sum oR_eq
  zeroBased getD_mem get_zeroBased coeff_eq signShare_sum)

variable [Crypto]

/-- The samples, indexed by position. -/
def conv (rnd : ℕ → Rand) (k : ℕ) : GG20.SignRandomness where
  k := (rnd (k + 1)).k
  gamma := (rnd (k + 1)).gamma
  blind := (rnd (k + 1)).blind
  ra := (rnd (k + 1)).ra
  alice := fun _ => ⟨0, 0, 0, 0⟩
  gammaR := fun j => (rnd (k + 1)).gammaR (j + 1)
  gammaBeta := fun j => (rnd (k + 1)).gammaBeta (j + 1)
  gammaT1 := fun j => (rnd (k + 1)).gammaT1 (j + 1)
  gammaT2 := fun j => (rnd (k + 1)).gammaT2 (j + 1)
  wR := fun j => (rnd (k + 1)).wR (j + 1)
  wBeta := fun j => (rnd (k + 1)).wBeta (j + 1)
  wT1 := fun j => (rnd (k + 1)).wT1 (j + 1)
  wT2 := fun j => (rnd (k + 1)).wT2 (j + 1)
  l := 0
  ped1 := 0
  ped2 := 0
  pdl := fun _ => ⟨0, 0, 0, 0⟩
  heg1 := 0
  heg2 := 0

section defs

variable (n : ℕ) (x : ℕ → Sc) (dk : ℕ → DecKey) (s_l : List ℕ) (key : ℕ → KeyFile) (rnd : ℕ → Rand)

noncomputable def cSK (k : ℕ) : SignKeys :=
  ⟨signShare x s_l k, signShare x s_l k • G, (rnd (k + 1)).k, (rnd (k + 1)).gamma,
    (rnd (k + 1)).gamma • G⟩

def cCom (k : ℕ) : SignBroadcastPhase1 :=
  ⟨hashCom (ser ((rnd (k + 1)).gamma • G)) (rnd (k + 1)).blind⟩

def cDec (k : ℕ) : SignDecommitPhase1 := ⟨(rnd (k + 1)).blind, (rnd (k + 1)).gamma • G⟩

def cMA (k : ℕ) : MessageA :=
  ⟨Paillier.encrypt (oN dk s_l k) (rnd (k + 1)).k.val (rnd (k + 1)).ra, []⟩

noncomputable def cCtx (k : ℕ) : Ctx :=
  ⟨key (k + 1), zeroBased s_l, cSK x s_l rnd k, (List.range n).map (fun j => x (j + 1) • G), cCom rnd k,
    cDec rnd k⟩

/-- The answers of signer `j` to signer `k`. -/
noncomputable def cB (j k : ℕ) : MessageB × MessageB :=
  (oBg dk s_l (conv rnd) (cMA dk s_l rnd) j k, oBw x dk s_l (conv rnd) (cMA dk s_l rnd) j k)

noncomputable def cSt2 (k : ℕ) : St2 :=
  ⟨cCtx n x s_l key rnd k, (List.range s_l.length).map (cCom rnd),
    (GG20.Sign.others s_l.length k).map (oBeta (conv rnd) k),
    (GG20.Sign.others s_l.length k).map (oNi (conv rnd) k)⟩

noncomputable def cSt3 (k : ℕ) : St3 :=
  ⟨cCtx n x s_l key rnd k, (List.range s_l.length).map (cCom rnd),
    (GG20.Sign.others s_l.length k).map (fun j => (cB x dk s_l rnd j k).1),
    oDelta s_l (conv rnd) k, oSigma x s_l (conv rnd) k⟩

noncomputable def cSt4 (k : ℕ) : St4 :=
  ⟨cCtx n x s_l key rnd k, (List.range s_l.length).map (cCom rnd),
    (GG20.Sign.others s_l.length k).map (fun j => (cB x dk s_l rnd j k).1),
    oSigma x s_l (conv rnd) k, oDeltaInv s_l (conv rnd)⟩

end defs

omit [Crypto] in
theorem map_getD_range (s_l : List ℕ) : (List.range s_l.length).map (fun k => s_l.getD k 0) = s_l := by
  refine List.ext_getElem (by simp) fun i h1 h2 => ?_
  simp [h2]

section run

variable {n : ℕ} {Y : Pt} {x : ℕ → Sc} {dk : ℕ → DecKey} {s_l : List ℕ} {key : ℕ → KeyFile}
  {rnd : ℕ → Rand} (h : HonestRoom n Y x dk s_l key rnd)
include h

theorem create_eq {ε : Type} {k : ℕ} (hk : k < s_l.length) :
    (SignKeys.create (PartyPrivate.set_private (key (k + 1)).party_keys (key (k + 1)).shared_keys)
      (s_l.getD k 0 - 1) (zeroBased s_l) (rnd (k + 1)).gamma (rnd (k + 1)).k : Res ε SignKeys) =
      .ok (cSK x s_l rnd k) := by
  unfold SignKeys.create
  rw [coeff_eq h.members h.nodup h.n_lt hk, Res.ofOption_some, Res.bind_ok]
  simp only [PartyPrivate.set_private, (h.holds k hk).share]
  rfl

theorem xi_eq {ε : Type} {k : ℕ} (hk : k < s_l.length) :
    (get_commitments_to_xi (key (k + 1)).vss_scheme_vec : Res ε (List Pt)) =
      .ok ((List.range n).map (fun j => x (j + 1) • G)) := by
  have hK := h.holds k hk
  obtain ⟨v, hv⟩ : ∃ v : ℕ → Vss, (key (k + 1)).vss_scheme_vec = (List.range n).map v := by
    refine ⟨fun j => (key (k + 1)).vss_scheme_vec.getD j ⟨0, 0, []⟩, ?_⟩
    rw [← hK.vss_len]
    refine List.ext_getElem (by simp) fun i h1 h2 => ?_
    simp [h1]
  rw [hv, get_commitments_to_xi_eq v h.n_u16]
  · congr 1
    refine List.map_congr_left fun i hi => ?_
    have hi : i < n := by simpa using hi
    have := hK.vss (i + 1) (by omega) (by omega)
    rw [hv, List.map_map] at this
    exact this
  · intro j hj
    exact hK.vss_ne _ (by rw [hv]; exact List.mem_map.2 ⟨j, by simpa using hj, rfl⟩)

theorem round1_ok {k : ℕ} (hk : k < s_l.length) :
    round1 (s_l.length - 1) rnd (k + 1) (key (k + 1))
      ((GG20.Sign.others s_l.length k).map (fun j => (key (j + 1)).party_id)) =
      .ok (cCtx n x s_l key rnd k, [⟨k + 1, none, (cCom rnd k, cMA dk s_l rnd k)⟩]) := by
  have hK := h.holds k hk
  have hm := h.members _ (getD_mem hk)
  unfold round1
  rw [show s_l.length - 1 + 1 = s_l.length by omega,
    reassemble_others s_l.length k (fun j => (key (j + 1)).party_id), Res.bind_ok]
  have hids : (List.range s_l.length).map (fun j => (key (j + 1)).party_id) = s_l := by
    refine Eq.trans (List.map_congr_left fun j hj => ?_) (map_getD_range s_l)
    exact (h.holds j (by simpa using hj)).index
  have hpred : Res.mapM pred16 s_l = .ok (zeroBased s_l) :=
    Res.mapM_ok_of_forall fun i hi => by
      have := (h.members i hi).1
      rw [pred16, if_neg (by omega)]
  rw [hids, hpred, Res.bind_ok]
  simp only [Nat.add_sub_cancel]
  rw [get_zeroBased hk, Res.bind_ok, Res.get_of_lt (by rw [hK.vss_len]; omega), Res.bind_ok,
    create_eq h hk, Res.bind_ok, xi_eq h hk, Res.bind_ok, hK.ek_own]
  rfl

theorem answer_ok {k j : ℕ} (hk : k < s_l.length) (hj : j < s_l.length - 1) :
    answer (cCtx n x s_l key rnd k) (rnd (k + 1)) (k + 1)
      ((GG20.Sign.others s_l.length k).map (cMA dk s_l rnd)) j =
      .ok (otherInd k j + 1, ((cB x dk s_l rnd k (otherInd k j)).1, oBeta (conv rnd) k (otherInd k j)),
        ((cB x dk s_l rnd k (otherInd k j)).2, oNi (conv rnd) k (otherInd k j))) := by
  have hK := h.holds k hk
  have hj' := otherInd_lt (k := k) hj
  have hm := h.members _ (getD_mem hj')
  unfold answer
  simp only [cCtx, Nat.add_sub_cancel]
  rw [get_zeroBased hj', Res.bind_ok, hK.eks,
    GG20.Keygen.get_map_range (show s_l.getD (otherInd k j) 0 - 1 < n by omega), Res.bind_ok,
    Nat.sub_add_cancel hm.1,
    show (Res.get ((GG20.Sign.others s_l.length k).map (cMA dk s_l rnd)) j : Res Empty _) = _ from
      get_others hk hj _, Res.bind_ok]
  rfl

theorem round2_ok {k : ℕ} (hk : k < s_l.length) :
    round2 (s_l.length - 1) rnd (k + 1) (cCtx n x s_l key rnd k)
      ((GG20.Sign.others s_l.length k).map (fun j => (cCom rnd j, cMA dk s_l rnd j))) =
      .ok (cSt2 n x s_l key rnd k, (GG20.Sign.others s_l.length k).map
        (fun i => ⟨k + 1, some (i + 1), cB x dk s_l rnd k i⟩)) := by
  unfold round2
  rw [show s_l.length - 1 + 1 = s_l.length by omega, List.map_map, List.map_map,
    show (Prod.fst ∘ fun j => (cCom rnd j, cMA dk s_l rnd j)) = cCom rnd from rfl,
    show (Prod.snd ∘ fun j => (cCom rnd j, cMA dk s_l rnd j)) = cMA dk s_l rnd from rfl,
    show (cCtx n x s_l key rnd k).com = cCom rnd k from rfl, reassemble_others, Res.bind_ok]
  have hans := mapM_others hk (F := answer (cCtx n x s_l key rnd k) (rnd (k + 1)) (k + 1)
    ((GG20.Sign.others s_l.length k).map (cMA dk s_l rnd)))
    (fun i => (i + 1, ((cB x dk s_l rnd k i).1, oBeta (conv rnd) k i),
        ((cB x dk s_l rnd k i).2, oNi (conv rnd) k i)))
    (fun j hj => answer_ok h hk hj)
  have hlen : (cCtx n x s_l key rnd k).signers_vec.length =
      ((List.range s_l.length).map (cCom rnd)).length := by
    simp [cCtx, zeroBased]
  rw [decide_eq_true hlen, Res.assert_true, Res.bind_ok]
  rw [hans, Res.bind_ok]
  simp only [List.map_map]
  rfl

/-- Alice's side of an exchange without wrap-around. -/
theorem alpha_ok {k : ℕ} (hk : k < s_l.length) {b : Sc} {r bt : ℤ} {t1 t2 : Sc}
    (hr : Int.gcd r (oN dk s_l k) = 1) (hbt : 0 ≤ bt)
    (hw : (rnd (k + 1)).k.val * b.val + bt < oN dk s_l k) :
    MessageB.verify_proofs_get_alpha
      ⟨Paillier.add (oN dk s_l k) (Paillier.mul (oN dk s_l k) (cMA dk s_l rnd k).c b.val)
        (Paillier.encrypt (oN dk s_l k) bt r), DLogProof.prove b t1, DLogProof.prove (bt : Sc) t2⟩
      (dk (s_l.getD k 0)) (rnd (k + 1)).k =
      .ok ((rnd (k + 1)).k * b + (bt : Sc), ((rnd (k + 1)).k.val * b.val + bt : ℤ)) := by
  have hm := h.members _ (getD_mem hk)
  have hb := (MessageB.b_ok_iff (m_a := cMA dk s_l rnd k) (sts := []) (b := b) (r := r) (beta_tag := bt)
    (t_b := t1) (t_beta := t2) (N := oN dk s_l k)).2 ⟨rfl, by simp [cMA], rfl⟩
  have hver := mta_verify_honest (h.dk_valid _ hm.1 hm.2) (h.sample k hk).ra_unit hr hb
    (Paillier.isEnc_encrypt _ _ _)
  have hshare : ((rnd (k + 1)).k.val * b.val + bt : ℤ) % (dk (s_l.getD k 0)).n =
      (rnd (k + 1)).k.val * b.val + bt := Int.emod_eq_of_lt (by positivity) hw
  have hcast : (((rnd (k + 1)).k.val * b.val + bt : ℤ) : Sc) = (rnd (k + 1)).k * b + bt := by
    push_cast; simp
  simp only [hshare] at hver
  rw [if_pos hcast] at hver
  rw [hver, hcast]

theorem checkAnswer_ok {k j : ℕ} (hk : k < s_l.length) (hj : j < s_l.length - 1) :
    checkAnswer (cCtx n x s_l key rnd k) (k + 1)
      ((GG20.Sign.others s_l.length k).map (fun j => (cB x dk s_l rnd j k).1))
      ((GG20.Sign.others s_l.length k).map (fun j => (cB x dk s_l rnd j k).2)) j =
      .ok (oAlpha (conv rnd) k (otherInd k j), oMiu x s_l (conv rnd) k (otherInd k j)) := by
  have hK := h.holds k hk
  have hj' := otherInd_lt (k := k) hj
  have hm := h.members _ (getD_mem hj')
  have hs := h.sample _ hj'
  have hne : k ≠ otherInd k j := fun e => otherInd_ne e.symm
  unfold checkAnswer
  simp only [cCtx, Nat.add_sub_cancel, cSK]
  rw [show (Res.get ((GG20.Sign.others s_l.length k).map (fun j => (cB x dk s_l rnd j k).1)) j :
      Res Empty _) = _ from get_others hk hj _, Res.bind_ok, hK.dk_own]
  have hg := alpha_ok h hk (b := (rnd (otherInd k j + 1)).gamma)
    (t1 := (rnd (otherInd k j + 1)).gammaT1 (k + 1))
    (t2 := (rnd (otherInd k j + 1)).gammaT2 (k + 1)) (hs.gammaR_unit k hk hne)
    (hs.gammaBeta_nonneg k hk hne) (hs.gamma_no_wrap k hk hne)
  have hw := alpha_ok h hk (b := signShare x s_l (otherInd k j))
    (t1 := (rnd (otherInd k j + 1)).wT1 (k + 1))
    (t2 := (rnd (otherInd k j + 1)).wT2 (k + 1)) (hs.wR_unit k hk hne) (hs.wBeta_nonneg k hk hne)
    (hs.w_no_wrap k hk hne)
  have hg' : (cB x dk s_l rnd (otherInd k j) k).1.verify_proofs_get_alpha (dk (s_l.getD k 0))
      (rnd (k + 1)).k = _ := hg
  have hw' : (cB x dk s_l rnd (otherInd k j) k).2.verify_proofs_get_alpha (dk (s_l.getD k 0))
      (rnd (k + 1)).k = _ := hw
  rw [hg']
  simp only [Res.unwrap, Res.bind_ok]
  rw [show (Res.get ((GG20.Sign.others s_l.length k).map (fun j => (cB x dk s_l rnd j k).2)) j :
      Res Empty _) = _ from get_others hk hj _, Res.bind_ok, hw']
  simp only [Res.bind_ok]
  rw [get_zeroBased hj', Res.bind_ok,
    GG20.Keygen.get_map_range (show s_l.getD (otherInd k j) 0 - 1 < n by omega), Res.bind_ok,
    Res.get_of_lt (by rw [hK.vss_len]; omega), Res.bind_ok]
  unfold update_commitments_to_xi
  rw [coeff_eq h.members h.nodup h.n_lt hj', Res.ofOption_some, Res.bind_ok, Res.bind_ok,
    Nat.sub_add_cancel hm.1]
  have hpk : (cB x dk s_l rnd (otherInd k j) k).2.b_proof.pk =
      lagrangeCoeff s_l.toFinset (s_l.getD (otherInd k j) 0) • x (s_l.getD (otherInd k j) 0) • (G : Pt) :=
    mul_smul _ _ _
  exact (congrArg (fun b => (Res.assert b : Res Empty Unit) >>= fun _ => _)
    (decide_eq_true hpk))

theorem round3_ok {k : ℕ} (hk : k < s_l.length) :
    round3 (s_l.length - 1) (k + 1) (cSt2 n x s_l key rnd k)
      ((GG20.Sign.others s_l.length k).map (fun j => cB x dk s_l rnd j k)) =
      .ok (cSt3 n x dk s_l key rnd k, [⟨k + 1, none, oDelta s_l (conv rnd) k⟩]) := by
  unfold round3
  rw [mapM_get _ (by rw [List.length_map, length_others hk]), Res.bind_ok]
  simp only [List.map_map]
  have hc := mapM_others hk (F := checkAnswer (cCtx n x s_l key rnd k) (k + 1)
      ((GG20.Sign.others s_l.length k).map (fun j => (cB x dk s_l rnd j k).1))
      ((GG20.Sign.others s_l.length k).map (fun j => (cB x dk s_l rnd j k).2)))
    (fun i => (oAlpha (conv rnd) k i, oMiu x s_l (conv rnd) k i)) (fun j hj => checkAnswer_ok h hk hj)
  rw [show (cSt2 n x s_l key rnd k).ctx = cCtx n x s_l key rnd k from rfl]
  refine (congrArg (fun a => a >>= _) hc).trans ?_
  rw [Res.bind_ok]
  have ed : SignKeys.phase2_delta_i (ε := Empty) (cCtx n x s_l key rnd k).sign_keys
      ((((List.range s_l.length).filter (fun j => decide (j ≠ k))).map
        (fun j => (oAlpha (conv rnd) k j, oMiu x s_l (conv rnd) k j))).map Prod.fst)
      (cSt2 n x s_l key rnd k).beta_vec = .ok (oDelta s_l (conv rnd) k) := by
    unfold SignKeys.phase2_delta_i
    simp only [cSt2, List.map_map, List.length_map, GG20.Sign.others]
    rw [decide_true, Res.assert_true, Res.bind_ok, List.sum_append, oDelta, List.sum_map_add]
    rfl
  have es : SignKeys.phase2_sigma_i (ε := Empty) (cCtx n x s_l key rnd k).sign_keys
      ((((List.range s_l.length).filter (fun j => decide (j ≠ k))).map
        (fun j => (oAlpha (conv rnd) k j, oMiu x s_l (conv rnd) k j))).map Prod.snd)
      (cSt2 n x s_l key rnd k).ni_vec = .ok (oSigma x s_l (conv rnd) k) := by
    unfold SignKeys.phase2_sigma_i
    simp only [cSt2, List.map_map, List.length_map, GG20.Sign.others]
    rw [decide_true, Res.assert_true, Res.bind_ok, List.sum_append, oSigma, List.sum_map_add]
    rfl
  rw [ed, Res.bind_ok, es, Res.bind_ok]
  rfl

theorem round4_ok {k : ℕ} (hk : k < s_l.length) :
    round4 (k + 1) (cSt3 n x dk s_l key rnd k)
      ((GG20.Sign.others s_l.length k).map (oDelta s_l (conv rnd))) =
      .ok (cSt4 n x dk s_l key rnd k, [⟨k + 1, none, cDec rnd k⟩]) := by
  unfold round4
  rw [show (cSt3 n x dk s_l key rnd k).delta_i = oDelta s_l (conv rnd) k from rfl, format_others hk,
    Res.bind_ok]
  have hd : (phase3_reconstruct_delta ((List.range s_l.length).map (oDelta s_l (conv rnd))) :
      Res Empty Sc) = .ok (oDeltaInv s_l (conv rnd)) := by
    unfold phase3_reconstruct_delta
    rw [sum_map_range_eq, scInvert_of_ne (by rw [oDelta_sum]; exact mul_ne_zero h.k_sum h.gamma_sum)]
    rfl
  rw [hd, Res.bind_ok]
  rfl

end run

/-! ### Phase 5 -/

section defs5

variable (x : ℕ → Sc) (Y : Pt) (s_l : List ℕ) (rnd : ℕ → Rand) (msg : ℤ) (X : ℕ)

/-- The partial signature of signer `k`, for a nonce point with x-coordinate `X`. -/
noncomputable def cS (k : ℕ) : Sc := (msg : Sc) * (rnd (k + 1)).k + (X : Sc) * oSigma x s_l (conv rnd) k

def cL (k : ℕ) : Sc := (rnd (k + 1)).l
def cRho (k : ℕ) : Sc := (rnd (k + 1)).rho

noncomputable def cSig (k : ℕ) : LocalSignature :=
  pSig (oR s_l (conv rnd)) Y msg (cL rnd) (cRho rnd) (cS x s_l rnd msg X) k

noncomputable def cD1 (k : ℕ) : Phase5ADecom1 :=
  pD1 (oR s_l (conv rnd)) (cL rnd) (cRho rnd) (cS x s_l rnd msg X) (fun k => (rnd (k + 1)).blind5a) k

noncomputable def cC1 (k : ℕ) : Phase5Com1 :=
  pC1 (oR s_l (conv rnd)) (cL rnd) (cRho rnd) (cS x s_l rnd msg X) (fun k => (rnd (k + 1)).blind5a) k

noncomputable def cOpen (k : ℕ) : Open5a :=
  (cD1 x s_l rnd msg X k,
    pHeg (oR s_l (conv rnd)) (cL rnd) (cRho rnd) (cS x s_l rnd msg X) (fun k => (rnd (k + 1)).blind5a)
      (fun k => (rnd (k + 1)).heg1) (fun k => (rnd (k + 1)).heg2) k,
    pDl (cRho rnd) (fun k => (rnd (k + 1)).dlogNonce) k)

noncomputable def cC2 (k : ℕ) : Phase5Com2 :=
  pC2 (oR s_l (conv rnd)) Y msg X s_l.length (cL rnd) (cRho rnd) (cS x s_l rnd msg X)
    (fun k => (rnd (k + 1)).blind5c) k

noncomputable def cD2 (k : ℕ) : Phase5DDecom2 :=
  pD2 (oR s_l (conv rnd)) Y msg X s_l.length (cL rnd) (cRho rnd) (cS x s_l rnd msg X)
    (fun k => (rnd (k + 1)).blind5c) k

noncomputable def cSt5 (k : ℕ) : St5 :=
  ⟨oR s_l (conv rnd), cSig x Y s_l rnd msg X k, cC1 x s_l rnd msg X k, cOpen x s_l rnd msg X k⟩

noncomputable def cSt6 (k : ℕ) : St6 :=
  ⟨oR s_l (conv rnd), cSig x Y s_l rnd msg X k, (List.range s_l.length).map (cC1 x s_l rnd msg X),
    cOpen x s_l rnd msg X k⟩

noncomputable def cSt7 (k : ℕ) : St7 :=
  ⟨cSig x Y s_l rnd msg X k, (List.range s_l.length).map (cOpen x s_l rnd msg X),
    cC2 x Y s_l rnd msg X k, cD2 x Y s_l rnd msg X k⟩

noncomputable def cSt8 (k : ℕ) : St8 :=
  ⟨cSig x Y s_l rnd msg X k, (List.range s_l.length).map (cOpen x s_l rnd msg X),
    (List.range s_l.length).map (cC2 x Y s_l rnd msg X), cD2 x Y s_l rnd msg X k⟩

noncomputable def cSt9 (k : ℕ) : St9 := ⟨cSig x Y s_l rnd msg X k, cS x s_l rnd msg X k⟩

end defs5

section run5

variable {n : ℕ} {Y : Pt} {x : ℕ → Sc} {dk : ℕ → DecKey} {s_l : List ℕ} {key : ℕ → KeyFile}
  {rnd : ℕ → Rand} (h : HonestRoom n Y x dk s_l key rnd) (msg : ℤ) {X yy : ℕ}
  (hR : coords (oR s_l (conv rnd)) = some (X, yy))
include hR

include h in
theorem round5_ok {k : ℕ} (hk : k < s_l.length) :
    round5 msg rnd (k + 1) (cSt4 n x dk s_l key rnd k)
      ((GG20.Sign.others s_l.length k).map (cDec rnd)) =
      .ok (cSt5 x Y s_l rnd msg X k, [⟨k + 1, none, cC1 x s_l rnd msg X k⟩]) := by
  unfold round5
  rw [show (cSt4 n x dk s_l key rnd k).ctx.decommit = cDec rnd k from rfl, format_others hk, Res.bind_ok,
    Nat.add_sub_cancel, vecRemove_range hk, Res.bind_ok,
    show (cSt4 n x dk s_l key rnd k).bc1_vec = (List.range s_l.length).map (cCom rnd) from rfl]
  simp only
  rw [vecRemove_range hk, Res.bind_ok]
  simp only
  have hp4 : phase4 (oDeltaInv s_l (conv rnd))
      (((GG20.Sign.others s_l.length k).map (fun j => (cB x dk s_l rnd j k).1)).map (·.b_proof))
      ((GG20.Sign.others s_l.length k).map (cDec rnd)) ((GG20.Sign.others s_l.length k).map (cCom rnd)) =
      .ok (oDeltaInv s_l (conv rnd) •
        ((GG20.Sign.others s_l.length k).map (fun j => (rnd (j + 1)).gamma • (G : Pt))).sum) := by
    rcases phase4_cases (oDeltaInv s_l (conv rnd))
      (b_proofs := ((GG20.Sign.others s_l.length k).map (fun j => (cB x dk s_l rnd j k).1)).map (·.b_proof))
      (decoms := (GG20.Sign.others s_l.length k).map (cDec rnd))
      (bcs := (GG20.Sign.others s_l.length k).map (cCom rnd)) (by simp) (by simp) with
      ⟨-, e⟩ | ⟨⟨i, hi, hbad⟩, -⟩
    · rw [e, List.map_map]; rfl
    · exfalso
      rw [List.length_map, List.length_map] at hi
      exact hbad ⟨(cB x dk s_l rnd (GG20.Sign.others s_l.length k)[i] k).1.b_proof,
        cDec rnd (GG20.Sign.others s_l.length k)[i], cCom rnd (GG20.Sign.others s_l.length k)[i],
        by simp [hi], by simp [hi], by simp [hi], rfl, rfl⟩
  have hp4' : phase4 (cSt4 n x dk s_l key rnd k).delta_inv
      ((cSt4 n x dk s_l key rnd k).m_b_gamma_rec_vec.map (·.b_proof))
      ((GG20.Sign.others s_l.length k).map (cDec rnd)) ((GG20.Sign.others s_l.length k).map (cCom rnd)) =
      _ := hp4
  rw [hp4']
  simp only [Res.unwrap, Res.bind_ok]
  have hRe : oDeltaInv s_l (conv rnd) •
        ((GG20.Sign.others s_l.length k).map (fun j => (rnd (j + 1)).gamma • (G : Pt))).sum +
      (cSt4 n x dk s_l key rnd k).delta_inv • (cDec rnd k).g_gamma_i = oR s_l (conv rnd) := by
    have := sum_others hk (fun j => (rnd (j + 1)).gamma • (G : Pt))
    show oDeltaInv s_l (conv rnd) • _ + oDeltaInv s_l (conv rnd) • (rnd (k + 1)).gamma • (G : Pt) = _
    rw [← smul_add, add_comm]
    unfold oR
    exact congrArg (oDeltaInv s_l (conv rnd) • ·) this
  rw [hRe]
  have hx : xc (oR s_l (conv rnd)) = some X := by simp [xc, hR]
  have hy : (cSt4 n x dk s_l key rnd k).ctx.key.y_sum = Y := (h.holds k hk).public_key
  rw [hy]
  unfold LocalSignature.phase5_local_sig
  rw [hx]
  simp only [Res.ofOption_some, Res.bind_ok, scOfCoord_eq]
  rfl

omit hR in
theorem round6_ok {k : ℕ} (hk : k < s_l.length) :
    round6 (k + 1) (cSt5 x Y s_l rnd msg X k)
      ((GG20.Sign.others s_l.length k).map (cC1 x s_l rnd msg X)) =
      .ok (cSt6 x Y s_l rnd msg X k, [⟨k + 1, none, cOpen x s_l rnd msg X k⟩]) := by
  unfold round6
  rw [show (cSt5 x Y s_l rnd msg X k).phase5_com = cC1 x s_l rnd msg X k from rfl, format_others hk,
    Res.bind_ok]
  rfl

theorem round7_ok {k : ℕ} (hk : k < s_l.length) :
    round7 (s_l.length - 1) rnd (k + 1) (cSt6 x Y s_l rnd msg X k)
      ((GG20.Sign.others s_l.length k).map (cOpen x s_l rnd msg X)) =
      .ok (cSt7 x Y s_l rnd msg X k, [⟨k + 1, none, cC2 x Y s_l rnd msg X k⟩]) := by
  unfold round7
  rw [show (cSt6 x Y s_l rnd msg X k).opening = cOpen x s_l rnd msg X k from rfl, format_others hk,
    Res.bind_ok, Nat.add_sub_cancel, vecRemove_range hk, Res.bind_ok,
    show (cSt6 x Y s_l rnd msg X k).commit5a_vec =
      (List.range s_l.length).map (cC1 x s_l rnd msg X) from rfl]
  simp only
  rw [vecRemove_range hk, Res.bind_ok]
  simp only
  rw [mapM_get _ (by rw [List.length_map, length_others hk]), Res.bind_ok]
  simp only [List.map_map]
  have h5c := phase5c_honest (oR s_l (conv rnd)) Y msg (cL rnd) (cRho rnd) (cS x s_l rnd msg X)
    (fun k => (rnd (k + 1)).blind5a) (fun k => (rnd (k + 1)).blind5c) (fun k => (rnd (k + 1)).dlogNonce)
    (fun k => (rnd (k + 1)).heg1) (fun k => (rnd (k + 1)).heg2) hR hk
  refine (congrArg (fun a => Res.unwrap a >>= _) h5c).trans ?_
  rfl

omit hR in
theorem round8_ok {k : ℕ} (hk : k < s_l.length) :
    round8 (k + 1) (cSt7 x Y s_l rnd msg X k)
      ((GG20.Sign.others s_l.length k).map (cC2 x Y s_l rnd msg X)) =
      .ok (cSt8 x Y s_l rnd msg X k, [⟨k + 1, none, cD2 x Y s_l rnd msg X k⟩]) := by
  unfold round8
  rw [show (cSt7 x Y s_l rnd msg X k).com2 = cC2 x Y s_l rnd msg X k from rfl, format_others hk,
    Res.bind_ok]
  rfl

omit hR in
theorem round9_ok {k : ℕ} (hk : k < s_l.length)
    (hs : (∑ j ∈ Finset.range s_l.length, cS x s_l rnd msg X j) • oR s_l (conv rnd) =
      (msg : Sc) • G + (X : Sc) • Y) :
    round9 (s_l.length - 1) (k + 1) (cSt8 x Y s_l rnd msg X k)
      ((GG20.Sign.others s_l.length k).map (cD2 x Y s_l rnd msg X)) =
      .ok (cSt9 x Y s_l rnd msg X k, [⟨k + 1, none, cS x s_l rnd msg X k⟩]) := by
  unfold round9
  rw [show (cSt8 x Y s_l rnd msg X k).decom2 = cD2 x Y s_l rnd msg X k from rfl, format_others hk,
    Res.bind_ok, mapM_get _ (by simp only [cSt8, List.length_map, List.length_range]; omega), Res.bind_ok]
  have h5d := phase5d_honest (oR s_l (conv rnd)) Y msg (x := X) (m := s_l.length) (cL rnd) (cRho rnd)
    (cS x s_l rnd msg X) (fun k => (rnd (k + 1)).blind5a) (fun k => (rnd (k + 1)).blind5c) (k := k)
  rw [if_pos (Or.inr hs)] at h5d
  have e : (cSt8 x Y s_l rnd msg X k).opened_vec.map (·.1) =
      (List.range s_l.length).map (cD1 x s_l rnd msg X) := by
    simp only [cSt8, List.map_map]; rfl
  rw [e]
  refine (congrArg (fun a => Res.unwrap a >>= _) h5d).trans ?_
  rfl

theorem finish_ok {k : ℕ} (hk : k < s_l.length)
    (he : EcdsaEq Y msg (X : Sc) (∑ j ∈ Finset.range s_l.length, cS x s_l rnd msg X j)) :
    finish (k + 1) (cSt9 x Y s_l rnd msg X k)
      ((GG20.Sign.others s_l.length k).map (cS x s_l rnd msg X)) =
      .ok ⟨(X : Sc), normS (∑ j ∈ Finset.range s_l.length, cS x s_l rnd msg X j),
        recidOf (∑ j ∈ Finset.range s_l.length, cS x s_l rnd msg X j) yy⟩ := by
  unfold finish
  rw [show (cSt9 x Y s_l rnd msg X k).s_i = cS x s_l rnd msg X k from rfl, format_others hk,
    Res.bind_ok, Nat.add_sub_cancel, vecRemove_range hk, Res.bind_ok]
  simp only
  have hsum : cS x s_l rnd msg X k + ((GG20.Sign.others s_l.length k).map (cS x s_l rnd msg X)).sum =
      ∑ j ∈ Finset.range s_l.length, cS x s_l rnd msg X j := sum_others hk _
  have := (gg18_output_ok_iff (cSig x Y s_l rnd msg X k)
    ((GG20.Sign.others s_l.length k).map (cS x s_l rnd msg X)) hR _).2
    ⟨(show EcdsaEq Y msg (X : Sc) (cS x s_l rnd msg X k +
      ((GG20.Sign.others s_l.length k).map (cS x s_l rnd msg X)).sum) by rw [hsum]; exact he), rfl⟩
  have e : (cSt9 x Y s_l rnd msg X k).local_sig = cSig x Y s_l rnd msg X k := rfl
  rw [e, this]
  have e2 : (cSig x Y s_l rnd msg X k).s_i = cS x s_l rnd msg X k := rfl
  rw [e2, hsum]
  rfl

include h in
/-- The signing clients all finish with the same signature. -/
theorem run_eq (hpos : 0 < s_l.length)
    (hs : (∑ j ∈ Finset.range s_l.length, cS x s_l rnd msg X j) • oR s_l (conv rnd) =
      (msg : Sc) • G + (X : Sc) • Y)
    (hne : ∑ j ∈ Finset.range s_l.length, cS x s_l rnd msg X j ≠ 0) :
    run (s_l.length - 1) key msg rnd = .ok ((List.range s_l.length).map (fun _ =>
      ⟨(X : Sc), normS (∑ j ∈ Finset.range s_l.length, cS x s_l rnd msg X j),
        recidOf (∑ j ∈ Finset.range s_l.length, cS x s_l rnd msg X j) yy⟩)) := by
  have he := GG20.Sign.ecdsaEq_of_eq hR hne hs
  unfold run
  simp only [Nat.sub_add_cancel hpos]
  rw [show (List.range s_l.length).map (fun k => start (k + 1) (key (k + 1))) =
      (List.range s_l.length).map (fun k => (key (k + 1),
        [(⟨k + 1, none, (key (k + 1)).party_id⟩ : Msg ℕ)])) from rfl]
  rw [runRound_broadcast (fun k => key (k + 1)) (fun k => (key (k + 1)).party_id) _
      fun k hk => round1_ok h hk, Res.bind_ok,
    runRound_broadcast _ _ _ fun k hk => round2_ok h hk, Res.bind_ok,
    runRound_p2p _ (cB x dk s_l rnd) _ fun k hk => round3_ok h hk, Res.bind_ok,
    runRound_broadcast _ _ _ fun k hk => round4_ok h hk, Res.bind_ok,
    runRound_broadcast _ _ _ fun k hk => round5_ok h msg hR hk, Res.bind_ok,
    runRound_broadcast _ _ _ fun k hk => round6_ok msg hk, Res.bind_ok,
    runRound_broadcast _ _ _ fun k hk => round7_ok msg hR hk, Res.bind_ok,
    runRound_broadcast _ _ _ fun k hk => round8_ok msg hk, Res.bind_ok,
    runRound_broadcast _ _ _ fun k hk => round9_ok msg hk hs, Res.bind_ok,
    runRound_broadcast _ _ _ fun k hk => finish_ok msg hR hk he]

end run5

/-- The equation of honest partial signatures. -/
theorem honest_equation {t n : ℕ} {d : Sc} {x : ℕ → Sc} {dk : ℕ → DecKey} {s_l : List ℕ}
    {key : ℕ → Demo.Keygen.KeyFile} {rnd : ℕ → Demo.Sign.Rand}
    (h : Spec.GG18.HonestRoom n (d • G) x dk s_l key rnd) (hx : Reconstructs t n x d)
    (hlen : t + 1 ≤ s_l.length) (message : ℤ)
    (hm : ∀ xr y, coords ((∑ j ∈ Finset.range s_l.length, (rnd (j + 1)).k)⁻¹ • (G : Pt)) = some (xr, y) →
      (message : Sc) + (xr : Sc) * d ≠ 0) :
    ∃ xr y, coords (GG20.Sign.oR s_l (Demo.Sign.conv rnd)) = some (xr, y) ∧
      (∑ i ∈ Finset.range s_l.length, Demo.Sign.cS x s_l rnd message xr i) •
        GG20.Sign.oR s_l (Demo.Sign.conv rnd) = (message : Sc) • G + (xr : Sc) • d • G ∧
      ∑ i ∈ Finset.range s_l.length, Demo.Sign.cS x s_l rnd message xr i ≠ 0 := by
  have hd := GG20.Sign.signShare_sum h.members h.nodup hx hlen
  have hR : GG20.Sign.oR s_l (Demo.Sign.conv rnd) =
      (∑ j ∈ Finset.range s_l.length, (rnd (j + 1)).k)⁻¹ • (G : Pt) := GG20.Sign.oR_eq h.gamma_sum
  have hne : GG20.Sign.oR s_l (Demo.Sign.conv rnd) ≠ 0 := by
    rw [hR]
    intro h0
    rw [smul_G_eq_zero] at h0
    exact inv_ne_zero h.k_sum h0
  obtain ⟨xr, y, hc⟩ := exists_coords hne
  have hmr := hm xr y (by rw [← hR]; exact hc)
  have hs : ∑ i ∈ Finset.range s_l.length, Demo.Sign.cS x s_l rnd message xr i =
      (∑ i ∈ Finset.range s_l.length, (rnd (i + 1)).k) * ((message : Sc) + (xr : Sc) * d) := by
    have h1 := GG20.Sign.oSigma_sum x s_l (Demo.Sign.conv rnd)
    rw [hd] at h1
    unfold Demo.Sign.cS
    rw [Finset.sum_add_distrib, ← Finset.mul_sum, ← Finset.mul_sum, h1]
    show _ + (xr : Sc) * ((∑ i ∈ Finset.range s_l.length, (rnd (i + 1)).k) * d) = _
    ring
  have hs0 : ∑ i ∈ Finset.range s_l.length, Demo.Sign.cS x s_l rnd message xr i ≠ 0 := by
    rw [hs]; exact mul_ne_zero h.k_sum hmr
  have hse : (∑ i ∈ Finset.range s_l.length, Demo.Sign.cS x s_l rnd message xr i) •
      GG20.Sign.oR s_l (Demo.Sign.conv rnd) = (message : Sc) • G + (xr : Sc) • d • G := by
    rw [hs, hR, ← mul_smul, ← mul_smul, ← add_smul]
    congr 1
    rw [mul_comm _ (∑ i ∈ Finset.range s_l.length, (rnd (i + 1)).k)⁻¹, ← mul_assoc,
      inv_mul_cancel₀ h.k_sum, one_mul]
  exact ⟨xr, y, hc, hse, hs0⟩

end Verif.Demo.Sign
