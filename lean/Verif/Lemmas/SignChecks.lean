import Verif.Spec.SignChecks
import Verif.Lemmas.SignPanic
import Verif.Props.Sign

/-! # The checks of the rounds of the offline stage -/

namespace Verif

theorem Script.step_ok {μ ε α β : Type} {x : List μ × Res ε α} {f : α → Res ε (β × List μ)}
    {l : List μ} {b : β} (h : Script.step x f = (l, .ok b)) :
    ∃ a out, x = (x.1, .ok a) ∧ f a = .ok (b, out) ∧ l = x.1 ++ out := by
  obtain ⟨l0, x⟩ := x
  unfold Script.step at h
  cases x with
  | panic => simp at h
  | err e => simp at h
  | ok a =>
    simp only at h
    refine ⟨a, ?_⟩
    cases hf : f a with
    | panic => rw [hf] at h; simp at h
    | err e => rw [hf] at h; simp at h
    | ok bo =>
      obtain ⟨b', out⟩ := bo
      rw [hf] at h
      simp only [Prod.mk.injEq, Res.ok.injEq] at h
      obtain ⟨h1, rfl⟩ := h
      exact ⟨out, rfl, rfl, h1.symm⟩

open EC Crypto

theorem Spec.sending_ok {β μ ε α : Type} {f : β → μ} {x : Res ε (α × List (Msg β))} {a : α}
    {out : List (Msg μ)} (h : Spec.sending f x = .ok (a, out)) :
    ∃ o, x = .ok (a, o) ∧ out = o.map (Msg.mapBody f) := by
  unfold Spec.sending at h
  simp only [Res.bind_eq_ok, Res.ok.injEq, Prod.mk.injEq] at h
  obtain ⟨⟨a', o⟩, h1, rfl, h2⟩ := h
  exact ⟨o, h1, h2.symm⟩

namespace GG20.Sign

variable [Crypto]

variable {s_l : List ℕ} {k : ℕ} {key : LocalKey} {rnd : SignRandomness}

omit [Crypto] in
theorem index_of_other {m j : ℕ} (hk : k < m) (hj : j < m) (hne : j ≠ k) :
    ∃ i < m - 1, otherInd k i = j := by
  refine ⟨if j < k then j else j - 1, by split <;> omega, ?_⟩
  unfold otherInd
  split_ifs <;> omega

theorem round0_ok {r : Round1} {out : List (Msg (MessageA × SignBroadcastPhase1))}
    (h : Round0.proceed ⟨k + 1, s_l, key⟩ rnd = .ok (r, out)) :
    r.i = k + 1 ∧ r.s_l = s_l ∧ r.local_key = key ∧ out = [⟨k + 1, none, (r.m_a.1, r.phase1_com)⟩] := by
  unfold Round0.proceed at h
  simp only [Res.bind_eq_ok, Res.ok.injEq, Prod.mk.injEq] at h
  obtain ⟨_, -, _, -, _, -, _, -, rfl, rfl⟩ := h
  exact ⟨rfl, rfl, rfl, rfl⟩

theorem round1_ok (hk : k < s_l.length) {r : Round1} {r' : Round2}
    {b1 : ℕ → MessageA × SignBroadcastPhase1} {out : List (Msg (MessageB × MessageB))}
    (hi : r.i = k + 1) (hs : r.s_l = s_l) (hkey : r.local_key = key)
    (h : r.proceed ((others s_l.length k).map b1) rnd = .ok (r', out)) :
    r'.i = k + 1 ∧ r'.s_l = s_l ∧ r'.local_key = key ∧ r'.sign_keys = r.sign_keys ∧
      r'.phase1_decom = r.phase1_decom ∧
      r'.bc_vec = (List.range s_l.length).map (fun j => if j = k then r.phase1_com else (b1 j).2) ∧
      r'.m_a_vec = (List.range s_l.length).map (fun j => if j = k then r.m_a.1 else (b1 j).1) ∧
      ∀ j < s_l.length, j ≠ k → ∃ N, key.paillier_key_vec[s_l.getD j 0 - 1]? = some N ∧
        (b1 j).1.range_proofs.length = key.h1_h2_n_tilde_vec.length ∧
        ∀ x ∈ (b1 j).1.range_proofs.zip key.h1_h2_n_tilde_vec, x.1.verify (b1 j).1.c N x.2 = some true := by
  unfold Round1.proceed at h
  rw [hi, intoVec_others hk, hs] at h
  simp only [Res.bind_eq_ok, Res.ok.injEq, Prod.mk.injEq] at h
  obtain ⟨as, ha, rfl, -⟩ := h
  refine ⟨rfl, rfl, hkey, rfl, rfl, ?_, ?_, ?_⟩
  · simp only [List.map_map]
    refine List.map_congr_left fun j _ => ?_
    simp only [Function.comp]
    split <;> rfl
  · simp only [List.map_map]
    refine List.map_congr_left fun j _ => ?_
    simp only [Function.comp]
    split <;> rfl
  · intro j hj hjk
    obtain ⟨i, hi', rfl⟩ := index_of_other hk hj hjk
    have hl : as.length = s_l.length - 1 := by
      rw [← (Res.mapM_eq_ok.1 ha).length_eq]; simp
    have hb := (List.forall₂_iff_get.1 (Res.mapM_eq_ok.1 ha)).2 i (by simpa using hi') (by omega)
    simp only [List.get_eq_getElem, List.getElem_range] at hb
    unfold Round1.answer at hb
    simp only [hi, Nat.add_sub_cancel, hs, hkey, List.map_map] at hb
    rw [get_zeroBased hj, Res.bind_ok, Res.bind_eq_ok] at hb
    obtain ⟨N, hN, hb⟩ := hb
    rw [Keygen.get_map_range hj, Res.bind_ok] at hb
    simp only [Function.comp, if_neg hjk, Res.bind_eq_ok, Res.mapErr_eq_ok] at hb
    obtain ⟨g, hg, -⟩ := hb
    obtain ⟨hlen, hver, -⟩ := MessageB.b_ok_iff.1 hg
    exact ⟨N, Res.get_eq_ok.1 hN, hlen, hver⟩

theorem round2_ok (hk : k < s_l.length) {r : Round2} {r' : Round3} {b2 : ℕ → MessageB × MessageB}
    {out : List (Msg TMsg)} (hi : r.i = k + 1) (hs : r.s_l = s_l) (hkey : r.local_key = key)
    (h : r.proceed ((others s_l.length k).map b2) rnd = .ok (r', out)) :
    r'.i = k + 1 ∧ r'.s_l = s_l ∧ r'.local_key = key ∧ r'.sign_keys = r.sign_keys ∧
      r'.phase1_decom = r.phase1_decom ∧ r'.bc_vec = r.bc_vec ∧ r'.m_a_vec = r.m_a_vec ∧
      r'.mb_gamma_s = (others s_l.length k).map (fun j => (b2 j).1) ∧
      out = [⟨k + 1, none, ⟨r'.delta_i, r'.t_i, r'.t_i_proof⟩⟩] ∧
      (∀ j < s_l.length, j ≠ k → ∃ x y,
        (b2 j).1.verify_proofs_get_alpha key.paillier_dk r.sign_keys.k_i = .ok x ∧
        (b2 j).2.verify_proofs_get_alpha key.paillier_dk r.sign_keys.k_i = .ok y) ∧
      ∃ gws : List Pt, (SignKeys.g_w_vec key.pk_vec (s_l.map (· - 1)) : Res SignError (List Pt)) = .ok gws ∧
        ∀ j < s_l.length, j ≠ k → gws[j]? = some (b2 j).2.b_proof.pk := by
  unfold Round2.proceed at h
  rw [hkey, hs] at h
  simp only [Res.bind_eq_ok, Res.ok.injEq, Prod.mk.injEq] at h
  obtain ⟨gws, hg, sh, hsh, d, -, s, -, rfl, rfl⟩ := h
  have key' : ∀ j < s_l.length, j ≠ k → (∃ x y,
        (b2 j).1.verify_proofs_get_alpha key.paillier_dk r.sign_keys.k_i = .ok x ∧
        (b2 j).2.verify_proofs_get_alpha key.paillier_dk r.sign_keys.k_i = .ok y) ∧
        gws[j]? = some (b2 j).2.b_proof.pk := by
    intro j hj hjk
    obtain ⟨i, hi', rfl⟩ := index_of_other hk hj hjk
    have hl : sh.length = s_l.length - 1 := by
      rw [← (Res.mapM_eq_ok.1 hsh).length_eq]; simp
    have hb := (List.forall₂_iff_get.1 (Res.mapM_eq_ok.1 hsh)).2 i (by simpa using hi') (by omega)
    simp only [List.get_eq_getElem, List.getElem_range] at hb
    unfold Round2.shares at hb
    simp only [hi, Nat.add_sub_cancel] at hb
    rw [show (Res.get ((others s_l.length k).map b2) i : Res SignError _) = _ from get_others hk hi' _,
      Res.bind_ok] at hb
    simp only [Res.bind_eq_ok, Res.mapErr_eq_ok, Res.get_eq_ok, Res.assert_eq_ok, decide_eq_true_eq] at hb
    obtain ⟨x, hx, y, hy, gw, hgw, _, e, -⟩ := hb
    exact ⟨⟨x, y, hkey ▸ hx, hkey ▸ hy⟩, e ▸ hgw⟩
  refine ⟨hi, rfl, rfl, rfl, rfl, rfl, rfl, by simp, by rw [hi], fun j hj hjk => (key' j hj hjk).1,
    gws, hg, fun j hj hjk => (key' j hj hjk).2⟩

omit [Crypto] in
theorem sum_range_own {α : Type} [AddCommMonoid α] (hk : k < s_l.length) (own : α) (f : ℕ → α) :
    ((List.range s_l.length).map (fun j => if j = k then own else f j)).sum =
      own + ((others s_l.length k).map f).sum := by
  have h := sum_others hk (fun j => if j = k then own else f j)
  rw [if_pos rfl] at h
  rw [sum_map_range_eq]
  refine h.symm.trans ?_
  congr 2
  refine List.map_congr_left fun j hj => ?_
  rw [if_neg (mem_others.1 hj).2]

theorem round3_ok (hk : k < s_l.length) {r : Round3} {r' : Round4} {b3 : ℕ → TMsg}
    {out : List (Msg SignDecommitPhase1)} (hi : r.i = k + 1) (hs : r.s_l = s_l)
    (h : r.proceed ((others s_l.length k).map b3) = .ok (r', out)) :
    r'.i = k + 1 ∧ r'.s_l = s_l ∧ r'.local_key = r.local_key ∧ r'.sign_keys = r.sign_keys ∧
      r'.phase1_decom = r.phase1_decom ∧ r'.bc_vec = r.bc_vec ∧ r'.m_a_vec = r.m_a_vec ∧
      r'.mb_gamma_s = r.mb_gamma_s ∧ r'.sigma_i = r.sigma_i ∧
      r'.t_vec = (List.range s_l.length).map (fun j => if j = k then r.t_i else (b3 j).t_i) ∧
      out = [⟨k + 1, none, r.phase1_decom⟩] ∧
      (∀ j < s_l.length, j ≠ k → (b3 j).t_i = (b3 j).t_i_proof.com ∧ (b3 j).t_i_proof.verify = true) ∧
      r.delta_i + ((others s_l.length k).map (fun j => (b3 j).delta_i)).sum ≠ 0 ∧
      r'.delta_inv = (r.delta_i + ((others s_l.length k).map (fun j => (b3 j).delta_i)).sum)⁻¹ := by
  unfold Round3.proceed at h
  rw [hi, intoVec_others hk, hs] at h
  simp only [Res.bind_eq_ok] at h
  obtain ⟨_, ha, di, hd, h⟩ := h
  rw [Res.assert_eq_ok] at ha
  split_ifs at h with hv
  simp only [Res.ok.injEq, Prod.mk.injEq] at h
  obtain ⟨rfl, rfl⟩ := h
  rw [List.take_of_length_le (by simp)] at hv
  simp only [List.all_eq_true, List.mem_map, List.mem_range, decide_eq_true_eq,
    forall_exists_index, and_imp, forall_apply_eq_imp_iff₂] at ha hv
  unfold phase3_reconstruct_delta scInvert at hd
  rw [foldl_add_eq, zero_add, List.map_map] at hd
  have e : (List.range s_l.length).map ((fun m : TMsg => m.delta_i) ∘
      fun j => if j = k then ⟨r.delta_i, r.t_i, r.t_i_proof⟩ else b3 j) =
      (List.range s_l.length).map (fun j => if j = k then r.delta_i else (b3 j).delta_i) := by
    refine List.map_congr_left fun j _ => ?_
    simp only [Function.comp]; split <;> rfl
  rw [e, sum_range_own hk] at hd
  by_cases h0 : r.delta_i + ((others s_l.length k).map (fun j => (b3 j).delta_i)).sum = 0
  · rw [if_pos h0] at hd; cases hd
  rw [if_neg h0, Res.ofOption_some, Res.ok.injEq] at hd
  refine ⟨rfl, rfl, rfl, rfl, rfl, rfl, rfl, rfl, rfl, ?_, rfl, ?_, h0, hd.symm⟩
  · simp only [List.map_map]
    refine List.map_congr_left fun j _ => ?_
    simp only [Function.comp]; split <;> rfl
  · intro j hj hjk
    have h1 := ha j hj
    have h2 := hv j hj
    rw [if_neg hjk] at h1 h2
    exact ⟨h1, h2⟩

theorem round4_ok (hk : k < s_l.length) {r : Round4} {r' : Round5} {b4 : ℕ → SignDecommitPhase1}
    {b1 : ℕ → SignBroadcastPhase1} {own1 : SignBroadcastPhase1} {b2 : ℕ → MessageB}
    {out : List (Msg (Pt × List PDLwSlackProof))} (hi : r.i = k + 1) (hs : r.s_l = s_l)
    (hbc : r.bc_vec = (List.range s_l.length).map (fun j => if j = k then own1 else b1 j))
    (hmb : r.mb_gamma_s = (others s_l.length k).map b2)
    (h : r.proceed ((others s_l.length k).map b4) rnd = .ok (r', out)) :
    r'.i = k + 1 ∧ r'.s_l = s_l ∧ r'.local_key = r.local_key ∧ r'.sign_keys = r.sign_keys ∧
      r'.m_a_vec = r.m_a_vec ∧ r'.sigma_i = r.sigma_i ∧ r'.t_vec = r.t_vec ∧
      r'.R_dash = r.sign_keys.k_i • r'.R ∧
      out = [⟨k + 1, none, (r'.R_dash, r'.phase5_proofs_vec)⟩] ∧
      (∀ j < s_l.length, j ≠ k → (b2 j).b_proof.pk = (b4 j).g_gamma_i ∧
        hashCom (ser (b4 j).g_gamma_i) (b4 j).blind_factor = (b1 j).com) ∧
      r'.R = r.delta_inv •
        (r.phase1_decom.g_gamma_i + ((others s_l.length k).map (fun j => (b4 j).g_gamma_i)).sum) := by
  unfold Round4.proceed at h
  rw [hi, intoVec_others hk, hs, hmb, hbc] at h
  simp only [Res.bind_eq_ok, Res.ok.injEq, Prod.mk.injEq, Res.mapErr_eq_ok, Nat.add_sub_cancel] at h
  obtain ⟨bp, hbp, R, hR, pfs, -, rfl, rfl⟩ := h
  have hbp' : bp = (others s_l.length k).map (fun j => (b2 j).b_proof) := by
    have hl : bp.length = s_l.length - 1 := by
      rw [← (Res.mapM_eq_ok.1 hbp).length_eq]; simp
    refine List.ext_getElem (by rw [hl, List.length_map, length_others hk]) fun i h1 h2 => ?_
    have hm := (List.forall₂_iff_get.1 (Res.mapM_eq_ok.1 hbp)).2 i (by simp; omega) h1
    simp only [List.get_eq_getElem, List.getElem_range] at hm
    rw [show (Res.get ((others s_l.length k).map b2) i : Res SignError _) = _ from
      get_others hk (by omega) _, Res.bind_ok] at hm
    have h3 : (Res.get ((others s_l.length k).map (fun j => (b2 j).b_proof)) i :
        Res SignError DLogProof) = _ := get_others hk (by omega) _
    rw [Res.get_of_lt h2] at h3
    exact (Res.ok.inj hm).symm.trans (Res.ok.inj h3).symm
  rw [hbp'] at hR
  obtain ⟨h1, h2⟩ := (Props.C40_nonce_point_iff _ (by omega : 0 < s_l.length) hk
    (by rw [List.length_map, length_others hk]) (by simp) (by simp) R).1 hR
  refine ⟨rfl, rfl, rfl, rfl, rfl, rfl, rfl, rfl, rfl, ?_, ?_⟩
  · intro j hj hjk
    obtain ⟨pf, d, bc, e1, e2, e3, e4, e5⟩ := h1 j hj hjk
    have e0 : (Res.get ((others s_l.length k).map (fun j => (b2 j).b_proof)) (if j < k then j else j - 1) :
        Res SignError DLogProof) = _ := get_others hk (by split <;> omega) _
    have e00 : otherInd k (if j < k then j else j - 1) = j := by
      unfold otherInd; split_ifs <;> omega
    rw [e00, Res.get_eq_ok, e1] at e0
    cases e0
    simp only [List.getElem?_map, List.getElem?_range hj, Option.map_some, if_neg hjk,
      Option.some.injEq] at e2 e3
    subst e2 e3
    exact ⟨e4, e5⟩
  · refine h2.trans ?_
    rw [← sum_range_own hk, List.map_map]
    congr 2
    refine List.map_congr_left fun j _ => ?_
    simp only [Function.comp]; split <;> rfl

theorem round5_ok (hk : k < s_l.length) {r : Round5} {r' : Round6}
    {b5 : ℕ → Pt × List PDLwSlackProof} {b1 : ℕ → MessageA} {own1 : MessageA}
    {out : List (Msg (Pt × HomoElGamalProof))} (hi : r.i = k + 1) (hs : r.s_l = s_l)
    (hm : r.m_a_vec = (List.range s_l.length).map (fun j => if j = k then own1 else b1 j))
    (h : r.proceed ((others s_l.length k).map b5) rnd = .ok (r', out)) :
    r'.i = k + 1 ∧ r'.s_l = s_l ∧ r'.t_vec = r.t_vec ∧
      r'.protocol_output = ⟨r.sign_keys.k_i, r.R, r.sigma_i, r.local_key.y_sum_s⟩ ∧
      r'.S_i = r.sigma_i • r.R ∧
      out = [⟨k + 1, none, (r'.S_i, r'.homo_elgamal_proof)⟩] ∧
      (∀ j < s_l.length, j ≠ k → ∃ N, r.local_key.paillier_key_vec[s_l.getD j 0 - 1]? = some N ∧
        phase5_verify_pdl (b5 j).2 (b5 j).1 r.R (b1 j).c N r.local_key.h1_h2_n_tilde_vec
          (s_l.map (· - 1)) j = .ok ()) ∧
      r.R_dash + ((others s_l.length k).map (fun j => (b5 j).1)).sum = G := by
  unfold Round5.proceed at h
  rw [hi, intoVec_others hk, hs] at h
  simp only [Res.bind_eq_ok, Res.ok.injEq, Prod.mk.injEq, Res.mapErr_eq_ok] at h
  obtain ⟨us, hus, _, hR, rfl, rfl⟩ := h
  refine ⟨rfl, rfl, rfl, rfl, rfl, rfl, ?_, ?_⟩
  · intro j hj hjk
    have hl : us.length = s_l.length := by
      rw [← (Res.mapM_eq_ok.1 hus).length_eq]; simp
    have hb := (List.forall₂_iff_get.1 (Res.mapM_eq_ok.1 hus)).2 j (by simpa using hj) (by omega)
    simp only [List.get_eq_getElem, List.getElem_range] at hb
    unfold Round5.checkPdl at hb
    rw [hs, hm] at hb
    simp only at hb
    rw [Keygen.get_map_range hj, Res.bind_ok, Keygen.get_map_range hj, Res.bind_ok, get_zeroBased hj,
      Res.bind_ok, Res.bind_eq_ok] at hb
    obtain ⟨N, hN, hb⟩ := hb
    simp only [if_neg hjk, Res.mapErr_eq_ok] at hb
    exact ⟨N, Res.get_eq_ok.1 hN, hb⟩
  · rw [checkR_ok] at hR
    rw [← hR, ← sum_range_own hk, List.map_map]
    congr 1
    refine List.map_congr_left fun j _ => ?_
    simp only [Function.comp]; split <;> rfl

theorem phase6_bad_all {ε : Type} {S_vec : List Pt} {pfs : List HomoElGamalProof} {R_vec T_vec : List Pt} :
    ∀ {is : List ℕ}, (phase6_bad S_vec pfs R_vec T_vec is : Res ε (List ℕ)) = .ok [] →
      ∀ i ∈ is, ∃ R T S pf, R_vec[i]? = some R ∧ T_vec[i]? = some T ∧ S_vec[i]? = some S ∧
        pfs[i]? = some pf ∧ pf.verify (hegStatement R T S) = true
  | [], _ => by simp
  | i :: is, h => by
    simp only [phase6_bad, Res.bind_eq_ok, Res.get_eq_ok, Res.ok.injEq] at h
    obtain ⟨R, hR, T, hT, S, hS, pf, hpf, rest, hrest, h⟩ := h
    split_ifs at h with hv
    subst h
    intro j hj
    rcases List.mem_cons.1 hj with rfl | hj
    · exact ⟨R, T, S, pf, hR, hT, hS, hpf, hv⟩
    · exact phase6_bad_all hrest j hj

theorem round6_ok (hk : k < s_l.length) {r : Round6} {c : CompletedOfflineStage}
    {b6 : ℕ → Pt × HomoElGamalProof} {b3 : ℕ → Pt} {own3 : Pt} (hi : r.i = k + 1) (hs : r.s_l = s_l)
    (ht : r.t_vec = (List.range s_l.length).map (fun j => if j = k then own3 else b3 j))
    (h : r.proceed ((others s_l.length k).map b6) = .ok c) :
    c = r.protocol_output ∧
      (∀ j < s_l.length, j ≠ k → (b6 j).2.verify (hegStatement c.R (b3 j) (b6 j).1) = true) ∧
      r.S_i + ((others s_l.length k).map (fun j => (b6 j).1)).sum = c.y_sum_s := by
  unfold Round6.proceed at h
  rw [hi, intoVec_others hk, hs, ht] at h
  simp only [Res.bind_eq_ok, Res.ok.injEq, Res.mapErr_eq_ok] at h
  obtain ⟨_, hv, _, hS, rfl⟩ := h
  refine ⟨rfl, ?_, ?_⟩
  · intro j hj hjk
    unfold phase6_verify_proof at hv
    simp only [Res.bind_eq_ok] at hv
    obtain ⟨bad, hb, hv⟩ := hv
    split_ifs at hv with h0
    subst h0
    obtain ⟨R, T, S, pf, e1, e2, e3, e4, e5⟩ := phase6_bad_all hb j (by simpa using hj)
    simp only [List.getElem?_map, List.getElem?_range hj, Option.map_some, if_neg hjk,
      Option.some.injEq, List.getElem?_replicate, if_pos hj] at e1 e2 e3 e4
    subst e1 e2 e3 e4
    exact e5
  · rw [checkS_ok] at hS
    rw [← hS, ← sum_range_own hk, List.map_map]
    congr 1
    refine List.map_congr_left fun j _ => ?_
    simp only [Function.comp]; split <;> rfl

end GG20.Sign
end Verif
