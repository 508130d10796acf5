import Verif.Lemmas.DemoSign

/-!
Phase 5 of GG18 signing among honest clients that were given messages of their own: `msg k` is the message of the
client at position `k`.
-/

namespace Verif.GG18

open EC Crypto Spec

variable [Crypto]

section phase5

variable (R Y : Pt) (msg : ℕ → ℤ) (x : ℕ) (m : ℕ) (l rho s : ℕ → Sc) (b5a b5c : ℕ → ℤ)
  (dn h1 h2 : ℕ → Sc)

/-- The state of signer `k`, who signs `msg k`. -/
def mpSig (k : ℕ) : LocalSignature := ⟨l k, rho k, R, s k, msg k, Y⟩

def mpD2 (k : ℕ) : Phase5DDecom2 :=
  ⟨rho k • ((∑ j ∈ Finset.range m, (s j • R + l j • G)) - (msg k : Sc) • G - (x : Sc) • Y),
    l k • ((GG20.Sign.others m k).map (fun j => rho j • (G : Pt))).sum, b5c k⟩

def mpC2 (k : ℕ) : Phase5Com2 := ⟨phase5Com2 (mpD2 R Y msg x m l rho s b5c k)⟩

theorem phase5a_mixed (k : ℕ) : (mpSig R Y msg l rho s k).phase5a (b5a k) (dn k) (h1 k) (h2 k) =
    (pC1 R l rho s b5a k, pD1 R l rho s b5a k, pHeg R l rho s b5a h1 h2 k, pDl rho dn k) := rfl

variable {x m} in
theorem phase5c_mixed {y : ℕ} (hR : coords R = some (x, y)) {k : ℕ} (hk : k < m) :
    (mpSig R Y msg l rho s k).phase5c ((GG20.Sign.others m k).map (pD1 R l rho s b5a))
      ((GG20.Sign.others m k).map (pC1 R l rho s b5a))
      ((GG20.Sign.others m k).map (pHeg R l rho s b5a h1 h2))
      ((GG20.Sign.others m k).map (pDl rho dn)) (pD1 R l rho s b5a k).V_i R (b5c k) =
      .ok (mpC2 R Y msg x m l rho s b5c k, mpD2 R Y msg x m l rho s b5c k) := by
  rcases phase5c_cases (mpSig R Y msg l rho s k) hR
    (decoms := (GG20.Sign.others m k).map (pD1 R l rho s b5a))
    (coms := (GG20.Sign.others m k).map (pC1 R l rho s b5a))
    (hegs := (GG20.Sign.others m k).map (pHeg R l rho s b5a h1 h2))
    (dlogs := (GG20.Sign.others m k).map (pDl rho dn)) (pD1 R l rho s b5a k).V_i R (b5c k)
    (by simp) (by simp) (by simp) with ⟨-, e⟩ | ⟨⟨i, hi, hbad⟩, -⟩
  · rw [e]
    have hsum := sum_others hk (fun j => s j • R + l j • (G : Pt))
    have hd : (⟨(mpSig R Y msg l rho s k).rho_i • ((pD1 R l rho s b5a k).V_i +
        (((GG20.Sign.others m k).map (pD1 R l rho s b5a)).map (·.V_i)).sum -
          ((mpSig R Y msg l rho s k).m : Sc) • G - (x : Sc) • (mpSig R Y msg l rho s k).y),
        (mpSig R Y msg l rho s k).l_i •
          (((GG20.Sign.others m k).map (pD1 R l rho s b5a)).map (·.A_i)).sum, b5c k⟩ :
          Phase5DDecom2) = mpD2 R Y msg x m l rho s b5c k := by
      unfold mpD2
      rw [← hsum, List.map_map, List.map_map]
      rfl
    rw [hd]
    rfl
  · exfalso
    rw [List.length_map] at hi
    refine hbad ⟨pD1 R l rho s b5a (GG20.Sign.others m k)[i], pC1 R l rho s b5a (GG20.Sign.others m k)[i],
      pHeg R l rho s b5a h1 h2 (GG20.Sign.others m k)[i], pDl rho dn (GG20.Sign.others m k)[i],
      by simp [hi], by simp [hi], by simp [hi], by simp [hi], rfl, ?_, DLogProof.verify_prove _ _⟩
    refine HomoElGamalProof.verify_prove _ _ (phase5Statement R _) _ _ rfl ?_
    simp only [phase5Statement, pD1, mul_smul]

/-- The sums compared in phase 5d. -/
theorem phase5_sums_mixed :
    ((List.range m).map (fun k => (mpD2 R Y msg x m l rho s b5c k).t_i)).sum +
      ((List.range m).map (fun k => (pD1 R l rho s b5a k).B_i)).sum -
      ((List.range m).map (fun k => (mpD2 R Y msg x m l rho s b5c k).u_i)).sum =
    ∑ k ∈ Finset.range m, rho k •
      ((msg k : Sc) • G + (x : Sc) • Y - (∑ j ∈ Finset.range m, s j) • R) := by
  simp only [sum_map_range_eq, mpD2, pD1]
  rw [← Finset.sum_add_distrib]
  have e1 : ∀ k ∈ Finset.range m, l k • ((GG20.Sign.others m k).map (fun j => rho j • (G : Pt))).sum +
      (l k * rho k) • G = l k • (∑ j ∈ Finset.range m, rho j) • (G : Pt) := by
    intro k hk
    have := sum_others (by simpa using hk) (fun j => rho j • (G : Pt))
    rw [Finset.sum_smul, ← this, smul_add, ← mul_smul, add_comm]
    rfl
  rw [Finset.sum_congr rfl e1, ← Finset.sum_smul, Finset.sum_add_distrib, ← Finset.sum_smul, ← Finset.sum_smul,
    ← mul_smul, mul_comm (∑ k ∈ Finset.range m, l k), mul_smul, Finset.sum_smul, ← Finset.sum_sub_distrib]
  refine Finset.sum_congr rfl fun k _ => ?_
  rw [← smul_sub]
  congr 1
  abel

variable {x m} in
/-- Phase 5d among honest signers. -/
theorem phase5d_mixed {k : ℕ} :
    (mpSig R Y msg l rho s k).phase5d ((List.range m).map (mpD2 R Y msg x m l rho s b5c))
      ((List.range m).map (mpC2 R Y msg x m l rho s b5c)) ((List.range m).map (pD1 R l rho s b5a)) =
    if ∑ k ∈ Finset.range m, rho k • ((msg k : Sc) • G + (x : Sc) • Y - (∑ j ∈ Finset.range m, s j) • R) = 0
    then .ok (s k) else .err .InvalidKey := by
  rcases phase5d_cases (mpSig R Y msg l rho s k)
    (d2 := (List.range m).map (mpD2 R Y msg x m l rho s b5c))
    (c2 := (List.range m).map (mpC2 R Y msg x m l rho s b5c))
    (d1 := (List.range m).map (pD1 R l rho s b5a)) (by simp) (by simp) with ⟨-, e⟩ | ⟨⟨i, hi, hbad⟩, -⟩
  · rw [e]
    have h := phase5_sums_mixed R Y msg x m l rho s b5a b5c
    have hiff : ((((List.range m).map (mpD2 R Y msg x m l rho s b5c)).map (·.t_i)).sum +
        (((List.range m).map (pD1 R l rho s b5a)).map (·.B_i)).sum =
        (((List.range m).map (mpD2 R Y msg x m l rho s b5c)).map (·.u_i)).sum) ↔
        ∑ k ∈ Finset.range m, rho k • ((msg k : Sc) • G + (x : Sc) • Y - (∑ j ∈ Finset.range m, s j) • R) = 0 := by
      rw [← sub_eq_zero, List.map_map, List.map_map, List.map_map]
      exact Iff.of_eq (congrArg (· = 0) h)
    by_cases hc : ∑ k ∈ Finset.range m, rho k • ((msg k : Sc) • G + (x : Sc) • Y - (∑ j ∈ Finset.range m, s j) • R) = 0
    · rw [if_pos hc, if_pos (hiff.2 hc)]; rfl
    · rw [if_neg hc, if_neg (mt hiff.1 hc)]
  · exfalso
    have hi : i < m := by simpa using hi
    exact hbad ⟨mpD2 R Y msg x m l rho s b5c i, mpC2 R Y msg x m l rho s b5c i, by simp [hi], by simp [hi], rfl⟩

end phase5

end Verif.GG18

namespace Verif.Demo.Sign

open EC Crypto GG18 Spec Spec.GG18 Demo.Keygen
open GG20.Sign (oSigma oDeltaInv oR)

variable [Crypto]

section defs5

variable (x : ℕ → Sc) (Y : Pt) (s_l : List ℕ) (rnd : ℕ → Rand) (msg : ℕ → ℤ) (X : ℕ)

/-- The partial signature of signer `k`, for a nonce point with x-coordinate `X`. -/
noncomputable def mS (k : ℕ) : Sc := (msg k : Sc) * (rnd (k + 1)).k + (X : Sc) * oSigma x s_l (conv rnd) k


noncomputable def mSig (k : ℕ) : LocalSignature :=
  mpSig (oR s_l (conv rnd)) Y msg (cL rnd) (cRho rnd) (mS x s_l rnd msg X) k

noncomputable def mD1 (k : ℕ) : Phase5ADecom1 :=
  pD1 (oR s_l (conv rnd)) (cL rnd) (cRho rnd) (mS x s_l rnd msg X) (fun k => (rnd (k + 1)).blind5a) k

noncomputable def mC1 (k : ℕ) : Phase5Com1 :=
  pC1 (oR s_l (conv rnd)) (cL rnd) (cRho rnd) (mS x s_l rnd msg X) (fun k => (rnd (k + 1)).blind5a) k

noncomputable def mOpen (k : ℕ) : Open5a :=
  (mD1 x s_l rnd msg X k,
    pHeg (oR s_l (conv rnd)) (cL rnd) (cRho rnd) (mS x s_l rnd msg X) (fun k => (rnd (k + 1)).blind5a)
      (fun k => (rnd (k + 1)).heg1) (fun k => (rnd (k + 1)).heg2) k,
    pDl (cRho rnd) (fun k => (rnd (k + 1)).dlogNonce) k)

noncomputable def mC2 (k : ℕ) : Phase5Com2 :=
  mpC2 (oR s_l (conv rnd)) Y msg X s_l.length (cL rnd) (cRho rnd) (mS x s_l rnd msg X)
    (fun k => (rnd (k + 1)).blind5c) k

noncomputable def mD2 (k : ℕ) : Phase5DDecom2 :=
  mpD2 (oR s_l (conv rnd)) Y msg X s_l.length (cL rnd) (cRho rnd) (mS x s_l rnd msg X)
    (fun k => (rnd (k + 1)).blind5c) k

noncomputable def mSt5 (k : ℕ) : St5 :=
  ⟨oR s_l (conv rnd), mSig x Y s_l rnd msg X k, mC1 x s_l rnd msg X k, mOpen x s_l rnd msg X k⟩

noncomputable def mSt6 (k : ℕ) : St6 :=
  ⟨oR s_l (conv rnd), mSig x Y s_l rnd msg X k, (List.range s_l.length).map (mC1 x s_l rnd msg X),
    mOpen x s_l rnd msg X k⟩

noncomputable def mSt7 (k : ℕ) : St7 :=
  ⟨mSig x Y s_l rnd msg X k, (List.range s_l.length).map (mOpen x s_l rnd msg X),
    mC2 x Y s_l rnd msg X k, mD2 x Y s_l rnd msg X k⟩

noncomputable def mSt8 (k : ℕ) : St8 :=
  ⟨mSig x Y s_l rnd msg X k, (List.range s_l.length).map (mOpen x s_l rnd msg X),
    (List.range s_l.length).map (mC2 x Y s_l rnd msg X), mD2 x Y s_l rnd msg X k⟩

noncomputable def mSt9 (k : ℕ) : St9 := ⟨mSig x Y s_l rnd msg X k, mS x s_l rnd msg X k⟩

end defs5

section run5

variable {n : ℕ} {Y : Pt} {x : ℕ → Sc} {dk : ℕ → DecKey} {s_l : List ℕ} {key : ℕ → KeyFile}
  {rnd : ℕ → Rand} (h : HonestRoom n Y x dk s_l key rnd) (msg : ℕ → ℤ) {X yy : ℕ}
  (hR : coords (oR s_l (conv rnd)) = some (X, yy))
include hR

include h in
theorem round5_mixed {k : ℕ} (hk : k < s_l.length) :
    round5 (msg k) rnd (k + 1) (cSt4 n x dk s_l key rnd k)
      ((GG20.Sign.others s_l.length k).map (cDec rnd)) =
      .ok (mSt5 x Y s_l rnd msg X k, [⟨k + 1, none, mC1 x s_l rnd msg X k⟩]) := by
  unfold round5
  rw [show (cSt4 n x dk s_l key rnd k).ctx.decommit = cDec rnd k from rfl, format_others hk, Res.bind_ok,
    Nat.add_sub_cancel, vecRemove_range hk, Res.bind_ok,
    show (cSt4 n x dk s_l key rnd k).bc1_vec = (List.range s_l.length).map (cCom rnd) from rfl]
  simp only
  rw [vecRemove_range hk, Res.bind_ok]
  simp only
  have hp4 : phase4 (oDeltaInv s_l (conv rnd))
      (((GG20.Sign.others s_l.length k).map (fun j => (cB x dk s_l rnd j k).1)).map (·.b_proof))
      ((GG20.Sign.others s_l.length k).map (cDec rnd)) ((GG20.Sign.others s_l.length k).map (cCom rnd)) =
      .ok (oDeltaInv s_l (conv rnd) •
        ((GG20.Sign.others s_l.length k).map (fun j => (rnd (j + 1)).gamma • (G : Pt))).sum) := by
    rcases phase4_cases (oDeltaInv s_l (conv rnd))
      (b_proofs := ((GG20.Sign.others s_l.length k).map (fun j => (cB x dk s_l rnd j k).1)).map (·.b_proof))
      (decoms := (GG20.Sign.others s_l.length k).map (cDec rnd))
      (bcs := (GG20.Sign.others s_l.length k).map (cCom rnd)) (by simp) (by simp) with
      ⟨-, e⟩ | ⟨⟨i, hi, hbad⟩, -⟩
    · rw [e, List.map_map]; rfl
    · exfalso
      rw [List.length_map, List.length_map] at hi
      exact hbad ⟨(cB x dk s_l rnd (GG20.Sign.others s_l.length k)[i] k).1.b_proof,
        cDec rnd (GG20.Sign.others s_l.length k)[i], cCom rnd (GG20.Sign.others s_l.length k)[i],
        by simp [hi], by simp [hi], by simp [hi], rfl, rfl⟩
  have hp4' : phase4 (cSt4 n x dk s_l key rnd k).delta_inv
      ((cSt4 n x dk s_l key rnd k).m_b_gamma_rec_vec.map (·.b_proof))
      ((GG20.Sign.others s_l.length k).map (cDec rnd)) ((GG20.Sign.others s_l.length k).map (cCom rnd)) =
      _ := hp4
  rw [hp4']
  simp only [Res.unwrap, Res.bind_ok]
  have hRe : oDeltaInv s_l (conv rnd) •
        ((GG20.Sign.others s_l.length k).map (fun j => (rnd (j + 1)).gamma • (G : Pt))).sum +
      (cSt4 n x dk s_l key rnd k).delta_inv • (cDec rnd k).g_gamma_i = oR s_l (conv rnd) := by
    have := sum_others hk (fun j => (rnd (j + 1)).gamma • (G : Pt))
    show oDeltaInv s_l (conv rnd) • _ + oDeltaInv s_l (conv rnd) • (rnd (k + 1)).gamma • (G : Pt) = _
    rw [← smul_add, add_comm]
    unfold oR
    exact congrArg (oDeltaInv s_l (conv rnd) • ·) this
  rw [hRe]
  have hx : xc (oR s_l (conv rnd)) = some X := by simp [xc, hR]
  have hy : (cSt4 n x dk s_l key rnd k).ctx.key.y_sum = Y := (h.holds k hk).public_key
  rw [hy]
  unfold LocalSignature.phase5_local_sig
  rw [hx]
  simp only [Res.ofOption_some, Res.bind_ok, scOfCoord_eq]
  rfl

omit hR in
theorem round6_mixed {k : ℕ} (hk : k < s_l.length) :
    round6 (k + 1) (mSt5 x Y s_l rnd msg X k)
      ((GG20.Sign.others s_l.length k).map (mC1 x s_l rnd msg X)) =
      .ok (mSt6 x Y s_l rnd msg X k, [⟨k + 1, none, mOpen x s_l rnd msg X k⟩]) := by
  unfold round6
  rw [show (mSt5 x Y s_l rnd msg X k).phase5_com = mC1 x s_l rnd msg X k from rfl, format_others hk,
    Res.bind_ok]
  rfl

theorem round7_mixed {k : ℕ} (hk : k < s_l.length) :
    round7 (s_l.length - 1) rnd (k + 1) (mSt6 x Y s_l rnd msg X k)
      ((GG20.Sign.others s_l.length k).map (mOpen x s_l rnd msg X)) =
      .ok (mSt7 x Y s_l rnd msg X k, [⟨k + 1, none, mC2 x Y s_l rnd msg X k⟩]) := by
  unfold round7
  rw [show (mSt6 x Y s_l rnd msg X k).opening = mOpen x s_l rnd msg X k from rfl, format_others hk,
    Res.bind_ok, Nat.add_sub_cancel, vecRemove_range hk, Res.bind_ok,
    show (mSt6 x Y s_l rnd msg X k).commit5a_vec =
      (List.range s_l.length).map (mC1 x s_l rnd msg X) from rfl]
  simp only
  rw [vecRemove_range hk, Res.bind_ok]
  simp only
  rw [mapM_get _ (by rw [List.length_map, length_others hk]), Res.bind_ok]
  simp only [List.map_map]
  have h5c := phase5c_mixed (oR s_l (conv rnd)) Y msg (cL rnd) (cRho rnd) (mS x s_l rnd msg X)
    (fun k => (rnd (k + 1)).blind5a) (fun k => (rnd (k + 1)).blind5c) (fun k => (rnd (k + 1)).dlogNonce)
    (fun k => (rnd (k + 1)).heg1) (fun k => (rnd (k + 1)).heg2) hR hk
  refine (congrArg (fun a => Res.unwrap a >>= _) h5c).trans ?_
  rfl

omit hR in
theorem round8_mixed {k : ℕ} (hk : k < s_l.length) :
    round8 (k + 1) (mSt7 x Y s_l rnd msg X k)
      ((GG20.Sign.others s_l.length k).map (mC2 x Y s_l rnd msg X)) =
      .ok (mSt8 x Y s_l rnd msg X k, [⟨k + 1, none, mD2 x Y s_l rnd msg X k⟩]) := by
  unfold round8
  rw [show (mSt7 x Y s_l rnd msg X k).com2 = mC2 x Y s_l rnd msg X k from rfl, format_others hk,
    Res.bind_ok]
  rfl

omit hR in
theorem round9_mixed {k : ℕ} (hk : k < s_l.length) :
    round9 (s_l.length - 1) (k + 1) (mSt8 x Y s_l rnd msg X k)
      ((GG20.Sign.others s_l.length k).map (mD2 x Y s_l rnd msg X)) =
      if ∑ k ∈ Finset.range s_l.length, cRho rnd k • ((msg k : Sc) • G + (X : Sc) • Y -
          (∑ j ∈ Finset.range s_l.length, mS x s_l rnd msg X j) • oR s_l (conv rnd)) = 0
      then .ok (mSt9 x Y s_l rnd msg X k, [⟨k + 1, none, mS x s_l rnd msg X k⟩]) else .panic := by
  unfold round9
  rw [show (mSt8 x Y s_l rnd msg X k).decom2 = mD2 x Y s_l rnd msg X k from rfl, format_others hk,
    Res.bind_ok, mapM_get _ (by simp only [mSt8, List.length_map, List.length_range]; omega), Res.bind_ok]
  have h5d := phase5d_mixed (oR s_l (conv rnd)) Y msg (x := X) (m := s_l.length) (cL rnd) (cRho rnd)
    (mS x s_l rnd msg X) (fun k => (rnd (k + 1)).blind5a) (fun k => (rnd (k + 1)).blind5c) (k := k)
  have e : (mSt8 x Y s_l rnd msg X k).opened_vec.map (·.1) =
      (List.range s_l.length).map (mD1 x s_l rnd msg X) := by
    simp only [mSt8, List.map_map]; rfl
  rw [e]
  refine (congrArg (fun a => Res.unwrap a >>= _) h5d).trans ?_
  split_ifs <;> rfl

end run5

end Verif.Demo.Sign
