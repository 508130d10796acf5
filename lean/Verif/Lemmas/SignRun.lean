import Verif.Spec.Sign
import Verif.Lemmas.KeygenRun
import Verif.Lemmas.Vss
import Verif.Lemmas.Mta
import Verif.Lemmas.PdlSlack
import Verif.Lemmas.Signature

/-! Lemmas on the honest signing run. -/

namespace Verif

/-! ### The positions of the other signers -/

theorem otherInd_lt {m k j : ℕ} (hj : j < m - 1) : otherInd k j < m := by
  unfold otherInd; split <;> omega

theorem otherInd_ne {k j : ℕ} : otherInd k j ≠ k := by
  unfold otherInd; split <;> omega

theorem range_map_otherInd {m k : ℕ} (hk : k < m) :
    (List.range (m - 1)).map (otherInd k) = (List.range m).filter (fun j => decide (j ≠ k)) := by
  rw [filter_range_ne hk]
  refine List.ext_getElem (by simp [List.length_eraseIdx, hk]) fun i h1 h2 => ?_
  rw [List.getElem_eraseIdx]
  simp only [List.getElem_map, List.getElem_range, otherInd]
  split <;> simp

theorem mapM_others {ε β : Type} {m k : ℕ} (hk : k < m) {F : ℕ → Res ε β} (g : ℕ → β)
    (h : ∀ j < m - 1, F j = .ok (g (otherInd k j))) :
    Res.mapM F (List.range (m - 1)) =
      .ok (((List.range m).filter (fun j => decide (j ≠ k))).map g) := by
  rw [← range_map_otherInd hk, List.map_map]
  exact Res.mapM_ok_of_forall fun j hj => h j (by simpa using hj)

theorem get_others {ε β : Type} {m k j : ℕ} (hk : k < m) (hj : j < m - 1) (b : ℕ → β) :
    (Res.get (((List.range m).filter (fun j => decide (j ≠ k))).map b) j : Res ε β) =
      .ok (b (otherInd k j)) := by
  rw [← range_map_otherInd hk, List.map_map, GG20.Keygen.get_map_range hj]
  rfl

theorem sum_others {M : Type} [AddCommMonoid M] {m k : ℕ} (hk : k < m) (f : ℕ → M) :
    f k + (((List.range m).filter (fun j => decide (j ≠ k))).map f).sum =
      ∑ j ∈ Finset.range m, f j := by
  rw [← sum_map_range_eq, filter_range_ne hk, ← List.eraseIdx_map]
  have hk' : k < ((List.range m).map f).length := by simpa using hk
  have := List.getElem_cons_eraseIdx_perm hk'
  have h := this.sum_eq
  rw [List.sum_cons] at h
  simpa using h

theorem mapM_toU16 {ε : Type} {l : List ℕ} (h : ∀ i ∈ l, i < 65536) :
    (Res.mapM toU16 l : Res ε (List ℕ)) = .ok l := by
  have := Res.mapM_ok_of_forall (ε := ε) (f := toU16) (g := id) (l := l)
    (fun a ha => by simp [toU16, h a ha])
  simpa using this

namespace GG20.Sign

open EC Crypto Spec

variable [Crypto]

omit [Crypto] in
theorem zeroBased_succ {s_l : List ℕ} (h : ∀ i ∈ s_l, 1 ≤ i) : (zeroBased s_l).map (· + 1) = s_l := by
  unfold zeroBased
  rw [List.map_map]
  conv_rhs => rw [← List.map_id s_l]
  refine List.map_congr_left fun i hi => ?_
  have := h i hi
  simp only [Function.comp_apply, id_eq]
  omega

omit [Crypto] in
theorem zeroBased_nodup {s_l : List ℕ} (h : ∀ i ∈ s_l, 1 ≤ i) (hn : s_l.Nodup) :
    (zeroBased s_l).Nodup := by
  have := zeroBased_succ h
  rw [← this] at hn
  exact hn.of_map _

section members

variable {n : ℕ} {s_l : List ℕ} (hmem : ∀ i ∈ s_l, 1 ≤ i ∧ i ≤ n) (hnd : s_l.Nodup) (hn : n < q)
  (hu : n < 65536)
include hmem

omit [Crypto] hmem in
theorem getD_mem {k : ℕ} (hk : k < s_l.length) : s_l.getD k 0 ∈ s_l := by
  simp only [List.getD_eq_getElem?_getD, List.getElem?_eq_getElem hk, Option.getD_some]
  exact List.getElem_mem hk

omit [Crypto] in
theorem zeroBased_lt : ∀ i ∈ zeroBased s_l, i < n := by
  intro i hi
  obtain ⟨j, hj, rfl⟩ := List.mem_map.1 hi
  have := hmem j hj
  omega

omit [Crypto] hmem in
theorem get_zeroBased {ε : Type} {k : ℕ} (hk : k < s_l.length) :
    (Res.get (zeroBased s_l) k : Res ε ℕ) = .ok (s_l.getD k 0 - 1) := by
  rw [Res.get_of_lt (by simpa [zeroBased] using hk)]
  simp [zeroBased, hk]

include hnd hn in
/-- The Lagrange coefficient of the signer at position `k`. -/
theorem coeff_eq {k : ℕ} (hk : k < s_l.length) :
    mapShareToNewParams (s_l.getD k 0 - 1) (zeroBased s_l) =
      some (lagrangeCoeff s_l.toFinset (s_l.getD k 0)) := by
  have h1 : ∀ i ∈ s_l, 1 ≤ i := fun i hi => (hmem i hi).1
  have hk' := h1 _ (getD_mem hk)
  rw [mapShareToNewParams_eq (n := n) (zeroBased_nodup h1 hnd)
    (List.mem_map.2 ⟨_, getD_mem hk, rfl⟩) (zeroBased_lt hmem) hn, zeroBased_succ h1,
    Nat.sub_add_cancel hk']

include hnd hn hu in
/-- The signing share computed by a signer. -/
theorem create_eq {ε : Type} {x : ℕ → Sc} {k : ℕ} (hk : k < s_l.length) (gamma kk : Sc) :
    (SignKeys.create (x (s_l.getD k 0)) (s_l.getD k 0 - 1) (zeroBased s_l) gamma kk : Res ε SignKeys) =
      .ok ⟨signShare x s_l k, signShare x s_l k • G, kk, gamma, gamma • G⟩ := by
  unfold SignKeys.create
  have h2 := hmem _ (getD_mem hk)
  rw [mapM_toU16 fun i hi => (zeroBased_lt hmem i hi).trans hu, Res.bind_ok]
  rw [show (toU16 (s_l.getD k 0 - 1) : Res ε ℕ) = .ok (s_l.getD k 0 - 1) from by
    unfold toU16; rw [if_pos (by omega)], Res.bind_ok, coeff_eq hmem hnd hn hk]
  rfl

include hnd hn hu in
/-- The public signing shares computed by the others. -/
theorem g_w_vec_eq {ε : Type} {x : ℕ → Sc} :
    (SignKeys.g_w_vec ((List.range n).map (fun j => x (j + 1) • (G : Pt))) (zeroBased s_l) :
      Res ε (List Pt)) =
      .ok ((List.range s_l.length).map (fun k => signShare x s_l k • G)) := by
  unfold SignKeys.g_w_vec
  rw [mapM_toU16 fun i hi => (zeroBased_lt hmem i hi).trans hu, Res.bind_ok]
  have hl : (zeroBased s_l).length = s_l.length := by simp [zeroBased]
  rw [hl]
  refine Res.mapM_ok_of_forall fun k hk => ?_
  have hk : k < s_l.length := by simpa using hk
  have h2 := hmem _ (getD_mem hk)
  rw [get_zeroBased hk, Res.bind_ok, coeff_eq hmem hnd hn hk, Res.ofOption_some, Res.bind_ok,
    GG20.Keygen.get_map_range (show s_l.getD k 0 - 1 < n by omega), Res.bind_ok,
    Nat.sub_add_cancel h2.1, ← mul_smul]
  rfl

include hnd in
/-- The signing shares of at least `t + 1` signers add up to the key. -/
theorem signShare_sum {t : ℕ} {x : ℕ → Sc} {d : Sc} (hx : Reconstructs t n x d)
    (hlen : t + 1 ≤ s_l.length) :
    ∑ k ∈ Finset.range s_l.length, signShare x s_l k = d := by
  have := hx s_l.toFinset (fun i hi => hmem i (by simpa using hi))
    (by rwa [List.toFinset_card_of_nodup hnd])
  rw [← this, ← sum_map_range_eq, List.sum_toFinset _ hnd]
  congr 1
  refine List.ext_getElem (by simp) fun i h1 h2 => ?_
  have hi : i < s_l.length := by simpa using h1
  simp [signShare, hi]

end members

/-! ### The values of an honest run -/

/-- The positions of the signers other than `k`. -/
def others (m k : ℕ) : List ℕ := (List.range m).filter (fun j => decide (j ≠ k))

omit [Crypto] in
theorem mem_others {m k j : ℕ} : j ∈ others m k ↔ j < m ∧ j ≠ k := by simp [others]

section run

variable (x : ℕ → Sc) (dk : ℕ → DecKey) (s_l : List ℕ) (rnd : ℕ → SignRandomness) (mA : ℕ → MessageA)
  (pf : ℕ → ℕ → PDLwSlackProof)

/-- The modulus of the signer at position `k`. -/
def oN (k : ℕ) : ℕ := (dk (s_l.getD k 0)).n

noncomputable def oSK (k : ℕ) : SignKeys :=
  ⟨signShare x s_l k, signShare x s_l k • G, (rnd k).k, (rnd k).gamma, (rnd k).gamma • G⟩

def oCom (k : ℕ) : SignBroadcastPhase1 := ⟨hashCom (ser ((rnd k).gamma • G)) (rnd k).blind⟩

def oDec (k : ℕ) : SignDecommitPhase1 := ⟨(rnd k).blind, (rnd k).gamma • G⟩

/-- The answers of signer `j` to signer `k`. -/
def oBg (j k : ℕ) : MessageB :=
  ⟨Paillier.add (oN dk s_l k) (Paillier.mul (oN dk s_l k) (mA k).c (rnd j).gamma.val)
      (Paillier.encrypt (oN dk s_l k) ((rnd j).gammaBeta k) ((rnd j).gammaR k)),
    DLogProof.prove (rnd j).gamma ((rnd j).gammaT1 k),
    DLogProof.prove (((rnd j).gammaBeta k : ℤ) : Sc) ((rnd j).gammaT2 k)⟩

noncomputable def oBw (j k : ℕ) : MessageB :=
  ⟨Paillier.add (oN dk s_l k) (Paillier.mul (oN dk s_l k) (mA k).c (signShare x s_l j).val)
      (Paillier.encrypt (oN dk s_l k) ((rnd j).wBeta k) ((rnd j).wR k)),
    DLogProof.prove (signShare x s_l j) ((rnd j).wT1 k),
    DLogProof.prove (((rnd j).wBeta k : ℤ) : Sc) ((rnd j).wT2 k)⟩

def oAlpha (k j : ℕ) : Sc := (rnd k).k * (rnd j).gamma + ((rnd j).gammaBeta k : ℤ)
noncomputable def oMiu (k j : ℕ) : Sc := (rnd k).k * signShare x s_l j + ((rnd j).wBeta k : ℤ)
def oBeta (k j : ℕ) : Sc := 0 - (((rnd k).gammaBeta j : ℤ) : Sc)
def oNi (k j : ℕ) : Sc := 0 - (((rnd k).wBeta j : ℤ) : Sc)

def oDelta (k : ℕ) : Sc :=
  (rnd k).k * (rnd k).gamma +
    ((others s_l.length k).map (fun j => oAlpha rnd k j + oBeta rnd k j)).sum

noncomputable def oSigma (k : ℕ) : Sc :=
  (rnd k).k * signShare x s_l k +
    ((others s_l.length k).map (fun j => oMiu x s_l rnd k j + oNi rnd k j)).sum

noncomputable def oT (k : ℕ) : Pt := oSigma x s_l rnd k • G + (rnd k).l • H

noncomputable def oTMsg (k : ℕ) : TMsg :=
  ⟨oDelta s_l rnd k, oT x s_l rnd k,
    PedersenProof.prove (oSigma x s_l rnd k) (rnd k).l (rnd k).ped1 (rnd k).ped2⟩

def oDeltaInv : Sc := (∑ k ∈ Finset.range s_l.length, oDelta s_l rnd k)⁻¹

def oR : Pt := oDeltaInv s_l rnd • ∑ k ∈ Finset.range s_l.length, (rnd k).gamma • (G : Pt)

def oRd (k : ℕ) : Pt := (rnd k).k • oR s_l rnd

def oPdl (k : ℕ) : Pt × List PDLwSlackProof := (oRd s_l rnd k, (others s_l.length k).map (pf k))

noncomputable def oHeg (k : ℕ) : Pt × HomoElGamalProof :=
  (oSigma x s_l rnd k • oR s_l rnd,
    HomoElGamalProof.prove (oSigma x s_l rnd k) (rnd k).l
      (hegStatement (oR s_l rnd) (oT x s_l rnd k) (oSigma x s_l rnd k • oR s_l rnd))
      (rnd k).heg1 (rnd k).heg2)

/-! ### Sums -/

omit [Crypto] in
theorem sum_cross {R : Type} [CommRing R] (m : ℕ) (a b : ℕ → R) (c : ℕ → ℕ → R) :
    ∑ k ∈ Finset.range m, (a k * b k +
      ((others m k).map (fun j => (a k * b j + c j k) + (0 - c k j))).sum) =
      (∑ k ∈ Finset.range m, a k) * ∑ k ∈ Finset.range m, b k := by
  have h1 : ∀ k ∈ Finset.range m, a k * b k +
      ((others m k).map (fun j => (a k * b j + c j k) + (0 - c k j))).sum =
      ∑ j ∈ Finset.range m, ((a k * b j + c j k) + (0 - c k j)) := by
    intro k hk
    rw [← sum_others (by simpa using hk) (fun j => (a k * b j + c j k) + (0 - c k j))]
    unfold others
    ring
  rw [Finset.sum_congr rfl h1, Finset.sum_mul_sum]
  simp only [Finset.sum_add_distrib, zero_sub, Finset.sum_neg_distrib]
  rw [Finset.sum_comm (f := fun k j => c j k)]
  ring

theorem oDelta_sum : ∑ k ∈ Finset.range s_l.length, oDelta s_l rnd k =
    (∑ k ∈ Finset.range s_l.length, (rnd k).k) * ∑ k ∈ Finset.range s_l.length, (rnd k).gamma :=
  sum_cross s_l.length (fun k => (rnd k).k) (fun k => (rnd k).gamma)
    (fun j k => (((rnd j).gammaBeta k : ℤ) : Sc))

theorem oSigma_sum : ∑ k ∈ Finset.range s_l.length, oSigma x s_l rnd k =
    (∑ k ∈ Finset.range s_l.length, (rnd k).k) *
      ∑ k ∈ Finset.range s_l.length, signShare x s_l k :=
  sum_cross s_l.length (fun k => (rnd k).k) (fun k => signShare x s_l k)
    (fun j k => (((rnd j).wBeta k : ℤ) : Sc))

variable {s_l rnd} in
theorem oR_eq (hg : ∑ k ∈ Finset.range s_l.length, (rnd k).gamma ≠ 0) :
    oR s_l rnd = (∑ k ∈ Finset.range s_l.length, (rnd k).k)⁻¹ • (G : Pt) := by
  unfold oR oDeltaInv
  rw [oDelta_sum, ← Finset.sum_smul, ← mul_smul]
  congr 1
  rw [mul_inv, mul_assoc, inv_mul_cancel₀ hg, mul_one]

variable {s_l rnd} in
theorem oRd_sum (hk : ∑ k ∈ Finset.range s_l.length, (rnd k).k ≠ 0)
    (hg : ∑ k ∈ Finset.range s_l.length, (rnd k).gamma ≠ 0) :
    ∑ k ∈ Finset.range s_l.length, oRd s_l rnd k = (G : Pt) := by
  unfold oRd
  rw [← Finset.sum_smul, oR_eq hg, ← mul_smul, mul_inv_cancel₀ hk, one_smul]

variable {s_l rnd} in
theorem oS_sum (hk : ∑ k ∈ Finset.range s_l.length, (rnd k).k ≠ 0)
    (hg : ∑ k ∈ Finset.range s_l.length, (rnd k).gamma ≠ 0) :
    ∑ k ∈ Finset.range s_l.length, oSigma x s_l rnd k • oR s_l rnd =
      (∑ k ∈ Finset.range s_l.length, signShare x s_l k) • (G : Pt) := by
  rw [← Finset.sum_smul, oR_eq hg, ← mul_smul, oSigma_sum]
  congr 1
  field_simp

end run
end GG20.Sign
end Verif
