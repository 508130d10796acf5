import Verif.Lemmas.GG18Keygen
import Verif.Lemmas.SignRun

/-! Helper lemmas on the GG18 signing functions. -/

namespace Verif

/-- `allRes` decides a predicate when each test does. -/
theorem allRes_range_decides {ε : Type} {test : ℕ → Res ε Bool} {n : ℕ} {P : ℕ → Prop}
    (h : ∀ i < n, (test i = .ok true ∧ P i) ∨ (test i = .ok false ∧ ¬ P i)) :
    (allRes test (List.range n) = .ok true ∧ ∀ i < n, P i) ∨
    (allRes test (List.range n) = .ok false ∧ ∃ i < n, ¬ P i) := by
  by_cases hall : ∀ i < n, P i
  · refine Or.inl ⟨allRes_range_true.2 fun i hi => ?_, hall⟩
    rcases h i hi with h | h
    · exact h.1
    · exact absurd (hall i hi) h.2
  · right
    push Not at hall
    refine ⟨?_, hall⟩
    obtain ⟨i, ⟨hi, hbad⟩, hmin⟩ : ∃ i, (i < n ∧ ¬ P i) ∧ ∀ j < i, ¬ (j < n ∧ ¬ P j) := by
      classical
      exact ⟨Nat.find hall, Nat.find_spec hall, fun j hj => Nat.find_min hall hj⟩
    refine allRes_range_false.2 ⟨i, hi, ?_, fun j hj => ?_⟩
    · rcases h i hi with h | h
      · exact absurd h.2 hbad
      · exact h.1
    · rcases h j (by omega) with h | h
      · exact h.1
      · exact absurd ⟨by omega, h.2⟩ (hmin j hj)

namespace GG18

open EC Crypto Spec

variable [Crypto]

/-- The outcomes of `phase4` when there are at least as many openings and commitments as proofs. -/
theorem phase4_cases (delta_inv : Sc) {b_proofs : List DLogProof} {decoms : List SignDecommitPhase1}
    {bcs : List SignBroadcastPhase1} (h1 : b_proofs.length ≤ decoms.length)
    (h2 : b_proofs.length ≤ bcs.length) :
    ((∀ i < b_proofs.length, Spec.GG18.OpensGamma b_proofs decoms bcs i) ∧
      phase4 delta_inv b_proofs decoms bcs =
        .ok (delta_inv • (decoms.map (·.g_gamma_i)).sum)) ∨
    ((∃ i < b_proofs.length, ¬ Spec.GG18.OpensGamma b_proofs decoms bcs i) ∧
      phase4 delta_inv b_proofs decoms bcs = .err .InvalidKey) := by
  have h : ∀ i < b_proofs.length,
      (phase4_test b_proofs decoms bcs i = .ok true ∧ Spec.GG18.OpensGamma b_proofs decoms bcs i) ∨
      (phase4_test b_proofs decoms bcs i = .ok false ∧
        ¬ Spec.GG18.OpensGamma b_proofs decoms bcs i) := by
    intro i hi
    have g1 : b_proofs[i]? = some b_proofs[i] := List.getElem?_eq_getElem _
    have g2 : decoms[i]? = some decoms[i] := List.getElem?_eq_getElem _
    have g3 : bcs[i]? = some bcs[i] := List.getElem?_eq_getElem _
    unfold phase4_test Spec.GG18.OpensGamma
    generalize b_proofs[i] = pf at *
    generalize decoms[i] = d at *
    generalize bcs[i] = bc at *
    simp only [Res.get, g1, g2, g3, Res.ofOption_some, Res.bind_ok, Option.some.injEq]
    by_cases e1 : pf.pk = d.g_gamma_i
    · rw [if_pos e1]
      by_cases e2 : hashCom (ser d.g_gamma_i) d.blind_factor = bc.com
      · exact Or.inl ⟨by simp [e2], _, _, _, rfl, rfl, rfl, e1, e2⟩
      · refine Or.inr ⟨by simp [e2], ?_⟩
        rintro ⟨_, _, _, rfl, rfl, rfl, -, e⟩
        exact e2 e
    · rw [if_neg e1]
      refine Or.inr ⟨rfl, ?_⟩
      rintro ⟨_, _, _, rfl, rfl, rfl, e, -⟩
      exact e1 e
  unfold phase4
  rcases allRes_range_decides h with ⟨e, ha⟩ | ⟨e, hb⟩
  · exact Or.inl ⟨ha, by rw [e]; rfl⟩
  · exact Or.inr ⟨hb, by rw [e]; rfl⟩

theorem phase5c_test_cases {R : Pt} {decoms : List Phase5ADecom1} {coms : List Phase5Com1}
    {hegs : List HomoElGamalProof} {dlogs : List DLogProof} {i : ℕ} (h1 : i < decoms.length)
    (h2 : i < coms.length) (h3 : i < hegs.length) (h4 : i < dlogs.length) :
    (phase5c_test R decoms coms hegs dlogs i = .ok true ∧
      Spec.GG18.Opens5a R decoms coms hegs dlogs i) ∨
    (phase5c_test R decoms coms hegs dlogs i = .ok false ∧
      ¬ Spec.GG18.Opens5a R decoms coms hegs dlogs i) := by
  have g1 : decoms[i]? = some decoms[i] := List.getElem?_eq_getElem _
  have g2 : coms[i]? = some coms[i] := List.getElem?_eq_getElem _
  have g3 : hegs[i]? = some hegs[i] := List.getElem?_eq_getElem _
  have g4 : dlogs[i]? = some dlogs[i] := List.getElem?_eq_getElem _
  unfold phase5c_test Spec.GG18.Opens5a
  generalize decoms[i] = d at *
  generalize coms[i] = c at *
  generalize hegs[i] = hg at *
  generalize dlogs[i] = dl at *
  simp only [Res.get, g1, g2, g3, g4, Res.ofOption_some, Res.bind_ok, Option.some.injEq]
  by_cases e1 : phase5Com1 d = c.com
  · rw [if_pos e1]
    by_cases e2 : hg.verify (phase5Statement R d) = true
    · rw [if_pos e2]
      by_cases e3 : dl.verify = true
      · exact Or.inl ⟨by rw [e3], _, _, _, _, rfl, rfl, rfl, rfl, e1, e2, e3⟩
      · refine Or.inr ⟨by simpa using e3, ?_⟩
        rintro ⟨_, _, _, _, rfl, rfl, rfl, rfl, -, -, e⟩
        exact e3 e
    · rw [if_neg e2]
      refine Or.inr ⟨rfl, ?_⟩
      rintro ⟨_, _, _, _, rfl, rfl, rfl, rfl, -, e, -⟩
      exact e2 e
  · rw [if_neg e1]
    refine Or.inr ⟨rfl, ?_⟩
    rintro ⟨_, _, _, _, rfl, rfl, rfl, rfl, e, -, -⟩
    exact e1 e

/-- The outcomes of `phase5c` on vectors of one length. -/
theorem phase5c_cases (self : LocalSignature) {x y : ℕ} (hR : coords self.R = some (x, y))
    {decoms : List Phase5ADecom1} {coms : List Phase5Com1} {hegs : List HomoElGamalProof}
    {dlogs : List DLogProof} (v_i R : Pt) (blind : ℤ) (h1 : decoms.length = coms.length)
    (h2 : hegs.length = coms.length) (h3 : dlogs.length = coms.length) :
    ((∀ i < coms.length, Spec.GG18.Opens5a R decoms coms hegs dlogs i) ∧
      self.phase5c decoms coms hegs dlogs v_i R blind =
        (let d : Phase5DDecom2 :=
          ⟨self.rho_i • (v_i + (decoms.map (·.V_i)).sum - (self.m : Sc) • G - (x : Sc) • self.y),
            self.l_i • (decoms.map (·.A_i)).sum, blind⟩
        .ok (⟨phase5Com2 d⟩, d))) ∨
    ((∃ i < coms.length, ¬ Spec.GG18.Opens5a R decoms coms hegs dlogs i) ∧
      self.phase5c decoms coms hegs dlogs v_i R blind = .err .InvalidCom) := by
  have hx : xc self.R = some x := by simp [xc, hR]
  unfold LocalSignature.phase5c
  simp only [h1, decide_true, Res.assert_true, Res.bind_ok, hx, okOrInvalidSig, scOfCoord_eq]
  rcases allRes_range_decides (fun i hi => phase5c_test_cases (R := R) (decoms := decoms)
    (coms := coms) (hegs := hegs) (dlogs := dlogs) (h1 ▸ hi) hi (h2 ▸ hi) (h3 ▸ hi)) with
    ⟨e, ha⟩ | ⟨e, hb⟩
  · exact Or.inl ⟨ha, by rw [e]; rfl⟩
  · exact Or.inr ⟨hb, by rw [e]; rfl⟩

/-- The outcomes of `phase5d` on vectors of one length. -/
theorem phase5d_cases (self : LocalSignature) {d2 : List Phase5DDecom2} {c2 : List Phase5Com2}
    {d1 : List Phase5ADecom1} (h1 : d2.length = d1.length) (h2 : d2.length = c2.length) :
    ((∀ i < c2.length, Spec.GG18.Opens5c d2 c2 i) ∧
      self.phase5d d2 c2 d1 =
        if (d2.map (·.t_i)).sum + (d1.map (·.B_i)).sum = (d2.map (·.u_i)).sum then .ok self.s_i
        else .err .InvalidKey) ∨
    ((∃ i < c2.length, ¬ Spec.GG18.Opens5c d2 c2 i) ∧ self.phase5d d2 c2 d1 = .err .InvalidCom) := by
  unfold LocalSignature.phase5d
  rw [decide_eq_true h1, decide_eq_true h2]
  simp only [Res.assert_true, Res.bind_ok]
  have h : ∀ i < c2.length,
      ((do
        let d ← Res.get d2 i
        let c ← Res.get c2 i
        .ok (decide (phase5Com2 d = c.com)) : Res Error Bool) = .ok true ∧
        Spec.GG18.Opens5c d2 c2 i) ∨
      ((do
        let d ← Res.get d2 i
        let c ← Res.get c2 i
        .ok (decide (phase5Com2 d = c.com)) : Res Error Bool) = .ok false ∧
        ¬ Spec.GG18.Opens5c d2 c2 i) := by
    intro i hi
    have hi' : i < d2.length := by omega
    have g1 : d2[i]? = some d2[i] := List.getElem?_eq_getElem _
    have g2 : c2[i]? = some c2[i] := List.getElem?_eq_getElem _
    unfold Spec.GG18.Opens5c
    generalize d2[i] = d at *
    generalize c2[i] = c at *
    simp only [Res.get, g1, g2, Res.ofOption_some, Res.bind_ok, Option.some.injEq]
    by_cases e : phase5Com2 d = c.com
    · exact Or.inl ⟨by rw [decide_eq_true e], _, _, rfl, rfl, e⟩
    · refine Or.inr ⟨by rw [decide_eq_false e], ?_⟩
      rintro ⟨_, _, rfl, rfl, e'⟩
      exact e e'
  rcases allRes_range_decides h with ⟨e, ha⟩ | ⟨e, hb⟩
  · refine Or.inl ⟨ha, ?_⟩
    rw [e]
    simp only [Res.bind_ok, if_true, List.sum_append]
    have : ((G : Pt) = G + ((d2.map (·.t_i)).sum + (d1.map (·.B_i)).sum) - (d2.map (·.u_i)).sum) ↔
        (d2.map (·.t_i)).sum + (d1.map (·.B_i)).sum = (d2.map (·.u_i)).sum := by
      rw [eq_comm, add_sub_assoc, add_eq_left, sub_eq_zero]
    by_cases hc : (d2.map (·.t_i)).sum + (d1.map (·.B_i)).sum = (d2.map (·.u_i)).sum
    · rw [if_pos hc, if_pos (this.2 hc)]
    · rw [if_neg hc, if_neg (mt this.1 hc)]
  · exact Or.inr ⟨hb, by rw [e]; rfl⟩

/-! ### Phase 5 among honest signers -/

section phase5

variable (R Y : Pt) (msg : ℤ) (x : ℕ) (m : ℕ) (l rho s : ℕ → Sc) (b5a b5c : ℕ → ℤ)
  (dn h1 h2 : ℕ → Sc)

def pSig (k : ℕ) : LocalSignature := ⟨l k, rho k, R, s k, msg, Y⟩

def pD1 (k : ℕ) : Phase5ADecom1 :=
  ⟨s k • R + l k • G, rho k • G, (l k * rho k) • G, b5a k⟩

def pC1 (k : ℕ) : Phase5Com1 := ⟨phase5Com1 (pD1 R l rho s b5a k)⟩

def pHeg (k : ℕ) : HomoElGamalProof :=
  HomoElGamalProof.prove (l k) (s k) (phase5Statement R (pD1 R l rho s b5a k)) (h1 k) (h2 k)

def pDl (k : ℕ) : DLogProof := DLogProof.prove (rho k) (dn k)

def pD2 (k : ℕ) : Phase5DDecom2 :=
  ⟨rho k • ((∑ j ∈ Finset.range m, (s j • R + l j • G)) - (msg : Sc) • G - (x : Sc) • Y),
    l k • ((GG20.Sign.others m k).map (fun j => rho j • (G : Pt))).sum, b5c k⟩

def pC2 (k : ℕ) : Phase5Com2 := ⟨phase5Com2 (pD2 R Y msg x m l rho s b5c k)⟩

theorem phase5a_eq (k : ℕ) : (pSig R Y msg l rho s k).phase5a (b5a k) (dn k) (h1 k) (h2 k) =
    (pC1 R l rho s b5a k, pD1 R l rho s b5a k, pHeg R l rho s b5a h1 h2 k, pDl rho dn k) := rfl

variable {x m} in
theorem phase5c_honest {y : ℕ} (hR : coords R = some (x, y)) {k : ℕ} (hk : k < m) :
    (pSig R Y msg l rho s k).phase5c ((GG20.Sign.others m k).map (pD1 R l rho s b5a))
      ((GG20.Sign.others m k).map (pC1 R l rho s b5a))
      ((GG20.Sign.others m k).map (pHeg R l rho s b5a h1 h2))
      ((GG20.Sign.others m k).map (pDl rho dn)) (pD1 R l rho s b5a k).V_i R (b5c k) =
      .ok (pC2 R Y msg x m l rho s b5c k, pD2 R Y msg x m l rho s b5c k) := by
  rcases phase5c_cases (pSig R Y msg l rho s k) hR
    (decoms := (GG20.Sign.others m k).map (pD1 R l rho s b5a))
    (coms := (GG20.Sign.others m k).map (pC1 R l rho s b5a))
    (hegs := (GG20.Sign.others m k).map (pHeg R l rho s b5a h1 h2))
    (dlogs := (GG20.Sign.others m k).map (pDl rho dn)) (pD1 R l rho s b5a k).V_i R (b5c k)
    (by simp) (by simp) (by simp) with ⟨-, e⟩ | ⟨⟨i, hi, hbad⟩, -⟩
  · rw [e]
    have hsum := sum_others hk (fun j => s j • R + l j • (G : Pt))
    have hd : (⟨(pSig R Y msg l rho s k).rho_i • ((pD1 R l rho s b5a k).V_i +
        (((GG20.Sign.others m k).map (pD1 R l rho s b5a)).map (·.V_i)).sum -
          ((pSig R Y msg l rho s k).m : Sc) • G - (x : Sc) • (pSig R Y msg l rho s k).y),
        (pSig R Y msg l rho s k).l_i •
          (((GG20.Sign.others m k).map (pD1 R l rho s b5a)).map (·.A_i)).sum, b5c k⟩ :
          Phase5DDecom2) = pD2 R Y msg x m l rho s b5c k := by
      unfold pD2
      rw [← hsum, List.map_map, List.map_map]
      rfl
    rw [hd]
    rfl
  · exfalso
    rw [List.length_map] at hi
    refine hbad ⟨pD1 R l rho s b5a (GG20.Sign.others m k)[i], pC1 R l rho s b5a (GG20.Sign.others m k)[i],
      pHeg R l rho s b5a h1 h2 (GG20.Sign.others m k)[i], pDl rho dn (GG20.Sign.others m k)[i],
      by simp [hi], by simp [hi], by simp [hi], by simp [hi], rfl, ?_, DLogProof.verify_prove _ _⟩
    refine HomoElGamalProof.verify_prove _ _ (phase5Statement R _) _ _ rfl ?_
    simp only [phase5Statement, pD1, mul_smul]

/-- The sums compared in phase 5d. -/
theorem phase5_sums :
    ((List.range m).map (fun k => (pD2 R Y msg x m l rho s b5c k).t_i)).sum +
      ((List.range m).map (fun k => (pD1 R l rho s b5a k).B_i)).sum -
      ((List.range m).map (fun k => (pD2 R Y msg x m l rho s b5c k).u_i)).sum =
    (∑ k ∈ Finset.range m, rho k) •
      ((msg : Sc) • G + (x : Sc) • Y - (∑ k ∈ Finset.range m, s k) • R) := by
  simp only [sum_map_range_eq, pD2, pD1]
  rw [← Finset.sum_add_distrib]
  have e1 : ∀ k ∈ Finset.range m, l k • ((GG20.Sign.others m k).map (fun j => rho j • (G : Pt))).sum +
      (l k * rho k) • G = l k • (∑ j ∈ Finset.range m, rho j) • (G : Pt) := by
    intro k hk
    have := sum_others (by simpa using hk) (fun j => rho j • (G : Pt))
    rw [Finset.sum_smul, ← this, smul_add, ← mul_smul, add_comm]
    rfl
  rw [Finset.sum_congr rfl e1, ← Finset.sum_smul, Finset.sum_add_distrib, ← Finset.sum_smul,
    ← Finset.sum_smul, ← Finset.sum_smul]
  simp only [smul_sub, smul_add, ← mul_smul]
  rw [mul_comm (∑ k ∈ Finset.range m, l k)]
  abel

variable {x m} in
/-- Phase 5d among honest signers. -/
theorem phase5d_honest {k : ℕ} :
    (pSig R Y msg l rho s k).phase5d ((List.range m).map (pD2 R Y msg x m l rho s b5c))
      ((List.range m).map (pC2 R Y msg x m l rho s b5c)) ((List.range m).map (pD1 R l rho s b5a)) =
    if ∑ j ∈ Finset.range m, rho j = 0 ∨
        (∑ j ∈ Finset.range m, s j) • R = (msg : Sc) • G + (x : Sc) • Y
    then .ok (s k) else .err .InvalidKey := by
  rcases phase5d_cases (pSig R Y msg l rho s k)
    (d2 := (List.range m).map (pD2 R Y msg x m l rho s b5c))
    (c2 := (List.range m).map (pC2 R Y msg x m l rho s b5c))
    (d1 := (List.range m).map (pD1 R l rho s b5a)) (by simp) (by simp) with ⟨-, e⟩ | ⟨⟨i, hi, hbad⟩, -⟩
  · rw [e]
    have h := phase5_sums R Y msg x m l rho s b5a b5c
    have hiff : ((((List.range m).map (pD2 R Y msg x m l rho s b5c)).map (·.t_i)).sum +
        (((List.range m).map (pD1 R l rho s b5a)).map (·.B_i)).sum =
        (((List.range m).map (pD2 R Y msg x m l rho s b5c)).map (·.u_i)).sum) ↔
        ∑ j ∈ Finset.range m, rho j = 0 ∨
        (∑ j ∈ Finset.range m, s j) • R = (msg : Sc) • G + (x : Sc) • Y := by
      rw [← sub_eq_zero, List.map_map, List.map_map, List.map_map]
      refine (Iff.of_eq (congrArg (· = 0) h)).trans ?_
      rw [smul_eq_zero_iff, sub_eq_zero, eq_comm (a := (msg : Sc) • G + (x : Sc) • Y)]
    by_cases hc : ∑ j ∈ Finset.range m, rho j = 0 ∨
        (∑ j ∈ Finset.range m, s j) • R = (msg : Sc) • G + (x : Sc) • Y
    · rw [if_pos hc, if_pos (hiff.2 hc)]; rfl
    · rw [if_neg hc, if_neg (mt hiff.1 hc)]
  · exfalso
    have hi : i < m := by simpa using hi
    exact hbad ⟨pD2 R Y msg x m l rho s b5c i, pC2 R Y msg x m l rho s b5c i, by simp [hi], by simp [hi], rfl⟩

end phase5

end GG18
end Verif
