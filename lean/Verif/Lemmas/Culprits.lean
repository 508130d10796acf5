import Verif.Spec.Culprits
import Verif.Lemmas.SignChecks
import Verif.Props.SelectiveFailure

/-! # The errors of the rounds of the offline stage -/

namespace Verif

theorem Res.get_ne_err {ε α : Type} {l : List α} {i : ℕ} {e : ε} : (Res.get l i : Res ε α) ≠ .err e := by
  unfold Res.get
  cases l[i]? <;> simp [Res.ofOption]

theorem Res.ofOption_ne_err {ε α : Type} {o : Option α} {e : ε} : (Res.ofOption o : Res ε α) ≠ .err e := by
  cases o <;> simp [Res.ofOption]

theorem Res.assert_ne_err {ε : Type} {b : Bool} {e : ε} : (Res.assert b : Res ε Unit) ≠ .err e := by
  cases b <;> simp [Res.assert]

theorem Res.mapErr_eq_err {ε ε' α : Type} {f : ε → ε'} {r : Res ε α} {e : ε'} :
    r.mapErr f = .err e ↔ ∃ e', r = .err e' ∧ f e' = e := by
  cases r <;> simp [Res.mapErr]

theorem Res.mapM_eq_err {ε α β : Type} {f : α → Res ε β} {e : ε} {l : List α}
    (h : Res.mapM f l = .err e) : ∃ x ∈ l, f x = .err e := by
  induction l with
  | nil => simp [Res.mapM] at h
  | cons a l ih =>
    rw [Res.mapM, Res.bind_eq_err] at h
    rcases h with h | ⟨b, -, h⟩
    · exact ⟨a, List.mem_cons_self .., h⟩
    · rw [Res.bind_eq_err] at h
      rcases h with h | ⟨bs, -, h⟩
      · obtain ⟨x, hx, hxe⟩ := ih h
        exact ⟨x, List.mem_cons_of_mem _ hx, hxe⟩
      · simp at h

theorem Script.step_err {μ ε α β : Type} {x : List μ × Res ε α} {f : α → Res ε (β × List μ)} {e : ε}
    (h : (Script.step x f).2 = .err e) : x.2 = .err e ∨ ∃ a, x = (x.1, .ok a) ∧ f a = .err e := by
  obtain ⟨l0, x⟩ := x
  unfold Script.step at h
  cases x with
  | panic => simp at h
  | err e' => exact Or.inl (by simpa using h)
  | ok a =>
    refine Or.inr ⟨a, rfl, ?_⟩
    simp only at h
    cases hf : f a with
    | panic => rw [hf] at h; simp at h
    | err e => rw [hf] at h; simpa using h
    | ok bo => rw [hf] at h; simp at h

theorem Script.step_of_err {μ ε α β : Type} {x : List μ × Res ε α} {f : α → Res ε (β × List μ)} {e : ε}
    (h : x.2 = .err e) : (Script.step x f).2 = .err e := by
  obtain ⟨l0, x⟩ := x
  simp only at h
  subst h
  rfl

theorem Script.step_prefix {μ ε α β : Type} (x : List μ × Res ε α) (f : α → Res ε (β × List μ)) :
    x.1 <+: (Script.step x f).1 := by
  obtain ⟨l0, x⟩ := x
  unfold Script.step
  cases x with
  | panic => exact List.prefix_rfl
  | err e' => exact List.prefix_rfl
  | ok a =>
    simp only
    cases f a with
    | panic => exact List.prefix_rfl
    | err e => exact List.prefix_rfl
    | ok bo => exact List.prefix_append _ _

open EC Crypto

theorem Spec.sending_err {β μ ε α : Type} {f : β → μ} {x : Res ε (α × List (Msg β))} {e : ε} :
    Spec.sending f x = .err e ↔ x = .err e := by
  unfold Spec.sending
  rw [Res.bind_eq_err]
  simp

namespace GG20.Sign

open Spec

variable [Crypto] {s_l : List ℕ} {k : ℕ} {key : LocalKey} {rnd : SignRandomness} {e : SignError}

/-- What an error looks like in a session of `m` signers. -/
def Names (m : ℕ) (e : SignError) : Prop :=
  e ∈ anonymousErrors ∨ (namedSigners e ≠ [] ∧ ∀ p ∈ namedSigners e, 1 ≤ p ∧ p ≤ m)

theorem MessageB.b_err {b : Sc} {N : ℕ} {m_a : MessageA} {r bt : ℤ} {sts : List DLogStatement}
    {t1 t2 : Sc} {e : Error} (h : MessageB.b b N m_a r bt sts t1 t2 = .err e) : e = .InvalidKey := by
  unfold MessageB.b at h
  split_ifs at h
  · exact (Res.err.inj h).symm
  · split at h
    · cases h
    · exact (Res.err.inj h).symm
    · cases h

theorem MessageB.alpha_err {m : MessageB} {dk : DecKey} {a : Sc} {e : Error}
    (h : m.verify_proofs_get_alpha dk a = .err e) : e = .InvalidKey := by
  unfold MessageB.verify_proofs_get_alpha at h
  split at h
  · cases h
  · simp only at h
    split_ifs at h
    exact (Res.err.inj h).symm

omit [Crypto] in
theorem mapM_ne_err {ε α β : Type} {f : α → Res ε β} {e : ε} {l : List α} (h : ∀ x ∈ l, f x ≠ .err e) :
    Res.mapM f l ≠ .err e := fun he => by
  obtain ⟨x, hx, hxe⟩ := Res.mapM_eq_err he
  exact h x hx hxe

omit [Crypto] in
theorem toU16_ne_err {ε : Type} {i : ℕ} {e : ε} : (toU16 i : Res ε ℕ) ≠ .err e := by
  unfold toU16
  split <;> simp

theorem round0_err : Round0.proceed ⟨k + 1, s_l, key⟩ rnd ≠ .err e := by
  intro h
  unfold Round0.proceed SignKeys.create at h
  simp only [Res.bind_eq_err, Res.bind_eq_ok, Res.get_ne_err, Res.ofOption_ne_err, toU16_ne_err, false_or,
    mapM_ne_err (fun _ _ => toU16_ne_err), reduceCtorEq, and_false, exists_false] at h

theorem round1_err {r : Round1} {inp : List (MessageA × SignBroadcastPhase1)}
    (h : r.proceed inp rnd = .err e) : e = .Round1 ⟨"InvalidKey", []⟩ := by
  unfold Round1.proceed at h
  simp only [Res.bind_eq_err, reduceCtorEq, and_false, exists_false, or_false] at h
  obtain ⟨j, -, hj⟩ := Res.mapM_eq_err h
  unfold Round1.answer at hj
  simp only [Res.bind_eq_err, Res.get_ne_err, false_or, Res.mapErr_eq_err, reduceCtorEq, and_false,
    exists_false, or_false] at hj
  obtain ⟨_, -, _, -, _, -, ⟨e', he, rfl⟩ | ⟨_, -, e', he, rfl⟩⟩ := hj <;>
    rw [MessageB.b_err he] <;> rfl

theorem round2_err {r : Round2} {inp : List (MessageB × MessageB)}
    (h : r.proceed inp rnd = .err e) : e = .Round3 ⟨"InvalidKey", []⟩ := by
  unfold Round2.proceed SignKeys.g_w_vec SignKeys.phase2_delta_i SignKeys.phase2_sigma_i at h
  have hg : ∀ (s : List ℕ) (e : SignError), Res.mapM (fun i => do
      let si ← Res.get s i
      let li ← Res.ofOption (mapShareToNewParams si s)
      let pk ← Res.get r.local_key.pk_vec si
      Res.ok (li • pk)) (List.range s.length) ≠ .err e := fun s e =>
    mapM_ne_err fun i _ hi => by
      simp only [Res.bind_eq_err, Res.get_ne_err, Res.ofOption_ne_err, false_or, reduceCtorEq, and_false,
        exists_false] at hi
  simp only [Res.bind_eq_err, hg, mapM_ne_err (fun _ _ => toU16_ne_err), false_or, Res.assert_ne_err,
    reduceCtorEq, and_false, exists_false, or_false] at h
  obtain ⟨_, -, h⟩ := h
  obtain ⟨j, -, hj⟩ := Res.mapM_eq_err h
  unfold Round2.shares at hj
  simp only [Res.bind_eq_err, Res.get_ne_err, false_or, Res.mapErr_eq_err, Res.assert_ne_err, reduceCtorEq,
    and_false, exists_false, or_false] at hj
  obtain ⟨_, -, ⟨e', he, rfl⟩ | ⟨_, -, e', he, rfl⟩⟩ := hj <;>
    rw [MessageB.alpha_err he] <;> rfl

theorem round3_err {r : Round3} {inp : List TMsg} (h : r.proceed inp = .err e) :
    e = .Round3 ⟨"proof error", []⟩ := by
  unfold Round3.proceed phase3_reconstruct_delta at h
  simp only [Res.bind_eq_err, Res.assert_ne_err, Res.ofOption_ne_err, false_or] at h
  obtain ⟨_, -, _, -, h⟩ := h
  split_ifs at h
  exact (Res.err.inj h).symm

theorem round4_err {r : Round4} {inp : List SignDecommitPhase1} (hi : r.i = k + 1)
    (h : r.proceed inp rnd = .err e) :
    ∃ bps : List DLogProof, bps.length = r.s_l.length - 1 ∧
      (∀ j < r.s_l.length - 1, ∃ m, r.mb_gamma_s[j]? = some m ∧ bps[j]? = some m.b_proof) ∧
      ∃ j < r.s_l.length - 1, e = .Round5 ⟨"bad gamma_i decommit", [otherInd k j]⟩ ∧
        phase4_test bps (intoVecIncludingMe inp r.i r.phase1_decom) r.bc_vec k j = .ok false := by
  unfold Round4.proceed at h
  have h1 : ∀ e : SignError, Res.mapM (fun i => do let m ← Res.get r.mb_gamma_s i; .ok m.b_proof)
      (List.range (r.s_l.length - 1)) ≠ .err e := fun e => mapM_ne_err fun i _ hi => by
    simp only [Res.bind_eq_err, Res.get_ne_err, false_or, reduceCtorEq, and_false, exists_false] at hi
  simp only [Res.bind_eq_err, h1, false_or, Res.mapErr_eq_err, reduceCtorEq, and_false, exists_false,
    or_false] at h
  obtain ⟨bps, hb, ⟨e', he, rfl⟩ | ⟨R, -, hR⟩⟩ := h
  · have hlen : bps.length = r.s_l.length - 1 := by
      rw [← (Res.mapM_eq_ok.1 hb).length_eq, List.length_range]
    have hget : ∀ j < r.s_l.length - 1, ∃ m, r.mb_gamma_s[j]? = some m ∧ bps[j]? = some m.b_proof := by
      intro j hj
      have hF := Res.mapM_eq_ok.1 hb
      have hj' : j < (List.range (r.s_l.length - 1)).length := by simpa using hj
      have hx := hF.get hj' (by omega)
      simp only [List.get_eq_getElem, List.getElem_range, Res.bind_eq_ok, Res.get_eq_ok, Res.ok.injEq] at hx
      obtain ⟨m, hm, hx⟩ := hx
      exact ⟨m, hm, by rw [hx]; exact List.getElem?_eq_getElem (by omega)⟩
    unfold phase4 at he
    rw [Res.bind_eq_err] at he
    rcases he with he | ⟨⟨ok, bad⟩, ha, he⟩
    · refine absurd he (allPush_ne_err fun i _ e hi => ?_)
      unfold phase4_test at hi
      simp only [Res.bind_eq_err, Res.get_ne_err, false_or] at hi
      obtain ⟨_, -, _, -, hi⟩ := hi
      split_ifs at hi
      simp only [Res.bind_eq_err, Res.get_ne_err, false_or, reduceCtorEq, and_false, exists_false] at hi
    · cases ok with
      | true => simp only [if_true] at he; split at he <;> cases he
      | false =>
        obtain ⟨l, j, rr, e1, rfl, htest, -⟩ := allPush_eq_false.1 ha
        have hj : j < r.s_l.length - 1 := by
          rw [← hlen, ← List.mem_range, e1]; simp
        simp only [Bool.false_eq_true, if_false] at he
        split at he
        · cases he
        · obtain rfl := Res.err.inj he
          rw [hi, Nat.add_sub_cancel] at htest ⊢
          exact ⟨bps, hlen, hget, j, hj, rfl, htest⟩
  · obtain ⟨j, -, hj⟩ := Res.mapM_eq_err hR
    unfold phase5_proof_pdl at hj
    simp only [Res.bind_eq_err, Res.get_ne_err, Res.ofOption_ne_err, false_or, and_false, exists_false] at hj

theorem round5_err {r : Round5} {inp : List (Pt × List PDLwSlackProof)}
    (h : r.proceed inp rnd = .err e) :
    Names r.s_l.length e ∧ ∀ bad, e ≠ .Round5 ⟨"bad gamma_i decommit", bad⟩ := by
  unfold Round5.proceed at h
  simp only [Res.bind_eq_err, Res.mapErr_eq_err, reduceCtorEq, and_false, exists_false, or_false] at h
  rcases h with h | ⟨_, -, e', he, rfl⟩
  · obtain ⟨j, hj, h⟩ := Res.mapM_eq_err h
    rw [List.mem_range] at hj
    unfold Round5.checkPdl at h
    simp only [Res.bind_eq_err, Res.get_ne_err, false_or, Res.mapErr_eq_err] at h
    obtain ⟨_, -, _, -, _, -, _, -, e', he, rfl⟩ := h
    unfold phase5_verify_pdl at he
    split_ifs at he
    · obtain rfl := Res.err.inj he
      exact ⟨Or.inr ⟨by simp [namedSigners], by simp [namedSigners]; omega⟩, by simp⟩
    · rw [Res.bind_eq_err] at he
      rcases he with he | ⟨⟨ok, bad⟩, ha, he⟩
      · refine absurd he (allPush_ne_err fun i _ e hi => ?_)
        unfold phase5_pdl_test at hi
        simp only [Res.bind_eq_err, Res.get_ne_err, Res.ofOption_ne_err, false_or, and_false,
          exists_false] at hi
      · cases ok with
        | true => simp at he
        | false =>
          obtain ⟨l, j', rr, e1, rfl, -, -⟩ := allPush_eq_false.1 ha
          simp only [Bool.false_eq_true, if_false] at he
          obtain rfl := Res.err.inj he
          exact ⟨Or.inr ⟨by simp [namedSigners], by simp [namedSigners]; omega⟩, by simp⟩
  · unfold phase5_check_R_dash_sum at he
    simp only at he
    split_ifs at he
    obtain rfl := Res.err.inj he
    exact ⟨Or.inl (by simp [anonymousErrors, anon, errorString]), by simp [anon, errorString]⟩

theorem phase6_bad_ne_err {ε : Type} {S : List Pt} {pf : List HomoElGamalProof} {R T : List Pt} {e : ε}
    {l : List ℕ} : phase6_bad S pf R T l ≠ .err e := by
  induction l with
  | nil => simp [phase6_bad]
  | cons i l ih =>
    intro h
    simp only [phase6_bad, Res.bind_eq_err, Res.get_ne_err, ih, false_or, reduceCtorEq, and_false,
      exists_false] at h

theorem phase6_bad_subset {ε : Type} {S : List Pt} {pf : List HomoElGamalProof} {R T : List Pt}
    {l bad : List ℕ} (h : (phase6_bad S pf R T l : Res ε _) = .ok bad) : bad ⊆ l := by
  induction l generalizing bad with
  | nil =>
    simp only [phase6_bad, Res.ok.injEq] at h
    simp [← h]
  | cons i l ih =>
    simp only [phase6_bad, Res.bind_eq_ok, Res.ok.injEq] at h
    obtain ⟨_, -, _, -, _, -, _, -, rest, hr, rfl⟩ := h
    split_ifs
    · exact List.Subset.trans (ih hr) (List.subset_cons_self ..)
    · exact List.cons_subset_cons _ (ih hr)

theorem round6_err {r : Round6} {inp : List (Pt × HomoElGamalProof)} (hi : r.i = k + 1)
    (hk : k < r.s_l.length) {b : ℕ → Pt × HomoElGamalProof}
    (hb : inp = (others r.s_l.length k).map b) (h : r.proceed inp = .err e) :
    Names r.s_l.length e ∧ ∀ bad, e ≠ .Round5 ⟨"bad gamma_i decommit", bad⟩ := by
  unfold Round6.proceed at h
  simp only [Res.bind_eq_err, Res.mapErr_eq_err, reduceCtorEq, and_false, exists_false, or_false] at h
  rcases h with ⟨e', he, rfl⟩ | ⟨_, -, e', he, rfl⟩
  · refine ⟨Or.inr ?_, by simp⟩
    unfold phase6_verify_proof at he
    rw [Res.bind_eq_err] at he
    rcases he with he | ⟨bad, hbad, he⟩
    · exact absurd he phase6_bad_ne_err
    · split_ifs at he with hne
      obtain rfl := Res.err.inj he
      refine ⟨by simpa [namedSigners] using hne, fun p hp => ?_⟩
      simp only [namedSigners, List.mem_map] at hp
      obtain ⟨j, hj, rfl⟩ := hp
      have := List.mem_range.1 (phase6_bad_subset hbad hj)
      rw [List.length_map] at this
      have hlen : (intoVecIncludingMe inp r.i (r.S_i, r.homo_elgamal_proof)).length = r.s_l.length := by
        rw [hb, hi, intoVec_others hk, List.length_map, List.length_range]
      omega
  · refine ⟨Or.inl ?_, by simp⟩
    unfold phase6_check_S_i_sum at he
    simp only at he
    split_ifs at he
    obtain rfl := Res.err.inj he
    simp [anonymousErrors]

/-- All ways the offline stage can fail. -/
theorem offlineLine_err {b : SignerMsgs} (hk : k < s_l.length)
    (h : (offlineLine rnd (k + 1) s_l key b).2 = .err e) :
    Names s_l.length e ∧ ∀ bad, e = .Round5 ⟨"bad gamma_i decommit", bad⟩ →
      ∃ j < s_l.length, j ≠ k ∧ bad = [j] ∧
        ¬ ((b.b2 (j + 1)).1.b_proof.pk = (b.b4 (j + 1)).g_gamma_i ∧
          hashCom (ser (b.b4 (j + 1)).g_gamma_i) (b.b4 (j + 1)).blind_factor = (b.b1 (j + 1)).2.com) := by
  have hps : ∀ {β : Type} (f : ℕ → β), (peers (k + 1) s_l.length).map f =
      (others s_l.length k).map (fun j => f (j + 1)) := fun f => by
    rw [peers_eq_others, List.map_map]; rfl
  unfold offlineLine at h
  simp only [hps] at h
  have anonym : ∀ e : SignError, e ∈ anonymousErrors → (∀ bad, e ≠ .Round5 ⟨"bad gamma_i decommit", bad⟩) →
      Names s_l.length e ∧ ∀ bad, e = .Round5 ⟨"bad gamma_i decommit", bad⟩ →
      ∃ j < s_l.length, j ≠ k ∧ bad = [j] ∧
        ¬ ((b.b2 (j + 1)).1.b_proof.pk = (b.b4 (j + 1)).g_gamma_i ∧
          hashCom (ser (b.b4 (j + 1)).g_gamma_i) (b.b4 (j + 1)).blind_factor = (b.b1 (j + 1)).2.com) :=
    fun e he hne => ⟨Or.inl he, fun bad hb => absurd hb (hne bad)⟩
  rcases Script.step_err h with h | ⟨r6, e6, h6⟩
  · rcases Script.step_err h with h | ⟨r5, e5, h5⟩
    · rcases Script.step_err h with h | ⟨r4, e4, h4⟩
      · rcases Script.step_err h with h | ⟨r3, e3, h3⟩
        · rcases Script.step_err h with h | ⟨r2, e2, h2⟩
          · rcases Script.step_err h with h | ⟨r1, e1, h1⟩
            · rcases Script.step_err h with h | ⟨r0, e0, h0⟩
              · cases h
              · obtain rfl := Res.ok.inj (Prod.mk.inj e0).2
                exact absurd (sending_err.1 h0) round0_err
            · rw [round1_err (sending_err.1 h1)]
              exact anonym _ (by simp [anonymousErrors]) (by simp)
          · rw [round2_err (sending_err.1 h2)]
            exact anonym _ (by simp [anonymousErrors]) (by simp)
        · rw [round3_err (sending_err.1 h3)]
          exact anonym _ (by simp [anonymousErrors]) (by simp)
      · obtain ⟨r3, o4, e3, g4, -⟩ := Script.step_ok e4
        obtain ⟨r2, o3, e2, g3, -⟩ := Script.step_ok e3
        obtain ⟨r1, o2, e1, g2, -⟩ := Script.step_ok e2
        obtain ⟨r0, o1, e0, g1, -⟩ := Script.step_ok e1
        obtain rfl := Res.ok.inj (Prod.mk.inj e0).2
        obtain ⟨_, g1, -⟩ := sending_ok g1
        obtain ⟨_, g2, -⟩ := sending_ok g2
        obtain ⟨_, g3, -⟩ := sending_ok g3
        obtain ⟨_, g4, -⟩ := sending_ok g4
        obtain ⟨i1, s1, k1, -⟩ := round0_ok g1
        obtain ⟨i2, s2, k2, -, -, bc2, -⟩ := round1_ok hk i1 s1 k1 g2
        obtain ⟨i3, s3, -, -, -, bc3, -, mb3, -⟩ := round2_ok hk i2 s2 k2 g3
        obtain ⟨i4, s4, -, -, -, bc4, -, mb4, -⟩ := round3_ok hk i3 s3 g4
        obtain ⟨bps, hl, hb, j, hj, rfl, ht⟩ := round4_err i4 (sending_err.1 h4)
        rw [s4] at hl hb hj
        have hj' := otherInd_lt (k := k) hj
        refine ⟨Or.inr ⟨by simp [namedSigners], by simp [namedSigners]; omega⟩, fun bad hbad => ?_⟩
        simp only [SignError.Round5.injEq, ErrorType.mk.injEq, true_and] at hbad
        refine ⟨otherInd k j, hj', otherInd_ne, hbad.symm, fun hc => ?_⟩
        obtain ⟨m, hm, hbm⟩ := hb j hj
        rw [mb4, mb3] at hm
        have hm' := get_others (ε := SignError) hk hj (fun j => (b.b2 (j + 1)).1)
        rw [Res.get_eq_ok] at hm'
        obtain rfl := Option.some.inj (hm.symm.trans hm')
        unfold phase4_test at ht
        dsimp only at ht
        rw [i4, intoVec_others hk, Keygen.get_map_range hj', bc4, bc3, bc2, Keygen.get_map_range hj'] at ht
        simp only [(Res.get_eq_ok (ε := ErrorType)).2 hbm, Res.bind_ok, if_neg (otherInd_ne (k := k)), hc.1,
          if_true, hc.2, decide_true, Res.ok.injEq, reduceCtorEq] at ht
    · obtain ⟨r4, o5, e4, g5, -⟩ := Script.step_ok e5
      obtain ⟨r3, o4, e3, g4, -⟩ := Script.step_ok e4
      obtain ⟨r2, o3, e2, g3, -⟩ := Script.step_ok e3
      obtain ⟨r1, o2, e1, g2, -⟩ := Script.step_ok e2
      obtain ⟨r0, o1, e0, g1, -⟩ := Script.step_ok e1
      obtain rfl := Res.ok.inj (Prod.mk.inj e0).2
      obtain ⟨_, g1, -⟩ := sending_ok g1
      obtain ⟨_, g2, -⟩ := sending_ok g2
      obtain ⟨_, g3, -⟩ := sending_ok g3
      obtain ⟨_, g4, -⟩ := sending_ok g4
      obtain ⟨_, g5, -⟩ := sending_ok g5
      obtain ⟨i1, s1, k1, -⟩ := round0_ok g1
      obtain ⟨i2, s2, k2, -, -, bc2, -⟩ := round1_ok hk i1 s1 k1 g2
      obtain ⟨i3, s3, -, -, -, bc3, -, mb3, -⟩ := round2_ok hk i2 s2 k2 g3
      obtain ⟨i4, s4, -, -, -, bc4, -, mb4, -⟩ := round3_ok hk i3 s3 g4
      obtain ⟨i5, s5, -⟩ := round4_ok hk (b2 := fun j => (b.b2 (j + 1)).1) i4 s4 (bc4.trans (bc3.trans bc2))
        (mb4.trans mb3) g5
      obtain ⟨a1, a2⟩ := round5_err (sending_err.1 h5)
      rw [s5] at a1
      exact ⟨a1, fun bad hb => absurd hb (a2 bad)⟩
  · obtain ⟨r5, o6, e5, g6, -⟩ := Script.step_ok e6
    obtain ⟨r4, o5, e4, g5, -⟩ := Script.step_ok e5
    obtain ⟨r3, o4, e3, g4, -⟩ := Script.step_ok e4
    obtain ⟨r2, o3, e2, g3, -⟩ := Script.step_ok e3
    obtain ⟨r1, o2, e1, g2, -⟩ := Script.step_ok e2
    obtain ⟨r0, o1, e0, g1, -⟩ := Script.step_ok e1
    obtain rfl := Res.ok.inj (Prod.mk.inj e0).2
    obtain ⟨_, g1, -⟩ := sending_ok g1
    obtain ⟨_, g2, -⟩ := sending_ok g2
    obtain ⟨_, g3, -⟩ := sending_ok g3
    obtain ⟨_, g4, -⟩ := sending_ok g4
    obtain ⟨_, g5, -⟩ := sending_ok g5
    obtain ⟨_, g6, -⟩ := sending_ok g6
    obtain ⟨i1, s1, k1, -⟩ := round0_ok g1
    obtain ⟨i2, s2, k2, -, -, bc2, ma2, -⟩ := round1_ok hk i1 s1 k1 g2
    obtain ⟨i3, s3, -, -, -, bc3, ma3, mb3, -⟩ := round2_ok hk i2 s2 k2 g3
    obtain ⟨i4, s4, -, -, -, bc4, ma4, mb4, -⟩ := round3_ok hk i3 s3 g4
    obtain ⟨i5, s5, -, -, ma5, -⟩ := round4_ok hk (b2 := fun j => (b.b2 (j + 1)).1) i4 s4
      (bc4.trans (bc3.trans bc2)) (mb4.trans mb3) g5
    obtain ⟨i6, s6, -⟩ := round5_ok hk i5 s5 (ma5.trans (ma4.trans (ma3.trans ma2))) g6
    simp only [Res.bind_eq_err, reduceCtorEq, and_false, exists_false, or_false] at h6
    obtain ⟨a1, a2⟩ := round6_err (b := fun j => b.b6 (j + 1)) i6 (by rw [s6]; exact hk)
      (by rw [s6]) h6
    rw [s6] at a1
    exact ⟨a1, fun bad hb => absurd hb (a2 bad)⟩

/-- The first message. -/
theorem offlineLine_head {b : SignerMsgs} {r : Round1} {m : MessageA × SignBroadcastPhase1}
    (h : Round0.proceed ⟨k + 1, s_l, key⟩ rnd = .ok (r, [⟨k + 1, none, m⟩])) :
    (offlineLine rnd (k + 1) s_l key b).1.head? = some ⟨k + 1, none, .M1 m⟩ := by
  have h1 : Script.step (([], .ok ⟨k + 1, s_l, key⟩) : List (Msg Sign.M) × Res SignError Sign.Round0)
      (fun r => sending .M1 (r.proceed rnd)) = ([⟨k + 1, none, .M1 m⟩], .ok r) := by
    simp only [Script.step, h, sending, Res.bind_ok]
    rfl
  unfold offlineLine
  simp only [h1]
  have hp : ∀ {x y : List (Msg Sign.M)}, x <+: y → x.head? = some ⟨k + 1, none, .M1 m⟩ →
      y.head? = some ⟨k + 1, none, .M1 m⟩ := by
    rintro x y ⟨t, rfl⟩ hx
    cases x with
    | nil => cases hx
    | cons a l => exact hx
  refine hp (Script.step_prefix _ _) (hp (Script.step_prefix _ _) (hp (Script.step_prefix _ _)
    (hp (Script.step_prefix _ _) (hp (Script.step_prefix _ _) (hp (Script.step_prefix _ _) rfl)))))

end GG20.Sign
end Verif
