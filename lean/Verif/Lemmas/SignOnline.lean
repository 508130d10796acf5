import Verif.Lemmas.SignRounds

/-! The online stage, and the keys of an honest key generation. -/

namespace Verif.GG20.Sign

open EC Crypto Spec

/-- What the two public checks say. -/
theorem checkR_ok [Crypto] {l : List Pt} : phase5_check_R_dash_sum l = .ok () ↔ l.sum = G := by
  unfold phase5_check_R_dash_sum
  simp only
  rw [foldl_add_head, List.sum_cons, add_sub_cancel_left]
  split <;> simp_all

theorem checkS_ok [Crypto] {Y : Pt} {l : List Pt} : phase6_check_S_i_sum Y l = .ok () ↔ l.sum = Y := by
  unfold phase6_check_S_i_sum
  simp only
  rw [foldl_add_head, List.sum_cons, add_sub_cancel_left]
  split <;> simp_all

section
variable [EC]

/-- A value `s` with `s R = m G + r Y`, `r` the x-coordinate of `R`, is a valid signature. -/
theorem ecdsaEq_of_eq {Y R : Pt} {m : ℤ} {s : Sc} {x y : ℕ} (hR : coords R = some (x, y))
    (hs : s ≠ 0) (h : s • R = (m : Sc) • G + (x : Sc) • Y) : EcdsaEq Y m (x : Sc) s := by
  refine ⟨hs, x, y, ?_, rfl⟩
  rw [← hR]
  congr 1
  rw [← smul_pt_inj hs, h, smul_add, ← mul_smul, ← mul_smul, mul_div_cancel₀ _ hs, mul_div_cancel₀ _ hs]

theorem new_eq {c : CompletedOfflineStage} {message : ℤ} {x y : ℕ} (hR : coords c.R = some (x, y)) :
    SignManual.new message c =
      .ok (⟨(x : Sc), c.R, (message : Sc) * c.k_i + (x : Sc) * c.sigma_i, message, c.y_sum_s⟩,
        (message : Sc) * c.k_i + (x : Sc) * c.sigma_i) := by
  have hx : xc c.R = some x := by simp [xc, hR]
  unfold SignManual.new phase7_local_sig
  simp only [hx, Res.ofOption_some, Res.bind_ok, scOfCoord_eq]

/-- Completing with partial signatures that add up to `s`. -/
theorem complete_eq {st : LocalSignature} {peers : List Sc} {x y : ℕ} (hR : coords st.R = some (x, y))
    (h : EcdsaEq st.y st.m (x : Sc) (st.s_i + peers.sum)) :
    SignManual.complete st peers =
      .ok ⟨(x : Sc), normS (st.s_i + peers.sum), recidOf (st.s_i + peers.sum) y⟩ :=
  (gg20_output_ok_iff st peers hR _).2 ⟨h, rfl⟩

/-- When the partial signatures add up to zero, completion panics. -/
theorem complete_zero {st : LocalSignature} {peers : List Sc} (hR : st.R ≠ 0)
    (h : st.s_i + peers.sum = 0) : SignManual.complete st peers = .panic := by
  obtain ⟨x, y, hc⟩ := exists_coords hR
  unfold SignManual.complete
  rw [gg20_output_eq st peers hc, h]
  have hn : normS (0 : Sc) = 0 := by
    rcases normS_cases (0 : Sc) with e | e <;> simp [e]
  rw [hn, gg20_verify_eq]
  simp [Res.isOk]

end

section
variable [Crypto]

/-- The online stage over completed offline stages with a common nonce point. -/
theorem online_eq {m : ℕ} {message : ℤ} {R Y : Pt} {k sigma : ℕ → Sc} {x y : ℕ}
    (hR : coords R = some (x, y))
    (he : EcdsaEq Y message (x : Sc)
      (∑ i ∈ Finset.range m, ((message : Sc) * k i + (x : Sc) * sigma i))) :
    online message ((List.range m).map (fun i => ⟨k i, R, sigma i, Y⟩)) =
      .ok ((List.range m).map (fun _ =>
        ⟨(x : Sc), normS (∑ i ∈ Finset.range m, ((message : Sc) * k i + (x : Sc) * sigma i)),
          recidOf (∑ i ∈ Finset.range m, ((message : Sc) * k i + (x : Sc) * sigma i)) y⟩)) := by
  unfold online
  have h1 : Res.mapM (SignManual.new message) ((List.range m).map
      (fun i => (⟨k i, R, sigma i, Y⟩ : CompletedOfflineStage))) =
      .ok ((List.range m).map (fun i =>
        ((⟨(x : Sc), R, (message : Sc) * k i + (x : Sc) * sigma i, message, Y⟩ : LocalSignature),
          (message : Sc) * k i + (x : Sc) * sigma i))) := by
    rw [Res.mapM_ok_of_forall (g := fun c =>
      ((⟨(x : Sc), c.R, (message : Sc) * c.k_i + (x : Sc) * c.sigma_i, message, c.y_sum_s⟩ :
        LocalSignature), (message : Sc) * c.k_i + (x : Sc) * c.sigma_i))]
    · rw [List.map_map]; rfl
    · intro c hc
      obtain ⟨i, -, rfl⟩ := List.mem_map.1 hc
      exact new_eq hR
  rw [h1, Res.bind_ok, List.length_map, List.length_range]
  refine Res.mapM_ok_of_forall fun i hi => ?_
  have hi : i < m := by simpa using hi
  rw [Keygen.get_map_range hi, Res.bind_ok, List.map_map]
  have hp : (((List.range m).map (Prod.snd ∘ fun i =>
      ((⟨(x : Sc), R, (message : Sc) * k i + (x : Sc) * sigma i, message, Y⟩ : LocalSignature),
          (message : Sc) * k i + (x : Sc) * sigma i))).eraseIdx i) =
      (others m i).map (fun i => (message : Sc) * k i + (x : Sc) * sigma i) := by
    unfold others
    rw [filter_range_ne hi, ← List.eraseIdx_map]
    rfl
  rw [hp]
  have hsum := sum_others hi (fun i => (message : Sc) * k i + (x : Sc) * sigma i)
  simp only
  rw [complete_eq (x := x) (y := y)]
  · simp only [others, hsum]
  · exact hR
  · simp only [others, hsum]; exact he

/-- The range-proof responses of an honest signer, in terms of its samples. -/
theorem in_range_of_bound {N : ℕ} {k : Sc} {ra : ℤ} {sts : List DLogStatement} {alice : ℕ → AliceRand}
    (hN : 0 < N)
    (hst : ∀ st ∈ sts, 0 < st.N ∧ Int.gcd st.g st.N = 1 ∧ Int.gcd st.ni st.N = 1)
    (hal : ∀ i, 0 ≤ (alice i).alpha)
    (hb : ∀ l i, (hashInts l : ℤ) * k.val + (alice i).alpha ≤ (q : ℤ) ^ 3) :
    ∀ m_a, MessageA.a k N ra sts alice = some m_a → ∀ pf ∈ m_a.range_proofs, pf.s1 ≤ (q : ℤ) ^ 3 := by
  have key : ∀ (sts : List DLogStatement) (j : ℕ),
      (∀ st ∈ sts, 0 < st.N ∧ Int.gcd st.g st.N = 1 ∧ Int.gcd st.ni st.N = 1) →
      ∀ pfs, aliceProofs k.val (Paillier.encrypt N k.val ra) N ra alice j sts = some pfs →
        ∀ pf ∈ pfs, pf.s1 ≤ (q : ℤ) ^ 3 := by
    intro sts
    induction sts with
    | nil => intro j _ pfs h; cases h; simp
    | cons st sts ih =>
      intro j hst pfs h
      have hu := hst st (by simp)
      unfold aliceProofs at h
      obtain ⟨M, hM, hstN, u1, u2, h1, h2⟩ := (DLogStatement.Usable.mk hu.1 hu.2.1 hu.2.2).units
      obtain ⟨z, u, w, pf, hgen, -, -, -, -, -, -, -, -, pe, ps1, -⟩ :=
        alice_generate (a := (k.val : ℤ)) (cipher := Paillier.encrypt N k.val ra) (r := ra)
          (rnd := alice j) hM hstN hN h1 h2 (hal j)
      rw [hgen] at h
      simp only [Option.bind_eq_bind, Option.bind_some, Option.bind_eq_some_iff,
        Option.some.injEq] at h
      obtain ⟨rest, hrest, rfl⟩ := h
      intro p hp
      rcases List.mem_cons.1 hp with rfl | hp
      · rw [ps1, pe]; exact hb _ _
      · exact ih (j + 1) (fun st h => hst st (by simp [h])) rest hrest p hp
  intro m_a h pf hpf
  unfold MessageA.a at h
  simp only [Option.bind_eq_bind, Option.bind_eq_some_iff, Option.some.injEq] at h
  obtain ⟨pfs, hp, rfl⟩ := h
  exact key sts 0 hst pfs hp pf hpf

/-- The keys of an honest key generation. -/
theorem keyOf_rKey {t n : ℕ} {rnd : ℕ → KeygenRandomness} {i : ℕ} (h1 : 1 ≤ i) (h2 : i ≤ n) :
    KeyOf n (Keygen.rSecret n rnd • G) (fun i => Keygen.rX n rnd (i - 1)) (fun i => (rnd (i - 1)).dk)
      ((List.range n).map (fun j => (Keygen.rBc rnd j).dlog_statement)) i
      (Keygen.rKey t n rnd (i - 1)) where
  i_pos := h1
  i_le := h2
  index := by simp only [Keygen.rKey]; omega
  public_key := by
    simp only [Keygen.rKey, Keygen.rSecret, List.sum_smul, List.map_map]; rfl
  share := rfl
  pks := by simp [Keygen.rKey]
  dk_own := rfl
  eks := by simp [Keygen.rKey]
  sts_eq := rfl

theorem auxOk_rBc {t n : ℕ} {rnd : ℕ → KeygenRandomness}
    (hon : ∀ k < n, Keygen.HonestRandomness t (rnd k)) :
    AuxOk n ((List.range n).map (fun j => (Keygen.rBc rnd j).dlog_statement)) where
  count := by simp
  usable := by
    intro st hst
    obtain ⟨k, hk, rfl⟩ := List.mem_map.1 hst
    have h := hon k (by simpa using hk)
    obtain ⟨p, q, h1, xhi, hp, hq, hne, hsz, hg, hx0, hx1, hgen⟩ := h.aux_gen
    obtain ⟨e1, e2, e3, a, b, e4, e5, -, e6, e7⟩ := generate_spec hp hq hne hg hx0 hx1 hgen
    refine ⟨?_, ?_, ?_⟩
    · show 0 < (rnd k).aux.1
      rw [e1]; have := hp.pos; have := hq.pos; positivity
    · show Int.gcd (rnd k).aux.2.1 (rnd k).aux.1 = 1
      rw [e1, e2]; exact hg
    · show Int.gcd (rnd k).aux.2.2.1 (rnd k).aux.1 = 1
      exact e3

end
end Verif.GG20.Sign
