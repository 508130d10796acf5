import Verif.Lemmas.Signature
import Verif.Base.Toy

/-!
# Properties C01-C08: signature verification and output
-/

namespace Verif.Props

open EC Spec

/-! ## C01 -/

section
variable [EC]

/-- **C01.** GG20 `verify` accepts exactly the ECDSA equation, panics exactly on `s = 0` or when
the computed point is the identity, and reports `InvalidSig` in all other cases. -/
theorem C01_gg20_verify (sig : GG20.SignatureRecid) (Y : Pt) (m : ℤ) :
    (GG20.verify sig Y m = .ok () ↔ EcdsaEq Y m sig.r sig.s) ∧
    (GG20.verify sig Y m = .panic ↔
      sig.s = 0 ∨ ((m : Sc) / sig.s) • G + (sig.r / sig.s) • Y = 0) ∧
    (∀ e, GG20.verify sig Y m = .err e ↔
      e = .InvalidSig ∧ sig.s ≠ 0 ∧ ((m : Sc) / sig.s) • G + (sig.r / sig.s) • Y ≠ 0 ∧
        ¬ EcdsaEq Y m sig.r sig.s) := by
  refine ⟨gg20_verify_ok_iff sig Y m, ?_, ?_⟩
  · rw [gg20_verify_eq]
    change _ ↔ _ ∨ vpoint Y m sig.r sig.s = 0
    by_cases h : sig.s = 0
    · simp [h]
    · cases hx : xc (vpoint Y m sig.r sig.s) with
      | none => simp [h, xc_eq_none.1 hx]
      | some x =>
        have h0 : vpoint Y m sig.r sig.s ≠ 0 := by
          intro h0; rw [h0, xc_zero] at hx; exact absurd hx (by simp)
        by_cases h2 : sig.r = (x : Sc)
        · simp only [h, h0, if_false, if_pos h2]; simp
        · simp [h, h0, h2]
  · intro e
    rw [← gg20_verify_ok_iff sig Y m, gg20_verify_eq]
    change _ ↔ _ ∧ _ ∧ vpoint Y m sig.r sig.s ≠ 0 ∧ _
    by_cases h : sig.s = 0
    · simp [h]
    · cases hx : xc (vpoint Y m sig.r sig.s) with
      | none => simp [h, xc_eq_none.1 hx]
      | some x =>
        have h0 : vpoint Y m sig.r sig.s ≠ 0 := by
          intro h0; rw [h0, xc_zero] at hx; exact absurd hx (by simp)
        by_cases h2 : sig.r = (x : Sc) <;> simp [h, h0, h2, eq_comm]

end

/- Non-vacuity: on the 31-point curve an accepted, a rejected and two panicking inputs. -/
section
attribute [local instance] Toy.inst
example : GG20.verify ⟨21, 11, 0⟩ (9 : ZMod 31) 10 = .ok () := by decide +kernel
example : GG20.verify ⟨21, 12, 0⟩ (9 : ZMod 31) 10 = .err .InvalidSig := by decide +kernel
example : GG20.verify ⟨21, 0, 0⟩ (9 : ZMod 31) 10 = .panic := by decide +kernel
example : GG20.verify ⟨21, 11, 0⟩ (9 : ZMod 31) (-21 * 9) = .panic := by decide +kernel
end

/-! ## C02 -/

section
variable [EC]

/-- **C02.** GG18 `verify` accepts exactly the ECDSA equation, and otherwise returns `InvalidSig`;
in particular it never panics. -/
theorem C02_gg18_verify (sig : GG18.SignatureRecid) (Y : Pt) (m : ℤ) :
    (EcdsaEq Y m sig.r sig.s → GG18.verify sig Y m = .ok ()) ∧
    (¬ EcdsaEq Y m sig.r sig.s → GG18.verify sig Y m = .err .InvalidSig) := by
  refine ⟨(gg18_verify_ok_iff sig Y m).2, ?_⟩
  intro hn
  rw [← gg18_verify_ok_iff, gg18_verify_eq] at hn
  rw [gg18_verify_eq]
  by_cases h : sig.s = 0
  · simp [h]
  · cases hx : xc (vpoint Y m sig.r sig.s) with
    | none => simp [h]
    | some x =>
      by_cases h2 : sig.r = (x : Sc)
      · rw [hx] at hn; simp only [h, if_false, if_pos h2] at hn; exact absurd trivial hn
      · simp [h, h2]

end

section
attribute [local instance] Toy.inst
example : GG18.verify ⟨21, 11, 0⟩ (9 : ZMod 31) 10 = .ok () := by decide +kernel
example : GG18.verify ⟨21, 0, 0⟩ (9 : ZMod 31) 10 = .err .InvalidSig := by decide +kernel
example : GG18.verify ⟨21, 11, 0⟩ (9 : ZMod 31) (-21 * 9) = .err .InvalidSig := by decide +kernel
end

/-! ## C03 -/

section
variable [EC]

/-- **C03 (GG20).** Whatever the peers send, a signature returned by `SignManual::complete`
satisfies the ECDSA equation under the local public key and message, carries the nonce point's
x-coordinate as `r`, and is low-s. -/
theorem C03_gg20_output_valid (st : GG20.LocalSignature) (peers : List Sc)
    (sig : GG20.SignatureRecid) (h : GG20.SignManual.complete st peers = .ok sig) :
    EcdsaEq st.y st.m sig.r sig.s ∧ LowS sig.s ∧ sig.s ≠ 0 ∧
      (∃ x y, coords st.R = some (x, y) ∧ sig.r = (x : Sc)) := by
  unfold GG20.SignManual.complete at h
  by_cases hR : st.R = 0
  · rw [gg20_output_none st peers hR] at h; cases h
  · obtain ⟨x, y, hc⟩ := exists_coords hR
    obtain ⟨he, rfl⟩ := (gg20_output_ok_iff st peers hc sig).1 h
    have h1 := ecdsaEq_normS.2 he
    exact ⟨h1, normS_low _, h1.1, x, y, hc, rfl⟩

/-- **C03 (GG18).** The same for GG18 `output_signature`. -/
theorem C03_gg18_output_valid (st : GG18.LocalSignature) (peers : List Sc)
    (sig : GG18.SignatureRecid) (h : st.output_signature peers = .ok sig) :
    EcdsaEq st.y st.m sig.r sig.s ∧ LowS sig.s ∧ sig.s ≠ 0 ∧
      (∃ x y, coords st.R = some (x, y) ∧ sig.r = (x : Sc)) := by
  by_cases hR : st.R = 0
  · rw [gg18_output_none st peers hR] at h; cases h
  · obtain ⟨x, y, hc⟩ := exists_coords hR
    obtain ⟨he, rfl⟩ := (gg18_output_ok_iff st peers hc sig).1 h
    have h1 := ecdsaEq_normS.2 he
    exact ⟨h1, normS_low _, h1.1, x, y, hc, rfl⟩

/-- **C03 (converse, both).** Conversely a signature is returned whenever the sum of the partial
signatures satisfies the ECDSA equation for `r` the x-coordinate of the nonce point; so the two
`output_signature` functions lose no valid signature. -/
theorem C03_output_complete (R Y : Pt) (m : ℤ) (s_i : Sc) (peers : List Sc) (x y : ℕ)
    (hR : coords R = some (x, y)) (h : EcdsaEq Y m (x : Sc) (s_i + peers.sum)) :
    (∃ sig, GG20.SignManual.complete ⟨(x : Sc), R, s_i, m, Y⟩ peers = .ok sig ∧
      (sig.s = s_i + peers.sum ∨ sig.s = -(s_i + peers.sum))) ∧
    (∀ l rho, ∃ sig, GG18.LocalSignature.output_signature ⟨l, rho, R, s_i, m, Y⟩ peers = .ok sig ∧
      (sig.s = s_i + peers.sum ∨ sig.s = -(s_i + peers.sum))) := by
  refine ⟨?_, fun l rho => ?_⟩
  · exact ⟨_, (gg20_output_ok_iff ⟨(x : Sc), R, s_i, m, Y⟩ peers hR _).2 ⟨h, rfl⟩, normS_cases _⟩
  · exact ⟨_, (gg18_output_ok_iff ⟨l, rho, R, s_i, m, Y⟩ peers hR _).2 ⟨h, rfl⟩, normS_cases _⟩

end

section
attribute [local instance] Toy.inst
/- Three signers' shares 1 + 4 + 6 = 11; and a high-s case 20 → 11. -/
example : GG20.SignManual.complete ⟨21, (4 : ZMod 31), 1, 10, (9 : ZMod 31)⟩ [4, 6]
    = .ok ⟨21, 11, 0⟩ := by decide +kernel
example : GG20.SignManual.complete ⟨21, (4 : ZMod 31), 10, 10, (9 : ZMod 31)⟩ [4, 6]
    = .ok ⟨21, 11, 1⟩ := by decide +kernel
example : GG18.LocalSignature.output_signature ⟨0, 0, (4 : ZMod 31), 1, 10, (9 : ZMod 31)⟩ [4, 6]
    = .ok ⟨21, 11, 0⟩ := by decide +kernel
end

/-! ## C04 -/

section
variable [EC]

theorem recidOf_lt (s : Sc) (y : ℕ) : recidOf s y < 2 := by
  unfold recidOf; split <;> split <;> decide

/-- **C04 (exact characterisation, GG20).**  Take an honest final state: the partial signatures
add up to a value `s` with `s R = m G + r Y`, `r` the (non-zero) x-coordinate of `R` mod `q`.
On a curve whose field size is below twice the group order (as secp256k1), recovery from the
returned signature gives the joint key **iff** both coordinates of the nonce point are below the
group order. -/
theorem C04_gg20_recid_iff (hp : p < 2 * q) (st : GG20.LocalSignature) (peers : List Sc)
    (sig : GG20.SignatureRecid) (x y : ℕ) (hR : coords st.R = some (x, y)) (hr : (x : Sc) ≠ 0)
    (hs : (st.s_i + peers.sum) • st.R = (st.m : Sc) • G + (x : Sc) • st.y)
    (h : GG20.SignManual.complete st peers = .ok sig) :
    Recovers sig.r sig.s sig.recid st.m st.y ↔ x < q ∧ y < q := by
  obtain ⟨he, rfl⟩ := (gg20_output_ok_iff st peers hR sig).1 h
  set s := st.s_i + peers.sum with hsdef
  have hs0 : s ≠ 0 := he.1
  have hRne : st.R ≠ 0 := by intro h0; rw [h0, coords_zero] at hR; cases hR
  obtain ⟨hxp, hyp⟩ := coords_lt _ _ _ hR
  have hq := q_odd
  have hpo := p_odd (self := ‹EC›)
  -- the point whose `normS s` multiple is `m G + r Y`
  have key : ∃ R' y', coords R' = some (x, y') ∧ normS s • R' = (st.m : Sc) • G + (x : Sc) • st.y ∧
      (y' % 2 = recidOf s y ↔ y < q) := by
    have hmod : ∀ z, z < 2 * q → ((z % q) % 2 = z % 2 ↔ z < q) := by
      intro z hz
      by_cases hzq : z < q
      · rw [Nat.mod_eq_of_lt hzq]; simp [hzq]
      · have e : z % q = z - q := by
          rw [Nat.mod_eq_sub_mod (by omega), Nat.mod_eq_of_lt (by omega)]
        rw [e]
        constructor <;> intro h <;> omega
    by_cases hn : (s.val : ℤ) > (q : ℤ) - s.val
    · refine ⟨-st.R, p - y, coords_neg _ _ _ hR, ?_, ?_⟩
      · have : normS s = -s := by unfold normS; rw [if_pos hn]; simp
        rw [this, neg_smul_neg, hs]
      · rw [← hmod y (by omega)]
        unfold recidOf; rw [if_pos hn]
        rcases Nat.mod_two_eq_zero_or_one (y % q) with h1 | h1
        · simp only [h1]; norm_num; omega
        · simp only [h1]; norm_num; omega
    · refine ⟨st.R, y, hR, ?_, ?_⟩
      · have : normS s = s := by unfold normS; rw [if_neg hn]
        rw [this, hs]
      · rw [← hmod y (by omega)]
        unfold recidOf; rw [if_neg hn]
        rcases Nat.mod_two_eq_zero_or_one (y % q) with h1 | h1
        · simp only [h1]; norm_num; omega
        · simp only [h1]; norm_num; omega
  obtain ⟨R', y', hc', hsR', hpar⟩ := key
  have hns : normS s ≠ 0 := by
    rcases normS_cases s with h | h <;> rw [h] <;> simpa using hs0
  have hlt := recidOf_lt s y
  have hval : (x : Sc).val = x % q := ZMod.val_natCast _ _
  have hdiv : recidOf s y / 2 = 0 := by omega
  unfold Recovers
  constructor
  · rintro ⟨R'', x'', y'', hc'', hx'', hy'', hY⟩
    -- the recovered point must be R'
    have h1 : normS s • R'' = normS s • R' := by
      have := congrArg (fun P => (x : Sc) • P) hY
      simp only [← mul_smul, mul_inv_cancel₀ hr, one_smul] at this
      rw [hsR', this]; abel
    have h2 : R'' = R' := (smul_pt_inj hns).1 h1
    rw [h2, hc'] at hc''
    simp only [Option.some.injEq, Prod.mk.injEq] at hc''
    obtain ⟨rfl, rfl⟩ := hc''
    simp only [hval, hdiv, mul_zero, add_zero] at hx''
    dsimp only at hy''
    refine ⟨?_, hpar.1 (by omega)⟩
    have := Nat.mod_lt x q_pos
    omega
  · rintro ⟨hx, hy⟩
    refine ⟨R', x, y', hc', ?_, ?_, ?_⟩
    · simp only [hval, hdiv, mul_zero, add_zero, Nat.mod_eq_of_lt hx]
    · have := hpar.2 hy; simp only; omega
    · simp only
      rw [hsR', add_sub_cancel_left, ← mul_smul, inv_mul_cancel₀ hr, one_smul]

/-- **C04 (partial).** The part of C04 that holds: with honest partial signatures and nonce
coordinates below the group order, the recovery id recovers the joint public key and no other.
Missing: nonce points with a coordinate in `[q, p)` (see `C04_gg20_recid_iff`), and dishonest
co-signers (see `C04_recid_flipped_by_cosigner`). -/
theorem C04_gg20_recid_partial (hp : p < 2 * q) (st : GG20.LocalSignature) (peers : List Sc)
    (sig : GG20.SignatureRecid) (x y : ℕ) (hR : coords st.R = some (x, y)) (hr : (x : Sc) ≠ 0)
    (hx : x < q) (hy : y < q)
    (hs : (st.s_i + peers.sum) • st.R = (st.m : Sc) • G + (x : Sc) • st.y)
    (h : GG20.SignManual.complete st peers = .ok sig) :
    ∀ Y, Recovers sig.r sig.s sig.recid st.m Y ↔ Y = st.y := by
  have h0 := (C04_gg20_recid_iff hp st peers sig x y hR hr hs h).2 ⟨hx, hy⟩
  intro Y
  constructor
  · intro h1; exact recovers_unique h1 h0
  · rintro rfl; exact h0

/-- **C04 is violated by a dishonest co-signer.**  Whenever honest partial signatures would give a
signature, a co-signer who sees the others' partial signatures can send a value that makes the
victim output the *same* valid `(r, s)` with a recovery id that recovers a different key. -/
theorem C04_recid_flipped_by_cosigner (hp : p < 2 * q) (st : GG20.LocalSignature)
    (peers : List Sc) (sig : GG20.SignatureRecid) (x y : ℕ) (hR : coords st.R = some (x, y))
    (hr : (x : Sc) ≠ 0) (hx : x < q) (hy : y < q)
    (hs : (st.s_i + peers.sum) • st.R = (st.m : Sc) • G + (x : Sc) • st.y)
    (h : GG20.SignManual.complete st peers = .ok sig) :
    ∃ evil sig', GG20.SignManual.complete st (peers ++ [evil]) = .ok sig' ∧
      sig'.r = sig.r ∧ sig'.s = sig.s ∧ sig'.recid ≠ sig.recid ∧
      ¬ Recovers sig'.r sig'.s sig'.recid st.m st.y := by
  obtain ⟨he, hsig⟩ := (gg20_output_ok_iff st peers hR sig).1 h
  have hrec := (C04_gg20_recid_iff hp st peers sig x y hR hr hs h).2 ⟨hx, hy⟩
  set s := st.s_i + peers.sum with hsdef
  have hs0 : s ≠ 0 := he.1
  have hsum : st.s_i + (peers ++ [-(2 * s)]).sum = -s := by
    rw [List.sum_append, List.sum_singleton, ← add_assoc, ← hsdef]; ring
  have he' : EcdsaEq st.y st.m (x : Sc) (st.s_i + (peers ++ [-(2 * s)]).sum) := by
    rw [hsum, ecdsaEq_neg]; exact he
  have hval := neg_val_of_ne hs0
  have hlt := ZMod.val_lt s
  have hpos : 0 < s.val := Nat.pos_of_ne_zero (by simpa [ZMod.val_eq_zero] using hs0)
  have hodd := q_odd
  have hnorm : normS (-s) = normS s := by
    unfold normS
    rw [hval]
    by_cases hc : (s.val : ℤ) > (q : ℤ) - s.val
    · rw [if_pos hc, if_neg (by omega)]; simp
    · rw [if_neg hc, if_pos (by omega)]
      have : ((q - s.val : ℕ) : ℤ) = (q : ℤ) - s.val := by omega
      rw [this]; simp
  have hrecid : recidOf (-s) y ≠ recidOf s y := by
    unfold recidOf
    rw [hval]
    by_cases hc : (s.val : ℤ) > (q : ℤ) - s.val
    · rw [if_pos hc, if_neg (by omega)]; split <;> decide
    · rw [if_neg hc, if_pos (by omega)]; split <;> decide
  refine ⟨-(2 * s), _, (gg20_output_ok_iff st _ hR _).2 ⟨he', rfl⟩, ?_, ?_, ?_, ?_⟩
  · rw [hsig]
  · rw [hsig, hsum]; exact hnorm
  · rw [hsig, hsum]; exact hrecid
  · rw [hsum]
    simp only [hnorm]
    rintro ⟨R1, x1, y1, hc1, hx1, hy1, hY1⟩
    rw [hsig] at hrec
    obtain ⟨R2, x2, y2, hc2, hx2, hy2, hY2⟩ := hrec
    have hns : normS s ≠ 0 := by
      rcases normS_cases s with h | h <;> rw [h] <;> simpa using hs0
    have h12 : R1 = R2 := by
      have := hY1.symm.trans hY2
      rw [smul_pt_inj (inv_ne_zero hr)] at this
      have h3 := sub_left_inj.1 this
      exact (smul_pt_inj hns).1 h3
    rw [h12, hc2] at hc1
    simp only [Option.some.injEq, Prod.mk.injEq] at hc1
    obtain ⟨rfl, rfl⟩ := hc1
    have l1 := recidOf_lt s y
    have l2 := recidOf_lt (-s) y
    simp only at hy1 hy2
    omega

/-- What GG18's `output_signature` returns, GG20's returns from the same values. -/
theorem gg18_output_gg20 (st : GG18.LocalSignature) (peers : List Sc) (sig : GG18.SignatureRecid) {x y : ℕ}
    (hR : coords st.R = some (x, y)) :
    st.output_signature peers = .ok sig ↔
      GG20.SignManual.complete ⟨(x : Sc), st.R, st.s_i, st.m, st.y⟩ peers =
        .ok ⟨sig.r, sig.s, sig.recid⟩ := by
  rw [gg18_output_ok_iff st peers hR sig]
  refine Iff.trans ?_ (gg20_output_ok_iff ⟨(x : Sc), st.R, st.s_i, st.m, st.y⟩ peers hR _).symm
  obtain ⟨r, s, c⟩ := sig
  simp only [GG18.SignatureRecid.mk.injEq, GG20.SignatureRecid.mk.injEq]

/-- **C04 (exact characterisation, GG18).** As `C04_gg20_recid_iff`. -/
theorem C04_gg18_recid_iff (hp : p < 2 * q) (st : GG18.LocalSignature) (peers : List Sc)
    (sig : GG18.SignatureRecid) (x y : ℕ) (hR : coords st.R = some (x, y)) (hr : (x : Sc) ≠ 0)
    (hs : (st.s_i + peers.sum) • st.R = (st.m : Sc) • G + (x : Sc) • st.y)
    (h : st.output_signature peers = .ok sig) :
    Recovers sig.r sig.s sig.recid st.m st.y ↔ x < q ∧ y < q :=
  C04_gg20_recid_iff hp ⟨(x : Sc), st.R, st.s_i, st.m, st.y⟩ peers _ x y hR hr hs
    ((gg18_output_gg20 st peers sig hR).1 h)

/-- **C04 is violated by a dishonest co-signer** in GG18 as in GG20. -/
theorem C04_gg18_recid_flipped (hp : p < 2 * q) (st : GG18.LocalSignature)
    (peers : List Sc) (sig : GG18.SignatureRecid) (x y : ℕ) (hR : coords st.R = some (x, y))
    (hr : (x : Sc) ≠ 0) (hx : x < q) (hy : y < q)
    (hs : (st.s_i + peers.sum) • st.R = (st.m : Sc) • G + (x : Sc) • st.y)
    (h : st.output_signature peers = .ok sig) :
    ∃ evil sig', st.output_signature (peers ++ [evil]) = .ok sig' ∧
      sig'.r = sig.r ∧ sig'.s = sig.s ∧ sig'.recid ≠ sig.recid ∧
      ¬ Recovers sig'.r sig'.s sig'.recid st.m st.y := by
  obtain ⟨evil, sig', h1, h2⟩ := C04_recid_flipped_by_cosigner hp ⟨(x : Sc), st.R, st.s_i, st.m, st.y⟩
    peers _ x y hR hr hx hy hs ((gg18_output_gg20 st peers sig hR).1 h)
  exact ⟨evil, ⟨sig'.r, sig'.s, sig'.recid⟩, (gg18_output_gg20 st _ _ hR).2 h1, h2⟩

end

section
attribute [local instance] Toy.inst
/- Hypotheses of the partial theorem are met on the 31-point curve ... -/
example : (11 : ZMod 31) • (4 : ZMod 31) = (10 : ZMod 31) • (1 : ZMod 31) + (21 : ZMod 31) • 9 := by
  decide
example := C04_gg20_recid_partial (by decide) ⟨21, (4 : ZMod 31), 1, 10, (9 : ZMod 31)⟩ [4, 6] ⟨21, 11, 0⟩
  ((coords (4 : ZMod 31)).getD (0, 0)).1 ((coords (4 : ZMod 31)).getD (0, 0)).2 (by decide) (by decide)
  (by decide) (by decide) (by decide) (by decide +kernel)
example := C04_gg18_recid_iff (by decide) ⟨0, 0, (4 : ZMod 31), 1, 10, (9 : ZMod 31)⟩ [4, 6] ⟨21, 11, 0⟩
  ((coords (4 : ZMod 31)).getD (0, 0)).1 ((coords (4 : ZMod 31)).getD (0, 0)).2 (by decide) (by decide)
  (by decide) (by decide +kernel)
example := C04_gg18_recid_flipped (by decide) ⟨0, 0, (4 : ZMod 31), 1, 10, (9 : ZMod 31)⟩ [4, 6] ⟨21, 11, 0⟩
  ((coords (4 : ZMod 31)).getD (0, 0)).1 ((coords (4 : ZMod 31)).getD (0, 0)).2 (by decide) (by decide)
  (by decide) (by decide) (by decide) (by decide +kernel)
/- ... the flipped recovery id of a dishonest co-signer ... -/
example : GG20.SignManual.complete ⟨21, (4 : ZMod 31), 1, 10, (9 : ZMod 31)⟩ [4, 6, -22]
    = .ok ⟨21, 11, 1⟩ := by decide +kernel
example : GG18.LocalSignature.output_signature ⟨0, 0, (4 : ZMod 31), 1, 10, (9 : ZMod 31)⟩ [4, 6, -22]
    = .ok ⟨21, 11, 1⟩ := by decide +kernel
/- ... and an honest run whose nonce point (29, 31) has y-coordinate at least 31: recid 0 although
y is odd. -/
example : GG20.SignManual.complete ⟨29, (6 : ZMod 31), 9, 10, (9 : ZMod 31)⟩ []
    = .ok ⟨29, 9, 0⟩ := by decide +kernel
end

/-! ## C05, C06 -/

section
variable [EC]

/-- Acceptance condition of Lindell17 `verify` in full. -/
theorem C05_l17_verify_ok_iff (sig : Lindell17.Signature) (Y : Pt) (m : ℤ) :
    Lindell17.verify sig Y m = .ok () ↔
      (sig.s : Sc) ≠ 0 ∧ 2 * sig.s < q ∧
      ∃ x y, coords (((m : Sc) / (sig.s : Sc)) • G + ((sig.r : Sc) / (sig.s : Sc)) • Y) = some (x, y) ∧
        sig.r.natAbs = x := by
  rw [l17_verify_eq]
  change _ ↔ _ ∧ _ ∧ ∃ x y, coords (vpoint Y m (sig.r : Sc) (sig.s : Sc)) = some (x, y) ∧ _
  by_cases h : (sig.s : Sc) = 0
  · simp [h]
  · cases hc : coords (vpoint Y m (sig.r : Sc) (sig.s : Sc)) with
    | none => simp [h, xc, hc]
    | some xy =>
      obtain ⟨x, y⟩ := xy
      simp only [h, if_false, xc, hc, Option.map_some]
      constructor
      · intro hh
        split at hh
        · rename_i h2; exact ⟨h, by omega, x, y, rfl, h2.1⟩
        · cases hh
      · rintro ⟨_, hlow, x', y', he, hx⟩
        simp only [Option.some.injEq, Prod.mk.injEq] at he
        obtain ⟨rfl, rfl⟩ := he
        rw [if_pos ⟨hx, by omega⟩]

/-- **C05 (partial, soundness).** Every signature with non-negative `r` that Lindell17 `verify`
accepts satisfies the ECDSA equation, and if `s` is non-negative then it is in the lower half. -/
theorem C05_l17_sound_partial (sig : Lindell17.Signature) (Y : Pt) (m : ℤ) (hr : 0 ≤ sig.r)
    (h : Lindell17.verify sig Y m = .ok ()) :
    EcdsaEq Y m (sig.r : Sc) (sig.s : Sc) ∧ (0 ≤ sig.s → LowS (sig.s : Sc)) := by
  obtain ⟨hs, hlow, x, y, hc, hx⟩ := (C05_l17_verify_ok_iff sig Y m).1 h
  refine ⟨⟨hs, x, y, hc, ?_⟩, ?_⟩
  · rw [← hx]
    have : ((sig.r.natAbs : ℕ) : Sc) = ((sig.r.natAbs : ℤ) : Sc) := (Int.cast_natCast _).symm
    rw [this, Int.natAbs_of_nonneg hr]
  · intro hs0
    unfold LowS
    obtain ⟨n, hn⟩ := Int.eq_ofNat_of_zero_le hs0
    rw [hn] at hlow ⊢
    have hodd := q_odd
    rw [Int.cast_natCast, ZMod.val_natCast, Nat.mod_eq_of_lt (by omega)]
    omega

/-- **C05 (partial, completeness).** A low-s ECDSA signature in canonical form is accepted if the
verification point's x-coordinate is below the group order.  Missing: x-coordinates in `[q, p)`,
for which `C05_l17_rejects_valid` shows the opposite. -/
theorem C05_l17_complete_partial (r s : Sc) (Y : Pt) (m : ℤ) (he : EcdsaEq Y m r s) (hl : LowS s)
    (hx : ∀ x y, coords (((m : Sc) / s) • G + (r / s) • Y) = some (x, y) → x < q) :
    Lindell17.verify ⟨s.val, r.val⟩ Y m = .ok () := by
  obtain ⟨hs, x, y, hc, hxr⟩ := he
  rw [C05_l17_verify_ok_iff]
  have e1 : (((s.val : ℕ) : ℤ) : Sc) = s := by simp
  have e2 : (((r.val : ℕ) : ℤ) : Sc) = r := by simp
  simp only [e1, e2]
  refine ⟨hs, ?_, x, y, hc, ?_⟩
  · unfold LowS at hl
    have hodd := q_odd
    omega
  · have := hx x y hc
    rw [Int.natAbs_natCast, ← hxr, ZMod.val_natCast, Nat.mod_eq_of_lt this]

/-- **C05 is violated (rejection of valid signatures).** Every valid ECDSA signature whose
verification point has x-coordinate at least `q` is rejected, in canonical form, although it
satisfies the ECDSA equation and may be low-s. -/
theorem C05_l17_rejects_valid (r s : Sc) (Y : Pt) (m : ℤ) (x y : ℕ) (hs : s ≠ 0)
    (hc : coords (((m : Sc) / s) • G + (r / s) • Y) = some (x, y)) (hx : q ≤ x)
    (hxr : (x : Sc) = r) :
    EcdsaEq Y m r s ∧ Lindell17.verify ⟨s.val, r.val⟩ Y m = .err .InvalidSig := by
  refine ⟨⟨hs, x, y, hc, hxr⟩, ?_⟩
  rw [l17_verify_eq]
  have e1 : (((s.val : ℕ) : ℤ) : Sc) = s := by simp
  have e2 : (((r.val : ℕ) : ℤ) : Sc) = r := by simp
  have hxc : xc (vpoint Y m r s) = some x := by simp [xc, vpoint, hc]
  simp only [e1, e2, hs, if_false, hxc, Int.natAbs_natCast]
  rw [if_neg]
  have := ZMod.val_lt r
  omega

/-- **C05 is violated (low-s for negative encodings).** If `(r, s)` is accepted then so is
`(r, s - k q)` for every `k ≥ 0`; and the high-s twin of every accepted signature is accepted in
the encoding `(r, -s)`. -/
theorem C05_l17_negative_s (sig : Lindell17.Signature) (Y : Pt) (m : ℤ)
    (h : Lindell17.verify sig Y m = .ok ()) (hs : 0 < sig.s) :
    (∀ k : ℕ, Lindell17.verify ⟨sig.s - k * q, sig.r⟩ Y m = .ok ()) ∧
    Lindell17.verify ⟨-sig.s, sig.r⟩ Y m = .ok () := by
  have h0 := (C05_l17_verify_ok_iff sig Y m).1 h
  obtain ⟨hs0, hlow, x, y, hc, hx⟩ := h0
  have hq := q_pos
  constructor
  · intro k
    rw [C05_l17_verify_ok_iff]
    have e : ((sig.s - k * q : ℤ) : Sc) = (sig.s : Sc) := by push_cast; simp
    simp only [e]
    refine ⟨hs0, ?_, x, y, hc, hx⟩
    have : (0 : ℤ) ≤ k * q := by positivity
    omega
  · rw [C05_l17_verify_ok_iff]
    have e : ((-sig.s : ℤ) : Sc) = -(sig.s : Sc) := by push_cast; rfl
    simp only [e]
    refine ⟨neg_ne_zero.2 hs0, by omega, x, p - y, ?_, hx⟩
    have : ((m : Sc) / -(sig.s : Sc)) • G + ((sig.r : Sc) / -(sig.s : Sc)) • Y =
        -(((m : Sc) / (sig.s : Sc)) • G + ((sig.r : Sc) / (sig.s : Sc)) • Y) :=
      vpoint_neg Y m (sig.r : Sc) (sig.s : Sc)
    rw [this]
    exact coords_neg _ _ _ hc

/-- **C05 is violated (panics).** Lindell17 `verify` panics exactly when `s` is a multiple of the
group order or the computed point is the identity. -/
theorem C05_l17_panics_iff (sig : Lindell17.Signature) (Y : Pt) (m : ℤ) :
    Lindell17.verify sig Y m = .panic ↔
      (sig.s : Sc) = 0 ∨ ((m : Sc) / (sig.s : Sc)) • G + ((sig.r : Sc) / (sig.s : Sc)) • Y = 0 := by
  rw [l17_verify_eq]
  change _ ↔ _ ∨ vpoint Y m (sig.r : Sc) (sig.s : Sc) = 0
  by_cases h : (sig.s : Sc) = 0
  · simp [h]
  · cases hx : xc (vpoint Y m (sig.r : Sc) (sig.s : Sc)) with
    | none => simp [h, xc_eq_none.1 hx]
    | some x =>
      have h0 : vpoint Y m (sig.r : Sc) (sig.s : Sc) ≠ 0 := by
        intro h0; rw [h0, xc_zero] at hx; exact absurd hx (by simp)
      by_cases h2 : sig.r.natAbs = x ∧ sig.s < (q : ℤ) - sig.s <;> simp [h, h0, h2]

/-- **C06.** CCLST19 `verify` agrees with Lindell17 `verify` except that `s` divisible by the
group order is an error instead of a panic; so the C05 theorems carry over. -/
theorem C06_cclst_verify (sig : Lindell17.Signature) (Y : Pt) (m : ℤ) :
    ((sig.s : Sc) ≠ 0 → CCLST19.verify sig Y m = Lindell17.verify sig Y m) ∧
    ((sig.s : Sc) = 0 → CCLST19.verify sig Y m = .err .InvalidSig) := by
  rw [cc_verify_eq, l17_verify_eq]
  constructor <;> intro h <;> simp [h]

/-- **C06 (partial, soundness).** -/
theorem C06_cclst_sound_partial (sig : Lindell17.Signature) (Y : Pt) (m : ℤ) (hr : 0 ≤ sig.r)
    (h : CCLST19.verify sig Y m = .ok ()) :
    EcdsaEq Y m (sig.r : Sc) (sig.s : Sc) ∧ (0 ≤ sig.s → LowS (sig.s : Sc)) := by
  by_cases hs : (sig.s : Sc) = 0
  · rw [(C06_cclst_verify sig Y m).2 hs] at h; cases h
  · rw [(C06_cclst_verify sig Y m).1 hs] at h
    exact C05_l17_sound_partial sig Y m hr h

/-- **C06 (partial, completeness).** -/
theorem C06_cclst_complete_partial (r s : Sc) (Y : Pt) (m : ℤ) (he : EcdsaEq Y m r s) (hl : LowS s)
    (hx : ∀ x y, coords (((m : Sc) / s) • G + (r / s) • Y) = some (x, y) → x < q) :
    CCLST19.verify ⟨s.val, r.val⟩ Y m = .ok () := by
  rw [(C06_cclst_verify _ Y m).1 (by simpa using he.1)]
  exact C05_l17_complete_partial r s Y m he hl hx

/-- **C06 is violated**: rejection of valid signatures, as in C05. -/
theorem C06_cclst_rejects_valid (r s : Sc) (Y : Pt) (m : ℤ) (x y : ℕ) (hs : s ≠ 0)
    (hc : coords (((m : Sc) / s) • G + (r / s) • Y) = some (x, y)) (hx : q ≤ x)
    (hxr : (x : Sc) = r) :
    EcdsaEq Y m r s ∧ CCLST19.verify ⟨s.val, r.val⟩ Y m = .err .InvalidSig := by
  rw [(C06_cclst_verify _ Y m).1 (by simpa using hs)]
  exact C05_l17_rejects_valid r s Y m x y hs hc hx hxr

/-- **C06 is violated**: CCLST19 `verify` panics exactly when `s` is invertible and the computed
point is the identity. -/
theorem C06_cclst_panics_iff (sig : Lindell17.Signature) (Y : Pt) (m : ℤ) :
    CCLST19.verify sig Y m = .panic ↔
      (sig.s : Sc) ≠ 0 ∧
        ((m : Sc) / (sig.s : Sc)) • G + ((sig.r : Sc) / (sig.s : Sc)) • Y = 0 := by
  by_cases hs : (sig.s : Sc) = 0
  · rw [(C06_cclst_verify sig Y m).2 hs]; simp [hs]
  · rw [(C06_cclst_verify sig Y m).1 hs, C05_l17_panics_iff]; simp [hs]

end

section
attribute [local instance] Toy.inst
example : Lindell17.verify ⟨11, 21⟩ (9 : ZMod 31) 10 = .ok () := by decide +kernel
example : CCLST19.verify ⟨11, 21⟩ (9 : ZMod 31) 10 = .ok () := by decide +kernel
example : Lindell17.verify ⟨20, 21⟩ (9 : ZMod 31) 10 = .err .InvalidSig := by decide +kernel
/- valid low-s signature with nonce point (35, 21), 35 ≥ 31, rejected -/
example : EcdsaEq (9 : ZMod 31) 10 (4 : ZMod 31) (5 : ZMod 31) :=
  ⟨by decide +kernel, 35, 21, by decide +kernel, by decide +kernel⟩
example : Lindell17.verify ⟨5, 4⟩ (9 : ZMod 31) 10 = .err .InvalidSig := by decide +kernel
/- while the non-canonical `r = 35` is accepted -/
example : Lindell17.verify ⟨5, 35⟩ (9 : ZMod 31) 10 = .ok () := by decide +kernel
example : Lindell17.verify ⟨-11, 21⟩ (9 : ZMod 31) 10 = .ok () := by decide +kernel
example : Lindell17.verify ⟨31, 21⟩ (9 : ZMod 31) 10 = .panic := by decide +kernel
example : CCLST19.verify ⟨31, 21⟩ (9 : ZMod 31) 10 = .err .InvalidSig := by decide +kernel
example : CCLST19.verify ⟨11, 21⟩ (9 : ZMod 31) (-21 * 9) = .panic := by decide +kernel
end

/-! ## C07 -/

section
variable [EC]

/-- **C07 (1).** All four `verify` functions see the message only modulo the group order. -/
theorem C07_message_mod_q (m m' : ℤ) (h : m ≡ m' [ZMOD q]) (Y : Pt) :
    (∀ sig, GG20.verify sig Y m = GG20.verify sig Y m') ∧
    (∀ sig, GG18.verify sig Y m = GG18.verify sig Y m') ∧
    (∀ sig, Lindell17.verify sig Y m = Lindell17.verify sig Y m') ∧
    (∀ sig, CCLST19.verify sig Y m = CCLST19.verify sig Y m') := by
  have hc : (m : Sc) = (m' : Sc) := (ZMod.intCast_eq_intCast_iff _ _ _).2 h
  have hv : ∀ r s, vpoint Y m r s = vpoint Y m' r s := by intro r s; unfold vpoint; rw [hc]
  refine ⟨?_, ?_, ?_, ?_⟩ <;> intro sig
  · rw [gg20_verify_eq, gg20_verify_eq, hv]
  · rw [gg18_verify_eq, gg18_verify_eq, hv]
  · rw [l17_verify_eq, l17_verify_eq, hv]
  · rw [cc_verify_eq, cc_verify_eq, hv]

/-- **C07 (2).** If one signature is accepted for two messages with the same verification
x-coordinate, the messages are congruent modulo the group order, or their sum is `-2 r d` where
`d` is the private key.  So besides congruent messages a signature fits one further class, which
only the key holder can compute. -/
theorem C07_two_messages (r s d : Sc) (m m' : ℤ)
    (h : EcdsaEq (d • G) m r s)
    (hx : xc (((m : Sc) / s) • G + (r / s) • (d • G)) =
      xc (((m' : Sc) / s) • G + (r / s) • (d • G))) :
    m ≡ m' [ZMOD q] ∨ ((m + m' : ℤ) : Sc) = -(2 * r * d) := by
  have hs := h.1
  have e : ∀ k : ℤ, ((k : Sc) / s) • G + (r / s) • (d • G) = (((k : Sc) + r * d) / s) • G := by
    intro k; rw [← mul_smul, ← add_smul]; congr 1; ring
  rw [e, e] at hx
  rcases eq_or_eq_neg_of_xc hx with h1 | h1
  · left
    rw [smul_G_inj, div_left_inj' hs] at h1
    rw [← ZMod.intCast_eq_intCast_iff]
    exact (add_right_cancel h1).symm
  · right
    rw [← neg_smul, smul_G_inj, ← neg_div, div_left_inj' hs] at h1
    push_cast
    linear_combination h1

end

section
attribute [local instance] Toy.inst
example : GG20.verify ⟨21, 11, 0⟩ (9 : ZMod 31) 41 = .ok () := by decide +kernel
/- second class: m' = -2*21*9 - 10 = -388 ≡ 15 (mod 31) -/
example : GG20.verify ⟨21, 11, 0⟩ (9 : ZMod 31) 15 = .ok () := by decide +kernel
end

/-! ## C08 -/

section
variable [EC]

/-- **C08 (1).** GG18 and GG20 `verify` accept the negated-s twin of every accepted signature. -/
theorem C08_gg_malleable (r s : Sc) (recid recid' : ℕ) (Y : Pt) (m : ℤ) :
    (GG20.verify ⟨r, s, recid⟩ Y m = .ok () ↔ GG20.verify ⟨r, -s, recid'⟩ Y m = .ok ()) ∧
    (GG18.verify ⟨r, s, recid⟩ Y m = .ok () ↔ GG18.verify ⟨r, -s, recid'⟩ Y m = .ok ()) := by
  constructor
  · rw [gg20_verify_ok_iff, gg20_verify_ok_iff]; exact ecdsaEq_neg.symm
  · rw [gg18_verify_ok_iff, gg18_verify_ok_iff]; exact ecdsaEq_neg.symm

/-- **C08 (2).** Lindell17 and CCLST19 `verify` accept at most one of `(r, s)` and `(r, q - s)`
(for any integer encoding of `s`). -/
theorem C08_two_party_not_malleable (r s : ℤ) (Y : Pt) (m : ℤ) :
    ¬ (Lindell17.verify ⟨s, r⟩ Y m = .ok () ∧ Lindell17.verify ⟨q - s, r⟩ Y m = .ok ()) ∧
    ¬ (CCLST19.verify ⟨s, r⟩ Y m = .ok () ∧ CCLST19.verify ⟨q - s, r⟩ Y m = .ok ()) := by
  have hl : ∀ s', Lindell17.verify ⟨s', r⟩ Y m = .ok () → 2 * s' < q := by
    intro s' h
    have := ((C05_l17_verify_ok_iff _ Y m).1 h).2.1
    exact this
  have hcc : ∀ s', CCLST19.verify ⟨s', r⟩ Y m = .ok () → 2 * s' < q := by
    intro s' h
    by_cases hs' : ((s' : ℤ) : Sc) = 0
    · rw [(C06_cclst_verify ⟨s', r⟩ Y m).2 hs'] at h; cases h
    · rw [(C06_cclst_verify ⟨s', r⟩ Y m).1 hs'] at h; exact hl s' h
  have hodd := q_odd
  constructor
  · rintro ⟨h1, h2⟩; have := hl _ h1; have := hl _ h2; omega
  · rintro ⟨h1, h2⟩; have := hcc _ h1; have := hcc _ h2; omega

end

section
attribute [local instance] Toy.inst
example : GG20.verify ⟨21, -11, 0⟩ (9 : ZMod 31) 10 = .ok () := by decide +kernel
example : Lindell17.verify ⟨11, 21⟩ (9 : ZMod 31) 10 = .ok () ∧
    Lindell17.verify ⟨31 - 11, 21⟩ (9 : ZMod 31) 10 = .err .InvalidSig := by decide +kernel
end

end Verif.Props
