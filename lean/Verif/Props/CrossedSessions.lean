import Verif.Spec.CrossedSessions
import Verif.Props.MixedShares

/-!
# C138: messages of different two-party sessions do not combine

Party one completes, with its ephemeral key pair of one session, the partial signature that party two computed in
another one.
-/

namespace Verif.Props

open EC Crypto Spec Lindell17

section
variable [Crypto]

/-- What acceptance of the output means, for both protocols: `t = k2'⁻¹ (m + x' d)` is the decrypted value. -/
theorem crossed_accepted {k1 k2 k2' d : Sc} {m : ℤ} {x y x' : ℕ} {t : Sc} (hk1 : k1 ≠ 0) (hk2' : k2' ≠ 0)
    (hc : coords ((k1 * k2) • (G : Pt)) = some (x, y)) (hx : x < q) (ht : t = k2'⁻¹ * ((m : Sc) + (x' : Sc) * d))
    (hv : Lindell17.verify ⟨(normS (t * k1⁻¹)).val, (x : ℤ) % q⟩ (d • G) m = .ok ()) :
    k2' * ((m : Sc) + (x : Sc) * d) = k2 * ((m : Sc) + (x' : Sc) * d) ∨
      k2' * ((m : Sc) + (x : Sc) * d) = -(k2 * ((m : Sc) + (x' : Sc) * d)) := by
  obtain ⟨hs, -, x₀, y₀, hc₀, hx₀⟩ := (C05_l17_verify_ok_iff _ _ _).1 hv
  have hrx : (((x : ℤ) % q : ℤ) : Sc) = (x : Sc) := by rw [castMod, Int.cast_natCast]
  have hsc : ((((normS (t * k1⁻¹)).val : ℕ) : ℤ) : Sc) = normS (t * k1⁻¹) := val_cast _
  simp only [hrx, hsc] at hs hc₀
  have hxx : x₀ = x := by
    rw [← hx₀]
    have : (x : ℤ) % q = x := Int.emod_eq_of_lt (by omega) (by omega)
    simp only [this, Int.natAbs_natCast]
  rw [← mul_smul, ← add_smul] at hc₀
  have hxc : xc ((k1 * k2) • (G : Pt)) =
      xc (((m : Sc) / normS (t * k1⁻¹) + (x : Sc) / normS (t * k1⁻¹) * d) • (G : Pt)) := by
    simp [xc, hc, hc₀, hxx]
  have key : (m : Sc) + (x : Sc) * d = k2 * t ∨ (m : Sc) + (x : Sc) * d = -(k2 * t) := by
    have hst : normS (t * k1⁻¹) = t * k1⁻¹ ∨ normS (t * k1⁻¹) = -(t * k1⁻¹) := normS_cases _
    have he : ((m : Sc) / normS (t * k1⁻¹) + (x : Sc) / normS (t * k1⁻¹) * d) * normS (t * k1⁻¹) =
        (m : Sc) + (x : Sc) * d := by
      rw [add_mul, div_mul_cancel₀ _ hs, mul_right_comm, div_mul_cancel₀ _ hs]
    have hk : k1 * k2 * (t * k1⁻¹) = k2 * t := by field_simp
    rcases eq_or_eq_neg_of_xc hxc with h1 | h1
    · rw [smul_G_inj] at h1
      rw [h1] at he
      rcases hst with h | h <;> rw [h] at he
      · exact .inl (he.symm.trans hk)
      · exact .inr (he.symm.trans (by rw [mul_neg, hk]))
    · rw [← neg_smul, smul_G_inj] at h1
      rw [h1] at he
      rcases hst with h | h <;> rw [h] at he
      · exact .inr (he.symm.trans (by rw [neg_mul, hk]))
      · exact .inl (he.symm.trans (by rw [neg_mul_neg, hk]))
  have ht' : k2' * t = (m : Sc) + (x' : Sc) * d := by rw [ht, mul_inv_cancel_left₀ hk2']
  rcases key with h | h
  · left; rw [h, ← ht']; ring
  · right; rw [h, ← ht']; ring

/-- The counting: each of the two equations fixes the x-coordinate of party one's nonce point. -/
theorem crossed_few {k2 a b c d : Sc} {m : ℤ} (hk2 : k2 ≠ 0) (hd : d ≠ 0) (ha : a ≠ 0)
    {event : {z : Sc // z ≠ 0} → Prop}
    (h : ∀ u, event u → ∃ x y, coords ((u.1 * k2) • (G : Pt)) = some (x, y) ∧ x < q ∧
      (a * ((m : Sc) + (x : Sc) * d) = b ∨ a * ((m : Sc) + (x : Sc) * d) = c)) :
    chance event ≤ 4 / ((q : ℚ) - 1) := by
  have one : ∀ e : Sc, ∀ u v : {z : Sc // z ≠ 0},
      (∃ x y, coords ((u.1 * k2) • (G : Pt)) = some (x, y) ∧ x < q ∧ a * ((m : Sc) + (x : Sc) * d) = e) →
      (∃ x y, coords ((v.1 * k2) • (G : Pt)) = some (x, y) ∧ x < q ∧ a * ((m : Sc) + (x : Sc) * d) = e) →
      v.1 = u.1 ∨ v.1 = -u.1 := by
    rintro e u v ⟨x, y, hc, hx, h⟩ ⟨x', y', hc', hx', h'⟩
    refine nonce_of_x hk2 hc hc' hx hx' (mul_right_cancel₀ hd ?_)
    exact add_left_cancel (mul_left_cancel₀ ha (h.trans h'.symm))
  refine chance_four_scalars ?_ (one b) (one c)
  intro u hu
  obtain ⟨x, y, hc, hx, h | h⟩ := h u hu
  · exact .inl ⟨x, y, hc, hx, h⟩
  · exact .inr ⟨x, y, hc, hx, h⟩

/-! ### Lindell17 -/

variable {s : LindellSession} {k1 n1 k2 : Sc}

/-- What party one decrypts. -/
theorem lindell_decrypted (hs : s.Fair) (m : ℤ) {x' y' : ℕ}
    (hc' : coords ((s.k1 * s.k2) • (G : Pt)) = some (x', y')) :
    ∃ (c3 : ℤ) (D : ℤ), PartialSig.compute s.dk.n (PaillierKeyPair.generate s.dk ⟨s.x1 • G, s.x1⟩ s.rk).encrypted_share
        (.set_private_key ⟨s.x2 • G, s.x2⟩) (eph_create_commitments s.k2 s.n2 s.b1 s.b2).2.2
        (eph_create s.k1 s.n1).1.public_share m s.rho s.r = .ok c3 ∧
      Paillier.decrypt s.dk c3 = some D ∧ (D : Sc) = s.k2⁻¹ * ((m : Sc) + (x' : Sc) * (s.x1 * s.x2)) := by
  have hx2 : xc ((eph_create_commitments s.k2 s.n2 s.b1 s.b2).2.2.secret_share •
      (eph_create s.k1 s.n1).1.public_share) = some x' := by
    rw [(C53_nonces s.k1 s.k2 s.n1 s.n2 s.b1 s.b2).2.2.2]; simp [xc, hc']
  obtain ⟨c3, hc3, henc⟩ := partial_spec (s2 := .set_private_key ⟨s.x2 • G, s.x2⟩) (m := m) (rho := s.rho)
    (r := s.r) hx2 hs.k2 (Paillier.isEnc_encrypt s.dk.n s.x1.val s.rk)
  have hd := Paillier.decrypt_spec hs.valid henc (gcd_pow_mul _ hs.rk hs.r)
  obtain ⟨hl0, hl1⟩ := honest_lt (k2 := s.k2) (x1 := s.x1) (x2 := s.x2) (m := m) (x := x') hs.rho.1 hs.rho.2 hs.large
  refine ⟨c3, _, hc3, hd.trans (congrArg some (Int.emod_eq_of_lt hl0 hl1)), ?_⟩
  have := honest_s (k1 := 1) (k2 := s.k2) (x1 := s.x1) (x2 := s.x2) (m := m) (rho := s.rho) (x := x')
  rwa [inv_one, mul_one, one_mul] at this

/-- **C138.**  `x` and `x'` are the x-coordinates of the nonce points of party one's and of party two's session, `x`
below the group order.  Party one outputs a signature without an error; verification accepts it only if one of two
equations holds. -/
theorem C138_lindell_crossed (hs : s.Fair) (hk1 : k1 ≠ 0) {m : ℤ} {x y x' y' : ℕ}
    (hc : coords ((k1 * k2) • (G : Pt)) = some (x, y)) (hx : x < q)
    (hc' : coords ((s.k1 * s.k2) • (G : Pt)) = some (x', y')) :
    ∃ sig, s.OutputsIn k1 n1 k2 m sig ∧ (Lindell17.verify sig s.key m = .ok () →
      s.k2 * ((m : Sc) + (x : Sc) * (s.x1 * s.x2)) = k2 * ((m : Sc) + (x' : Sc) * (s.x1 * s.x2)) ∨
      s.k2 * ((m : Sc) + (x : Sc) * (s.x1 * s.x2)) = -(k2 * ((m : Sc) + (x' : Sc) * (s.x1 * s.x2)))) := by
  obtain ⟨c3, D, hc3, hD, ht⟩ := lindell_decrypted hs m hc'
  have hx1 : xc ((eph_create k1 n1).2.secret_share • (k2 • (G : Pt))) = some x := by
    rw [← mul_smul]; show xc ((k1 * k2) • (G : Pt)) = _; simp [xc, hc]
  have hsig := compute_spec
    (s1 := .set_private_key ⟨s.x1 • G, s.x1⟩ (.generate s.dk ⟨s.x1 • G, s.x1⟩ s.rk)) (c3 := c3) hx1 hk1 hD
  refine ⟨_, ⟨c3, hc3, hsig⟩, fun hv => ?_⟩
  rw [lindell_key] at hv
  exact crossed_accepted hk1 hs.k2 hc hx ht hv

theorem lindell_outputsIn_unique {m : ℤ} {sig sig' : Lindell17.Signature} (h : s.OutputsIn k1 n1 k2 m sig)
    (h' : s.OutputsIn k1 n1 k2 m sig') : sig' = sig := by
  obtain ⟨c, h1, h2⟩ := h
  obtain ⟨c', h1', h2'⟩ := h'
  obtain rfl : c' = c := by rw [h1] at h1'; cases h1'; rfl
  rw [h2] at h2'
  cases h2'
  rfl

/-- **C138** (chance).  Over party one's nonce `k1` the chance that verification accepts what party one outputs is at
most `4 / (q - 1)`, whatever the session is that the partial signature comes from, and whatever party two's nonce is
in party one's session. -/
theorem C138_lindell_chance (hs : s.Fair) (hk2 : k2 ≠ 0) {m : ℤ} (h1 : s.x1 ≠ 0) (h2 : s.x2 ≠ 0) :
    chance (fun k1 : {z : Sc // z ≠ 0} => ∃ x y sig, coords ((k1.1 * k2) • (G : Pt)) = some (x, y) ∧ x < q ∧
      s.OutputsIn k1.1 n1 k2 m sig ∧ Lindell17.verify sig s.key m = .ok ()) ≤ 4 / ((q : ℚ) - 1) := by
  obtain ⟨x', y', hc'⟩ := exists_coords (P := (s.k1 * s.k2) • (G : Pt)) (by
    rw [ne_eq, smul_G_eq_zero]; exact mul_ne_zero hs.k1 hs.k2)
  refine crossed_few (m := m) (b := k2 * ((m : Sc) + (x' : Sc) * (s.x1 * s.x2)))
    (c := -(k2 * ((m : Sc) + (x' : Sc) * (s.x1 * s.x2)))) hk2 (mul_ne_zero h1 h2) hs.k2 ?_
  rintro u ⟨x, y, sig, hc, hx, ho, hv⟩
  obtain ⟨sig', ho', h⟩ := C138_lindell_crossed (n1 := n1) hs u.2 (m := m) hc hx hc'
  obtain rfl := lindell_outputsIn_unique ho' ho
  exact ⟨x, y, hc, hx, h hv⟩

/-- **C138** (one session). With the nonces of one session the output is the one of that session. -/
theorem C138_lindell_same {m : ℤ} {sig : Lindell17.Signature} :
    s.OutputsIn s.k1 s.n1 s.k2 m sig ↔ s.Outputs m sig := Iff.rfl

end

/-! ### CCLST19 -/

section
variable [Crypto] [CL] {s : CclSession} {k1 n1 k2 : Sc}

/-- What party one computes from the partial signature. -/
theorem ccl_outputsIn (hk1 : k1 ≠ 0) (h2 : s.k2 ≠ 0) (m : ℤ) {x y x' y' : ℕ}
    (hc : coords ((k1 * k2) • (G : Pt)) = some (x, y))
    (hc' : coords ((s.k1 * s.k2) • (G : Pt)) = some (x', y')) :
    s.OutputsIn k1 n1 k2 m ⟨(normS (s.k2⁻¹ * ((m : Sc) + (x' : Sc) * (s.x1 * s.x2)) * k1⁻¹)).val, (x : ℤ) % q⟩ := by
  unfold CclSession.OutputsIn
  intro h o1 o2
  have hx2 : xc (o2.2.2.secret_share • o1.1.public_share) = some x' := by
    rw [(C53_nonces s.k1 s.k2 s.n1 s.n2 s.b1 s.b2).2.2.2]; simp [xc, hc']
  have hx1 : xc ((CCLST19.eph_create k1 n1).2.secret_share • (k2 • (G : Pt))) = some x := by
    rw [← mul_smul]; show xc ((k1 * k2) • (G : Pt)) = _; simp [xc, hc]
  obtain ⟨i2, hi2, hi2c, -⟩ := modInv_sc (k := o2.2.2.secret_share) h2
  obtain ⟨i1, hi1, hi1c, -⟩ := modInv_sc (k := (CCLST19.eph_create k1 n1).2.secret_share) hk1
  set v : ℤ := i2 * (s.x2.val : ℤ) % q * ((x' : ℤ) % q) % q with hv
  set c3 : CL.Ct := CL.eval_sum (CL.encrypt h.cl_group h.public_ ((i2 * m % q : ℤ) : Sc) s.r)
    (CL.eval_scal h.encrypted_share v) with hc3
  have henc := CL.isEnc_sum h.cl_group h.public_ _ _ _ _
    (CL.isEnc_encrypt h.cl_group h.public_ ((i2 * m % q : ℤ) : Sc) s.r)
    (CL.isEnc_scal h.cl_group h.public_ _ _ v (CL.isEnc_verifiably h.cl_group h.public_ s.x1 s.re))
  have hdec : CL.decrypt h.cl_group h.secret c3 = ((i2 * m % q : ℤ) : Sc) + (v : Sc) * s.x1 :=
    CL.decrypt_isEnc h.cl_group s.rk c3 _ henc
  have hi2c' : (i2 : Sc) = s.k2⁻¹ := hi2c
  have hi1c' : (i1 : Sc) = k1⁻¹ := hi1c
  have hst : (i1 * ((CL.decrypt h.cl_group h.secret c3).val : ℤ)) % (q : ℤ) =
      ((s.k2⁻¹ * ((m : Sc) + (x' : Sc) * (s.x1 * s.x2)) * k1⁻¹).val : ℤ) := by
    rw [emod_eq_val, hdec, Int.cast_mul, val_cast, hi1c', hv]
    congr 2
    have e2 : ((s.x2.val : ℕ) : Sc) = s.x2 := ZMod.natCast_zmod_val s.x2
    simp only [castMod, Int.cast_mul, Int.cast_natCast]
    rw [hi2c', e2]
    ring
  refine ⟨c3, ?_, ?_⟩
  · unfold CCLST19.PartialSig.compute
    dsimp only
    rw [hx2, hi2]
    rfl
  · unfold CCLST19.Signature.compute
    dsimp only
    rw [hx1, hi1]
    show Res.ok _ = _
    erw [hst, min_eq_normS]

theorem ccl_outputsIn_unique {m : ℤ} {sig sig' : Lindell17.Signature} (h : s.OutputsIn k1 n1 k2 m sig)
    (h' : s.OutputsIn k1 n1 k2 m sig') : sig' = sig := by
  obtain ⟨c, h1, h2⟩ := h
  obtain ⟨c', h1', h2'⟩ := h'
  obtain rfl : c' = c := by rw [h1] at h1'; cases h1'; rfl
  rw [h2] at h2'
  cases h2'
  rfl

/-- **C138**, CCLST19. -/
theorem C138_cclst_crossed (hk1 : k1 ≠ 0) (h2 : s.k2 ≠ 0) {m : ℤ} {x y x' y' : ℕ}
    (hc : coords ((k1 * k2) • (G : Pt)) = some (x, y)) (hx : x < q)
    (hc' : coords ((s.k1 * s.k2) • (G : Pt)) = some (x', y')) :
    ∃ sig, s.OutputsIn k1 n1 k2 m sig ∧ (CCLST19.verify sig s.key m = .ok () →
      s.k2 * ((m : Sc) + (x : Sc) * (s.x1 * s.x2)) = k2 * ((m : Sc) + (x' : Sc) * (s.x1 * s.x2)) ∨
      s.k2 * ((m : Sc) + (x : Sc) * (s.x1 * s.x2)) = -(k2 * ((m : Sc) + (x' : Sc) * (s.x1 * s.x2)))) := by
  refine ⟨_, ccl_outputsIn hk1 h2 m hc hc', fun hv => ?_⟩
  rw [ccl_key] at hv
  exact crossed_accepted hk1 h2 hc hx rfl (cc_verify_l17 hv)

/-- **C138** (chance), CCLST19. -/
theorem C138_cclst_chance (hs1 : s.k1 ≠ 0) (hs2 : s.k2 ≠ 0) (hk2 : k2 ≠ 0) {m : ℤ} (h1 : s.x1 ≠ 0) (h2 : s.x2 ≠ 0) :
    chance (fun k1 : {z : Sc // z ≠ 0} => ∃ x y sig, coords ((k1.1 * k2) • (G : Pt)) = some (x, y) ∧ x < q ∧
      s.OutputsIn k1.1 n1 k2 m sig ∧ CCLST19.verify sig s.key m = .ok ()) ≤ 4 / ((q : ℚ) - 1) := by
  obtain ⟨x', y', hc'⟩ := exists_coords (P := (s.k1 * s.k2) • (G : Pt)) (by
    rw [ne_eq, smul_G_eq_zero]; exact mul_ne_zero hs1 hs2)
  refine crossed_few (m := m) (b := k2 * ((m : Sc) + (x' : Sc) * (s.x1 * s.x2)))
    (c := -(k2 * ((m : Sc) + (x' : Sc) * (s.x1 * s.x2)))) hk2 (mul_ne_zero h1 h2) hs2 ?_
  rintro u ⟨x, y, sig, hc, hx, ho, hv⟩
  obtain ⟨sig', ho', h⟩ := C138_cclst_crossed (n1 := n1) u.2 hs2 (m := m) hc hx hc'
  obtain rfl := ccl_outputsIn_unique ho' ho
  exact ⟨x, y, hc, hx, h hv⟩

/-- **C138** (one session), CCLST19. -/
theorem C138_cclst_same {m : ℤ} {sig : Lindell17.Signature} :
    s.OutputsIn s.k1 s.n1 s.k2 m sig ↔ s.Outputs m sig := Iff.rfl

end

/-! ### Examples -/

section Examples
attribute [local instance] Toy.crypto
attribute [local instance] CL.trivial

example := C138_lindell_chance toyLindell_fair (n1 := (2 : ZMod 31)) (k2 := (7 : ZMod 31)) (m := 10) (by decide)
  (by decide) (by decide)

example := C138_cclst_chance (s := toyCcl) (n1 := (2 : ZMod 31)) (k2 := (7 : ZMod 31)) (m := 10) (by decide)
  (by decide) (by decide) (by decide) (by decide)

/-- Party one's nonce is 1 instead of 5: it outputs something that verification does not accept. -/
example : ∃ sig, toyLindell.OutputsIn (1 : ZMod 31) (2 : ZMod 31) (5 : ZMod 31) 10 sig ∧
    Lindell17.verify sig toyLindell.key 10 ≠ .ok () := by
  obtain ⟨sig, h, h'⟩ := C138_lindell_crossed toyLindell_fair (k1 := (1 : ZMod 31)) (n1 := (2 : ZMod 31))
    (k2 := (5 : ZMod 31)) (m := 10) (x := 12) (y := 12) (by decide) (by decide +kernel) (by decide) toyLindell_coords
  exact ⟨sig, h, fun hv => (h' hv).elim (by decide) (by decide)⟩

end Examples

end Verif.Props
