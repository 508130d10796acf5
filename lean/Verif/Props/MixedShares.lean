import Verif.Spec.MixedShares
import Verif.Props.WhoseMessage

/-!
# C137: two-party signing with shares that do not belong together

Party two signs with a share, or a ciphertext of party one's share, that does not belong to the public key that party
one has, for instance because only one of the parties has stored the result of a refresh.
-/

namespace Verif.Props

open EC Crypto Spec

section
variable [Crypto]

/-- A signature that Lindell17's verification accepts for two keys. -/
theorem l17_two_keys {sig : Lindell17.Signature} {d d' : Sc} {m : ℤ}
    (h : Lindell17.verify sig (d • G) m = .ok ()) (h' : Lindell17.verify sig (d' • G) m = .ok ()) :
    (sig.r : Sc) * (d - d') = 0 ∨ 2 * (m : Sc) + (sig.r : Sc) * (d + d') = 0 := by
  obtain ⟨hs, -, x, y, hc, hx⟩ := (C05_l17_verify_ok_iff sig _ m).1 h
  obtain ⟨-, -, x', y', hc', hx'⟩ := (C05_l17_verify_ok_iff sig _ m).1 h'
  have e : ∀ k : Sc, ((m : Sc) / (sig.s : Sc)) • (G : Pt) + ((sig.r : Sc) / (sig.s : Sc)) • (k • G) =
      (((m : Sc) + (sig.r : Sc) * k) / (sig.s : Sc)) • G := by
    intro k; rw [← mul_smul, ← add_smul]; congr 1; ring
  have hxc : xc ((((m : Sc) + (sig.r : Sc) * d) / (sig.s : Sc)) • (G : Pt)) =
      xc ((((m : Sc) + (sig.r : Sc) * d') / (sig.s : Sc)) • (G : Pt)) := by
    rw [← e, ← e]; simp [xc, hc, hc', ← hx, ← hx']
  rcases eq_or_eq_neg_of_xc hxc with h1 | h1
  · left
    rw [smul_G_inj, div_left_inj' hs] at h1
    linear_combination -h1
  · right
    rw [← neg_smul, smul_G_inj, ← neg_div, div_left_inj' hs] at h1
    linear_combination h1

/-- A chance over one non-zero scalar of which at most two values and their negatives are bad. -/
theorem chance_four_scalars {A B : {z : Sc // z ≠ 0} → Prop} {event : {z : Sc // z ≠ 0} → Prop}
    (h : ∀ u, event u → A u ∨ B u) (hA : ∀ u v, A u → A v → v.1 = u.1 ∨ v.1 = -u.1)
    (hB : ∀ u v, B u → B v → v.1 = u.1 ∨ v.1 = -u.1) : chance event ≤ 4 / ((q : ℚ) - 1) := by
  have := chance_le_add h
  have := chance_two_scalars hA
  have := chance_two_scalars hB
  have e : (4 : ℚ) / ((q : ℚ) - 1) = 2 / ((q : ℚ) - 1) + 2 / ((q : ℚ) - 1) := by ring
  linarith

/-- Nonces that lead to one x-coordinate are equal up to sign. -/
theorem nonce_of_x {k k' k2 : Sc} {x y x' y' : ℕ} (hk2 : k2 ≠ 0)
    (hc : coords ((k * k2) • (G : Pt)) = some (x, y)) (hc' : coords ((k' * k2) • (G : Pt)) = some (x', y'))
    (hx : x < q) (hx' : x' < q) (hxx : (x : Sc) = (x' : Sc)) : k' = k ∨ k' = -k := by
  have hxe : x = x' := by
    have := congrArg ZMod.val hxx
    rwa [ZMod.val_natCast, ZMod.val_natCast, Nat.mod_eq_of_lt hx, Nat.mod_eq_of_lt hx'] at this
  have hxc : xc ((k * k2) • (G : Pt)) = xc ((k' * k2) • (G : Pt)) := by simp [xc, hc, hc', hxe]
  rcases eq_or_eq_neg_of_xc hxc with h1 | h1
  · left
    rw [smul_G_inj] at h1
    exact mul_right_cancel₀ hk2 h1
  · right
    rw [← neg_smul, smul_G_inj, ← neg_mul] at h1
    exact mul_right_cancel₀ hk2 h1

/-- The counting behind both chances: the x-coordinate is 0 or one other value. -/
theorem chance_two_keys {k2 d d' : Sc} {m : ℤ} (hk2 : k2 ≠ 0) (hd : d ≠ d') (hm : (m : Sc) ≠ 0 ∨ d + d' ≠ 0)
    {event : {z : Sc // z ≠ 0} → Prop}
    (h : ∀ u, event u → ∃ x y, coords ((u.1 * k2) • (G : Pt)) = some (x, y) ∧ x < q ∧
      ((x : Sc) * (d - d') = 0 ∨ 2 * (m : Sc) + (x : Sc) * (d + d') = 0)) :
    chance event ≤ 4 / ((q : ℚ) - 1) := by
  have h2 : (2 : Sc) ≠ 0 := by
    intro h0
    have h1 : ((2 : ℕ) : Sc) = 0 := by exact_mod_cast h0
    have h2 := (ZMod.natCast_eq_zero_iff 2 q).1 h1
    have := Nat.le_of_dvd (by norm_num) h2
    have := q_odd
    have := q_prime.out.one_lt
    omega
  refine chance_four_scalars
    (A := fun u => ∃ x y, coords ((u.1 * k2) • (G : Pt)) = some (x, y) ∧ x < q ∧ (x : Sc) = 0)
    (B := fun u => ∃ x y, coords ((u.1 * k2) • (G : Pt)) = some (x, y) ∧ x < q ∧
      2 * (m : Sc) + (x : Sc) * (d + d') = 0) ?_ ?_ ?_
  · intro u hu
    obtain ⟨x, y, hc, hx, h | h⟩ := h u hu
    · exact .inl ⟨x, y, hc, hx, (mul_eq_zero.1 h).resolve_right (sub_ne_zero.2 hd)⟩
    · exact .inr ⟨x, y, hc, hx, h⟩
  · rintro u v ⟨x, y, hc, hx, h⟩ ⟨x', y', hc', hx', h'⟩
    exact nonce_of_x hk2 hc hc' hx hx' (h.trans h'.symm)
  · rintro u v ⟨x, y, hc, hx, h⟩ ⟨x', y', hc', hx', h'⟩
    have hdd : d + d' ≠ 0 := by
      intro h0
      rw [h0, mul_zero, add_zero] at h
      exact (hm.resolve_right (not_not.2 h0)) ((mul_eq_zero.1 h).resolve_left h2)
    refine nonce_of_x hk2 hc hc' hx hx' (mul_right_cancel₀ hdd ?_)
    linear_combination h - h'

/-! ### Lindell17 -/

variable {s : LindellSession} {own1 own2 : Sc}

/-- Party one's function does not use its share. -/
theorem lindell_outputsWith {m : ℤ} {sig : Lindell17.Signature} : s.OutputsWith own1 m sig ↔ s.Outputs m sig :=
  Iff.rfl

theorem lindell_ownKey : s.ownKey own1 own2 = (own1 * own2) • (G : Pt) := (mul_smul own1 own2 G).symm

/-- **C137.**  Verification under the key of party one accepts what party one outputs only if the product of the shares
that went into the signature is the private key, or the x-coordinate `x` of the nonce point (below the group order)
is 0 or meets one linear equation with the message. -/
theorem C137_lindell_key (hs : s.Fair) {m : ℤ} {sig : Lindell17.Signature} {x y : ℕ}
    (hc : coords ((s.k1 * s.k2) • (G : Pt)) = some (x, y)) (hx : x < q) (h : s.OutputsWith own1 m sig)
    (hv : Lindell17.verify sig (s.ownKey own1 own2) m = .ok ()) :
    (x : Sc) * (s.x1 * s.x2 - own1 * own2) = 0 ∨ 2 * (m : Sc) + (x : Sc) * (s.x1 * s.x2 + own1 * own2) = 0 := by
  obtain ⟨x', y', sig', hc', ho, hr, h0, h1⟩ := lindell_outputs hs m
  obtain rfl := lindell_outputs_unique (lindell_outputsWith.1 h) ho
  rw [hc] at hc'
  cases hc'
  have hne : (m : Sc) + (x : Sc) * (s.x1 * s.x2) ≠ 0 := by
    intro he
    have := ((C05_l17_verify_ok_iff _ _ _).1 hv).1
    rw [h0 he] at this
    exact this (by simp)
  have hm := (h1 hne).2 hx
  rw [lindell_key] at hm
  rw [lindell_ownKey] at hv
  have hrx : ((sig'.r : ℤ) : Sc) = (x : Sc) := by rw [hr, castMod, Int.cast_natCast]
  have := l17_two_keys hm hv
  rwa [hrx] at this

/-- **C137** (chance).  The shares with which party two computes do not make up the private key of party one's public
key.  Then at most four of the `q - 1` nonces of party one let verification under that key accept what party one
outputs; for the zero message it is required that the two private keys are not opposite. -/
theorem C137_lindell_chance (hs : s.Fair) {m : ℤ} (hd : s.x1 * s.x2 ≠ own1 * own2)
    (hm : (m : Sc) ≠ 0 ∨ s.x1 * s.x2 + own1 * own2 ≠ 0) :
    chance (fun k1 : {z : Sc // z ≠ 0} => ∃ x y sig, coords ((k1.1 * s.k2) • (G : Pt)) = some (x, y) ∧ x < q ∧
      LindellSession.OutputsWith { s with k1 := k1.1 } own1 m sig ∧
      Lindell17.verify sig (s.ownKey own1 own2) m = .ok ()) ≤ 4 / ((q : ℚ) - 1) := by
  refine chance_two_keys hs.k2 hd hm ?_
  rintro u ⟨x, y, sig, hc, hx, ho, hv⟩
  exact ⟨x, y, hc, hx, C137_lindell_key (s := { s with k1 := u.1 })
    ⟨hs.valid, hs.large, u.2, hs.k2, hs.rho, hs.rk, hs.r⟩ hc hx ho hv⟩

/-- **C137** (shares that belong together). If the product of the shares is the same, what party one outputs is valid
under its key, whatever the single shares are: a refresh that both have stored changes nothing. -/
theorem C137_lindell_fitting (hs : s.Fair) {m : ℤ} {x y : ℕ}
    (hc : coords ((s.k1 * s.k2) • (G : Pt)) = some (x, y)) (hx : x < q) (hd : s.x1 * s.x2 = own1 * own2)
    (h0 : (m : Sc) + (x : Sc) * (own1 * own2) ≠ 0) :
    ∃ sig, s.OutputsWith own1 m sig ∧ Lindell17.verify sig (s.ownKey own1 own2) m = .ok () := by
  obtain ⟨x', y', sig, hc', ho, -, -, h1⟩ := lindell_outputs hs m
  rw [hc] at hc'
  cases hc'
  rw [lindell_ownKey, ← hd, ← lindell_key]
  exact ⟨sig, ho, (h1 (hd ▸ h0)).2 hx⟩

/-- **C137** (why the zero message is special). For opposite private keys what party one outputs for the zero message
is valid under its key. -/
theorem C137_lindell_opposite (hs : s.Fair) {x y : ℕ} (hc : coords ((s.k1 * s.k2) • (G : Pt)) = some (x, y))
    (hx : x < q) (hd : s.x1 * s.x2 + own1 * own2 = 0) (hx0 : (x : Sc) ≠ 0) (h0 : s.x1 * s.x2 ≠ 0) :
    ∃ sig, s.OutputsWith own1 0 sig ∧ Lindell17.verify sig (s.ownKey own1 own2) 0 = .ok () := by
  obtain ⟨x', y', sig, hc', ho, -, -, h1⟩ := lindell_outputs hs 0
  rw [hc] at hc'
  cases hc'
  refine ⟨sig, ho, ?_⟩
  have hv := (h1 (by simp [hx0, h0])).2 hx
  have e : s.ownKey own1 own2 = -s.key := by
    rw [lindell_ownKey, lindell_key, ← neg_smul]
    congr 1
    linear_combination hd
  rw [l17_verify_eq] at hv ⊢
  have hp : vpoint (-s.key) 0 (sig.r : Sc) (sig.s : Sc) = -vpoint s.key 0 (sig.r : Sc) (sig.s : Sc) := by
    simp [vpoint]
  rw [e, hp, xc_neg]
  exact hv

end

/-! ### CCLST19 -/

section
variable [Crypto] [CL] {s : CclSession} {own1 own2 : Sc}

/-- Party one's function does not use its share. -/
theorem ccl_outputsWith {m : ℤ} {sig : Lindell17.Signature} : s.OutputsWith own1 m sig ↔ s.Outputs m sig :=
  Iff.rfl

theorem ccl_ownKey : s.ownKey own1 own2 = (own1 * own2) • (G : Pt) := (mul_smul own1 own2 G).symm

/-- **C137**, CCLST19. -/
theorem C137_cclst_key (h1 : s.k1 ≠ 0) (h2 : s.k2 ≠ 0) {m : ℤ} {sig : Lindell17.Signature} {x y : ℕ}
    (hc : coords ((s.k1 * s.k2) • (G : Pt)) = some (x, y)) (hx : x < q) (h : s.OutputsWith own1 m sig)
    (hv : CCLST19.verify sig (s.ownKey own1 own2) m = .ok ()) :
    (x : Sc) * (s.x1 * s.x2 - own1 * own2) = 0 ∨ 2 * (m : Sc) + (x : Sc) * (s.x1 * s.x2 + own1 * own2) = 0 := by
  obtain ⟨x', y', sig', hc', ho, hr, h0, h1⟩ := ccl_outputs h1 h2 m
  obtain rfl := ccl_outputs_unique (ccl_outputsWith.1 h) ho
  rw [hc] at hc'
  cases hc'
  replace hv := cc_verify_l17 hv
  have hne : (m : Sc) + (x : Sc) * (s.x1 * s.x2) ≠ 0 := by
    intro he
    have := ((C05_l17_verify_ok_iff _ _ _).1 hv).1
    rw [h0 he] at this
    exact this (by simp)
  have hm := cc_verify_l17 ((h1 hne).2 hx)
  rw [ccl_key] at hm
  rw [ccl_ownKey] at hv
  have hrx : ((sig'.r : ℤ) : Sc) = (x : Sc) := by rw [hr, castMod, Int.cast_natCast]
  have := l17_two_keys hm hv
  rwa [hrx] at this

/-- **C137** (chance), CCLST19. -/
theorem C137_cclst_chance (hk2 : s.k2 ≠ 0) {m : ℤ} (hd : s.x1 * s.x2 ≠ own1 * own2)
    (hm : (m : Sc) ≠ 0 ∨ s.x1 * s.x2 + own1 * own2 ≠ 0) :
    chance (fun k1 : {z : Sc // z ≠ 0} => ∃ x y sig, coords ((k1.1 * s.k2) • (G : Pt)) = some (x, y) ∧ x < q ∧
      CclSession.OutputsWith { s with k1 := k1.1 } own1 m sig ∧
      CCLST19.verify sig (s.ownKey own1 own2) m = .ok ()) ≤ 4 / ((q : ℚ) - 1) := by
  refine chance_two_keys hk2 hd hm ?_
  rintro u ⟨x, y, sig, hc, hx, ho, hv⟩
  exact ⟨x, y, hc, hx, C137_cclst_key (s := { s with k1 := u.1 }) u.2 hk2 hc hx ho hv⟩

/-- **C137** (shares that belong together), CCLST19. -/
theorem C137_cclst_fitting (h1 : s.k1 ≠ 0) (h2 : s.k2 ≠ 0) {m : ℤ} {x y : ℕ}
    (hc : coords ((s.k1 * s.k2) • (G : Pt)) = some (x, y)) (hx : x < q) (hd : s.x1 * s.x2 = own1 * own2)
    (h0 : (m : Sc) + (x : Sc) * (own1 * own2) ≠ 0) :
    ∃ sig, s.OutputsWith own1 m sig ∧ CCLST19.verify sig (s.ownKey own1 own2) m = .ok () := by
  obtain ⟨x', y', sig, hc', ho, -, -, h⟩ := ccl_outputs h1 h2 m
  rw [hc] at hc'
  cases hc'
  rw [ccl_ownKey, ← hd, ← ccl_key]
  exact ⟨sig, ho, (h (hd ▸ h0)).2 hx⟩

end

/-! ### Examples -/

section Examples
attribute [local instance] Toy.crypto
attribute [local instance] CL.trivial

/-- Party one has multiplied its share by 2; party two has not divided by 2. -/
example := C137_lindell_chance (own1 := (18 : ZMod 31)) (own2 := (5 : ZMod 31)) toyLindell_fair (m := 10)
  (by decide) (by decide)

example := C137_cclst_chance (s := toyCcl) (own1 := (18 : ZMod 31)) (own2 := (5 : ZMod 31)) (by decide) (m := 10)
  (by decide) (by decide)

/-- After a refresh by 2 the product is the same. -/
example : ∃ sig, toyLindell.OutputsWith (18 : ZMod 31) 10 sig ∧
    Lindell17.verify sig (toyLindell.ownKey (18 : ZMod 31) (18 : ZMod 31)) 10 = .ok () :=
  C137_lindell_fitting toyLindell_fair toyLindell_coords (by decide) (by decide) (by decide)

/-- One of the exceptions: shares whose product is the opposite one, and the message 0. -/
example : ∃ sig, toyLindell.OutputsWith (22 : ZMod 31) 0 sig ∧
    Lindell17.verify sig (toyLindell.ownKey (22 : ZMod 31) (5 : ZMod 31)) 0 = .ok () :=
  C137_lindell_opposite toyLindell_fair toyLindell_coords (by decide) (by decide) (by decide) (by decide)

end Examples

end Verif.Props
