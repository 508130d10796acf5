import Verif.Props.MixedShares
import Verif.Props.Curve

/-!
# C139: honest two-party signing rarely fails

Over the nonce of party one, for every value of the other samples.
-/

namespace Verif.Props

open EC Crypto Spec

section
variable [Crypto]

/-- The nonces of party one for which the x-coordinate of the nonce point is in a given list. -/
theorem chance_xs {k2 : Sc} (hk2 : k2 ≠ 0) (l : List ℕ) :
    chance (fun u : {z : Sc // z ≠ 0} => ∃ x y, coords ((u.1 * k2) • (G : Pt)) = some (x, y) ∧ x ∈ l) ≤
      2 * l.length / ((q : ℚ) - 1) := by
  induction l with
  | nil =>
    have : IsEmpty {u : {z : Sc // z ≠ 0} // ∃ x y, coords ((u.1 * k2) • (G : Pt)) = some (x, y) ∧ x ∈ ([] : List ℕ)} :=
      ⟨by rintro ⟨u, x, y, -, h⟩; cases h⟩
    unfold chance
    rw [Nat.card_of_isEmpty]
    simp
  | cons a l ih =>
    have h := chance_le_add (Ω := {z : Sc // z ≠ 0})
      (E := fun u => ∃ x y, coords ((u.1 * k2) • (G : Pt)) = some (x, y) ∧ x ∈ a :: l)
      (F := fun u => ∃ y, coords ((u.1 * k2) • (G : Pt)) = some (a, y))
      (B := fun u => ∃ x y, coords ((u.1 * k2) • (G : Pt)) = some (x, y) ∧ x ∈ l) (by
        rintro u ⟨x, y, hc, hx⟩
        rcases List.mem_cons.1 hx with rfl | hx
        · exact .inl ⟨y, hc⟩
        · exact .inr ⟨x, y, hc, hx⟩)
    have h' := chance_two_scalars (event := fun u => ∃ y, coords ((u.1 * k2) • (G : Pt)) = some (a, y)) (by
      rintro u v ⟨y, hc⟩ ⟨y', hc'⟩
      have hxc : xc ((u.1 * k2) • (G : Pt)) = xc ((v.1 * k2) • (G : Pt)) := by simp [xc, hc, hc']
      rcases eq_or_eq_neg_of_xc hxc with h1 | h1
      · left
        rw [smul_G_inj] at h1
        exact mul_right_cancel₀ hk2 h1
      · right
        rw [← neg_smul, smul_G_inj, ← neg_mul] at h1
        exact mul_right_cancel₀ hk2 h1)
    have e : 2 * ((a :: l).length : ℚ) / ((q : ℚ) - 1) = 2 / ((q : ℚ) - 1) + 2 * (l.length : ℚ) / ((q : ℚ) - 1) := by
      rw [List.length_cons]; push_cast; ring
    rw [e]
    linarith

/-- An x-coordinate for which `m + x d = 0` is one of two. -/
theorem x_of_zero {d : Sc} {m : ℤ} {x : ℕ} (hd : d ≠ 0) (h : (m : Sc) + (x : Sc) * d = 0) :
    x % q = (-(m : Sc) / d).val := by
  have : (x : Sc) = -(m : Sc) / d := by
    rw [eq_div_iff hd]
    linear_combination h
  rw [← this, ZMod.val_natCast]

theorem chance_mono' {E F : {z : Sc // z ≠ 0} → Prop} (h : ∀ u, E u → F u) : chance E ≤ chance F := by
  unfold chance
  exact div_le_div_of_nonneg_right (Nat.cast_le.2 (Nat.card_mono (Set.toFinite {u | F u}) h)) (Nat.cast_nonneg _)

/-- For both protocols: the bad x-coordinates of a session without a valid signature. -/
theorem few_invalid {k2 d : Sc} {m : ℤ} (hp : p ≤ 2 * q) (hk2 : k2 ≠ 0) (hd : d ≠ 0)
    {event : {z : Sc // z ≠ 0} → Prop} (h : ∀ u, event u → ∃ x y, coords ((u.1 * k2) • (G : Pt)) = some (x, y) ∧
      (m : Sc) + (x : Sc) * d = 0) : chance event ≤ 4 / ((q : ℚ) - 1) := by
  have hl := chance_xs (k2 := k2) hk2 [(-(m : Sc) / d).val, (-(m : Sc) / d).val + q]
  norm_num at hl
  refine le_trans (chance_mono' ?_) hl
  intro u hu
  obtain ⟨x, y, hc, h0⟩ := h u hu
  refine ⟨x, ⟨y, hc⟩, ?_⟩
  have h1 := x_of_zero hd h0
  have h2 := (coords_lt _ _ _ hc).1
  rw [← h1]
  by_cases hx : x < q
  · left; rw [Nat.mod_eq_of_lt hx]
  · right
    rw [Nat.mod_eq_sub_mod (by omega), Nat.mod_eq_of_lt (by omega)]
    omega

/-- The same for sessions whose output the library does not accept. -/
theorem few_rejected {k2 d : Sc} {m : ℤ} (hk2 : k2 ≠ 0) (hd : d ≠ 0)
    {event : {z : Sc // z ≠ 0} → Prop} (h : ∀ u, event u → ∃ x y, coords ((u.1 * k2) • (G : Pt)) = some (x, y) ∧
      (q ≤ x ∨ (m : Sc) + (x : Sc) * d = 0)) : chance event ≤ 2 * ((1 + (p - q) : ℕ) : ℚ) / ((q : ℚ) - 1) := by
  have hl := chance_xs (k2 := k2) hk2 ((-(m : Sc) / d).val :: List.range' q (p - q))
  rw [List.length_cons, List.length_range', add_comm] at hl
  refine le_trans (chance_mono' ?_) hl
  intro u hu
  obtain ⟨x, y, hc, h0⟩ := h u hu
  refine ⟨x, y, hc, ?_⟩
  have h2 := (coords_lt _ _ _ hc).1
  by_cases hx : q ≤ x
  · refine List.mem_cons_of_mem _ (List.mem_range'_1.2 ⟨hx, ?_⟩)
    omega
  · rw [← x_of_zero hd (h0.resolve_left hx), Nat.mod_eq_of_lt (by omega)]
    exact List.mem_cons_self

/-! ### Lindell17 -/

variable {s : LindellSession}

/-- **C139.** Both parties follow the protocol. For all but at most four of the `q - 1` nonces of party one, party one
outputs a signature that satisfies the ECDSA equation under the joint key. -/
theorem C139_lindell_valid (hp : p ≤ 2 * q) (hs : s.Fair) (m : ℤ) (h1 : s.x1 ≠ 0) (h2 : s.x2 ≠ 0) :
    chance (fun k1 : {z : Sc // z ≠ 0} => ¬ ∃ sig, LindellSession.Outputs { s with k1 := k1.1 } m sig ∧
      EcdsaEq s.key m (sig.r : Sc) (sig.s : Sc)) ≤ 4 / ((q : ℚ) - 1) := by
  refine few_invalid (m := m) hp hs.k2 (mul_ne_zero h1 h2) ?_
  intro u hu
  obtain ⟨x, y, sig, hc, ho, -, -, h⟩ := lindell_outputs (s := { s with k1 := u.1 })
    ⟨hs.valid, hs.large, u.2, hs.k2, hs.rho, hs.rk, hs.r⟩ m
  exact ⟨x, y, hc, not_not.1 fun h0 => hu ⟨sig, ho, (h h0).1⟩⟩

/-- **C139** (accepted by the library). For all but at most `2 (1 + p - q)` of the nonces the library's own
verification accepts the output. -/
theorem C139_lindell_accepted (hs : s.Fair) (m : ℤ) (h1 : s.x1 ≠ 0) (h2 : s.x2 ≠ 0) :
    chance (fun k1 : {z : Sc // z ≠ 0} => ¬ ∃ sig, LindellSession.Outputs { s with k1 := k1.1 } m sig ∧
      Lindell17.verify sig s.key m = .ok ()) ≤ 2 * ((1 + (p - q) : ℕ) : ℚ) / ((q : ℚ) - 1) := by
  refine few_rejected (m := m) hs.k2 (mul_ne_zero h1 h2) ?_
  intro u hu
  obtain ⟨x, y, sig, hc, ho, -, -, h⟩ := lindell_outputs (s := { s with k1 := u.1 })
    ⟨hs.valid, hs.large, u.2, hs.k2, hs.rho, hs.rk, hs.r⟩ m
  refine ⟨x, y, hc, ?_⟩
  by_contra hcon
  push Not at hcon
  exact hu ⟨sig, ho, (h hcon.2).2 hcon.1⟩

end

/-! ### CCLST19 -/

section
variable [Crypto] [CL] {s : CclSession}

/-- **C139**, CCLST19. -/
theorem C139_cclst_valid (hp : p ≤ 2 * q) (hk2 : s.k2 ≠ 0) (m : ℤ) (h1 : s.x1 ≠ 0) (h2 : s.x2 ≠ 0) :
    chance (fun k1 : {z : Sc // z ≠ 0} => ¬ ∃ sig, CclSession.Outputs { s with k1 := k1.1 } m sig ∧
      EcdsaEq s.key m (sig.r : Sc) (sig.s : Sc)) ≤ 4 / ((q : ℚ) - 1) := by
  refine few_invalid (m := m) hp hk2 (mul_ne_zero h1 h2) ?_
  intro u hu
  obtain ⟨x, y, sig, hc, ho, -, -, h⟩ := ccl_outputs (s := { s with k1 := u.1 }) u.2 hk2 m
  exact ⟨x, y, hc, not_not.1 fun h0 => hu ⟨sig, ho, (h h0).1⟩⟩

/-- **C139** (accepted by the library), CCLST19. -/
theorem C139_cclst_accepted (hk2 : s.k2 ≠ 0) (m : ℤ) (h1 : s.x1 ≠ 0) (h2 : s.x2 ≠ 0) :
    chance (fun k1 : {z : Sc // z ≠ 0} => ¬ ∃ sig, CclSession.Outputs { s with k1 := k1.1 } m sig ∧
      CCLST19.verify sig s.key m = .ok ()) ≤ 2 * ((1 + (p - q) : ℕ) : ℚ) / ((q : ℚ) - 1) := by
  refine few_rejected (m := m) hk2 (mul_ne_zero h1 h2) ?_
  intro u hu
  obtain ⟨x, y, sig, hc, ho, -, -, h⟩ := ccl_outputs (s := { s with k1 := u.1 }) u.2 hk2 m
  refine ⟨x, y, hc, ?_⟩
  by_contra hcon
  push Not at hcon
  exact hu ⟨sig, ho, (h hcon.2).2 hcon.1⟩

end

/-! ### On the real curve -/

section
attribute [local instance] Secp256k1.inst

/-- **C139** (the real parameters): on secp256k1 the first bound is below `2^-253` and the second one below
`2^-126`. -/
theorem C139_secp256k1 : p ≤ 2 * q ∧ 4 / ((q : ℚ) - 1) ≤ 1 / 2 ^ 253 ∧
    2 * ((1 + (p - q) : ℕ) : ℚ) / ((q : ℚ) - 1) ≤ 1 / 2 ^ 126 := by
  have hp : (p : ℕ) = Secp256k1.p := rfl
  have hq : (q : ℕ) = Secp256k1.n := rfl
  rw [hp, hq]
  refine ⟨by norm_num [Secp256k1.p, Secp256k1.n], ?_, ?_⟩ <;> norm_num [Secp256k1.p, Secp256k1.n]

end

/-! ### Examples -/

section Examples
attribute [local instance] Toy.crypto
attribute [local instance] CL.trivial

example := C139_lindell_valid (by decide) toyLindell_fair 10 (by decide) (by decide)

example := C139_lindell_accepted toyLindell_fair 10 (by decide) (by decide)

example := C139_cclst_valid (s := toyCcl) (by decide) (by decide) 10 (by decide) (by decide)

example := C139_cclst_accepted (s := toyCcl) (by decide) 10 (by decide) (by decide)

end Examples

end Verif.Props
