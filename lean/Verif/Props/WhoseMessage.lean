import Verif.Spec.WhoseMessage
import Verif.Props.TwoParty
import Verif.Props.StartedTwice

/-!
# C136: whose message the two-party protocols sign

Party one completes a signature without being given the message.  It signs what party two was given, and nothing
in the session tells it so; only checking the result against its own message does.
-/

namespace Verif.Props

open EC Crypto Spec

section
variable [Crypto]

/-- A signature that Lindell17's verification accepts for two messages. -/
theorem l17_two_messages {sig : Lindell17.Signature} {d : Sc} {m m' : ℤ}
    (h : Lindell17.verify sig (d • G) m = .ok ()) (h' : Lindell17.verify sig (d • G) m' = .ok ()) :
    m ≡ m' [ZMOD q] ∨ ((m + m' : ℤ) : Sc) = -(2 * (sig.r : Sc) * d) := by
  obtain ⟨hs, -, x, y, hc, hx⟩ := (C05_l17_verify_ok_iff sig _ m).1 h
  obtain ⟨-, -, x', y', hc', hx'⟩ := (C05_l17_verify_ok_iff sig _ m').1 h'
  have e : ∀ k : ℤ, ((k : Sc) / (sig.s : Sc)) • (G : Pt) + ((sig.r : Sc) / (sig.s : Sc)) • (d • G) =
      (((k : Sc) + (sig.r : Sc) * d) / (sig.s : Sc)) • G := by
    intro k; rw [← mul_smul, ← add_smul]; congr 1; ring
  have hxc : xc ((((m : Sc) + (sig.r : Sc) * d) / (sig.s : Sc)) • (G : Pt)) =
      xc ((((m' : Sc) + (sig.r : Sc) * d) / (sig.s : Sc)) • (G : Pt)) := by
    rw [← e, ← e]; simp [xc, hc, hc', ← hx, ← hx']
  rcases eq_or_eq_neg_of_xc hxc with h1 | h1
  · left
    rw [smul_G_inj, div_left_inj' hs] at h1
    rw [← ZMod.intCast_eq_intCast_iff]
    exact (add_right_cancel h1).symm
  · right
    rw [← neg_smul, smul_G_inj, ← neg_div, div_left_inj' hs] at h1
    push_cast
    linear_combination h1

/-- A chance over one non-zero scalar of which at most a value and its negative are bad. -/
theorem chance_two_scalars {event : {z : Sc // z ≠ 0} → Prop}
    (h : ∀ u v, event u → event v → v.1 = u.1 ∨ v.1 = -u.1) : chance event ≤ 2 / ((q : ℚ) - 1) := by
  have hq := q_prime.out.one_lt
  have hsc : (Nat.card {z : Sc // z ≠ 0} : ℚ) = (q : ℚ) - 1 := by
    have : Fintype Sc := Fintype.ofFinite _
    classical
    rw [Nat.card_eq_fintype_card, Fintype.card_subtype_compl, Fintype.card_subtype_eq, ← Nat.card_eq_fintype_card,
      show Nat.card Sc = q from Nat.card_zmod q, Nat.cast_sub hq.le, Nat.cast_one]
  by_cases hE : ∃ u, event u
  · obtain ⟨u, hu⟩ := hE
    have := chance_mem (Ω := {z : Sc // z ≠ 0}) (f := Subtype.val) Subtype.val_injective [u.1, -u.1] (n := 2) le_rfl
    rw [hsc, Nat.cast_ofNat] at this
    refine le_trans ?_ this
    unfold chance
    refine div_le_div_of_nonneg_right (Nat.cast_le.2 ?_) (Nat.cast_nonneg _)
    exact Nat.card_mono (Set.toFinite {v : {z : Sc // z ≠ 0} | v.1 ∈ [u.1, -u.1]}) fun v hv => by
      show v.1 ∈ [u.1, -u.1]
      rcases h u v hu hv with e | e <;> simp [e]
  · have : IsEmpty {u // event u} := ⟨fun u => hE ⟨u.1, u.2⟩⟩
    have hq' : (1 : ℚ) < q := by exact_mod_cast hq
    unfold chance
    rw [Nat.card_of_isEmpty, Nat.cast_zero, zero_div]
    exact div_nonneg (by norm_num) (by linarith)

/-- Two nonces of party one that lead to the x-coordinate which the second class of messages asks for are equal up
to sign. -/
theorem same_nonce {k k' k2 d : Sc} {m m' : ℤ} {x y x' y' : ℕ} (hk2 : k2 ≠ 0) (hd : d ≠ 0)
    (hc : coords ((k * k2) • (G : Pt)) = some (x, y)) (hc' : coords ((k' * k2) • (G : Pt)) = some (x', y'))
    (hx : x < q) (hx' : x' < q) (h : ((m + m' : ℤ) : Sc) = -(2 * (x : Sc) * d))
    (h' : ((m + m' : ℤ) : Sc) = -(2 * (x' : Sc) * d)) : k' = k ∨ k' = -k := by
  have h2 : (2 : Sc) ≠ 0 := by
    intro h0
    have h1 : ((2 : ℕ) : Sc) = 0 := by exact_mod_cast h0
    have h2 := (ZMod.natCast_eq_zero_iff 2 q).1 h1
    have := Nat.le_of_dvd (by norm_num) h2
    have := q_odd
    have := q_prime.out.one_lt
    omega
  have hxx : (x : Sc) = (x' : Sc) := by
    have e : 2 * d * (x : Sc) = 2 * d * (x' : Sc) := by linear_combination h - h'
    exact mul_left_cancel₀ (mul_ne_zero h2 hd) e
  have hxe : x = x' := by
    have := congrArg ZMod.val hxx
    rwa [ZMod.val_natCast, ZMod.val_natCast, Nat.mod_eq_of_lt hx, Nat.mod_eq_of_lt hx'] at this
  have hxc : xc ((k * k2) • (G : Pt)) = xc ((k' * k2) • (G : Pt)) := by simp [xc, hc, hc', hxe]
  rcases eq_or_eq_neg_of_xc hxc with h1 | h1
  · left
    rw [smul_G_inj] at h1
    exact mul_right_cancel₀ hk2 h1
  · right
    rw [← neg_smul, smul_G_inj, ← neg_mul] at h1
    exact mul_right_cancel₀ hk2 h1

/-! ### Lindell17 -/

variable {s : LindellSession}

/-- What party one outputs in a session. -/
theorem lindell_outputs (hs : s.Fair) (m : ℤ) :
    ∃ x y sig, coords ((s.k1 * s.k2) • (G : Pt)) = some (x, y) ∧ s.Outputs m sig ∧ sig.r = (x : ℤ) % q ∧
      ((m : Sc) + (x : Sc) * (s.x1 * s.x2) = 0 → sig.s = 0) ∧
      ((m : Sc) + (x : Sc) * (s.x1 * s.x2) ≠ 0 → EcdsaEq s.key m (sig.r : Sc) (sig.s : Sc) ∧
        (x < q → Lindell17.verify sig s.key m = .ok ())) := by
  obtain ⟨x, y, c3, sig, hc, h3, hsig, hr, -, -, h0, h1⟩ := C53_sign hs.valid hs.large s.x1 s.x2 s.k1 s.k2 s.n1 s.n2
    hs.k1 hs.k2 m s.b1 s.b2 hs.rho.1 hs.rho.2 hs.rk hs.r
  exact ⟨x, y, sig, hc, ⟨c3, h3, hsig⟩, hr, h0, fun h => ⟨(h1 h).1, (h1 h).2.2⟩⟩

theorem lindell_outputs_unique {m : ℤ} {sig sig' : Lindell17.Signature} (h : s.Outputs m sig)
    (h' : s.Outputs m sig') : sig' = sig := by
  obtain ⟨c, h1, h2⟩ := h
  obtain ⟨c', h1', h2'⟩ := h'
  obtain rfl : c' = c := by rw [h1] at h1'; cases h1'; rfl
  rw [h2] at h2'
  cases h2'
  rfl

theorem lindell_key : s.key = (s.x1 * s.x2) • (G : Pt) := (mul_smul s.x1 s.x2 G).symm

/-- **C136 (partial).**  If party one checks what it got against its own message `m'`, the check accepts only if `m'`
is congruent to the message that party two was given, or belongs to the one further class `-2 x x1 x2 - m` that
every ECDSA signature fits; here `x` is the x-coordinate of the nonce point, below the group order. -/
theorem C136_lindell_partial (hs : s.Fair) {m m' : ℤ} {sig : Lindell17.Signature} {x y : ℕ}
    (hc : coords ((s.k1 * s.k2) • (G : Pt)) = some (x, y)) (hx : x < q) (h : s.Outputs m sig)
    (hv : Lindell17.verify sig s.key m' = .ok ()) :
    m ≡ m' [ZMOD q] ∨ ((m + m' : ℤ) : Sc) = -(2 * (x : Sc) * (s.x1 * s.x2)) := by
  obtain ⟨x', y', sig', hc', ho, hr, h0, h1⟩ := lindell_outputs hs m
  obtain rfl := lindell_outputs_unique h ho
  rw [hc] at hc'
  cases hc'
  have hne : (m : Sc) + (x : Sc) * (s.x1 * s.x2) ≠ 0 := by
    intro he
    have := ((C05_l17_verify_ok_iff _ _ _).1 hv).1
    rw [h0 he] at this
    exact this (by simp)
  have hm := (h1 hne).2 hx
  rw [lindell_key] at hm hv
  have hrx : ((sig'.r : ℤ) : Sc) = (x : Sc) := by rw [hr, castMod, Int.cast_natCast]
  have := l17_two_messages hm hv
  rwa [hrx] at this

/-- **C136 (partial), chance.**  For two messages that differ modulo the group order and every value of the other
samples, the check of party one against its own message accepts the signature on party two's message for at most
two of the `q - 1` nonces of party one. -/
theorem C136_lindell_chance (hs : s.Fair) {m m' : ℤ} (hm : ¬ m ≡ m' [ZMOD q]) (h1 : s.x1 ≠ 0) (h2 : s.x2 ≠ 0) :
    chance (fun k1 : {z : Sc // z ≠ 0} => ∃ x y sig, coords ((k1.1 * s.k2) • (G : Pt)) = some (x, y) ∧ x < q ∧
      LindellSession.Outputs { s with k1 := k1.1 } m sig ∧ Lindell17.verify sig s.key m' = .ok ()) ≤
    2 / ((q : ℚ) - 1) := by
  refine chance_two_scalars ?_
  rintro u v ⟨x, y, sig, hc, hx, ho, hv⟩ ⟨x', y', sig', hc', hx', ho', hv'⟩
  have hf : ∀ w : {z : Sc // z ≠ 0}, LindellSession.Fair { s with k1 := w.1 } := fun w =>
    ⟨hs.valid, hs.large, w.2, hs.k2, hs.rho, hs.rk, hs.r⟩
  have e := (C136_lindell_partial (hf u) hc hx ho hv).resolve_left hm
  have e' := (C136_lindell_partial (hf v) hc' hx' ho' hv').resolve_left hm
  exact same_nonce hs.k2 (mul_ne_zero h1 h2) hc hc' hx hx' e e'

/-- **C136 is violated.**  Whatever message `m'` party one means to sign, with honest values party one outputs a
signature on party two's message `m`: it satisfies the ECDSA equation for `m` under the joint key, and verification
accepts it for `m`.  It does not accept it for `m'`, outside the two classes of `C136_lindell_partial`. -/
theorem C136_lindell_other_message (hs : s.Fair) {m m' : ℤ} {x y : ℕ}
    (hc : coords ((s.k1 * s.k2) • (G : Pt)) = some (x, y)) (hx : x < q)
    (h0 : (m : Sc) + (x : Sc) * (s.x1 * s.x2) ≠ 0) (hm : ¬ m ≡ m' [ZMOD q])
    (hm' : ((m + m' : ℤ) : Sc) ≠ -(2 * (x : Sc) * (s.x1 * s.x2))) :
    ∃ sig, s.Outputs m sig ∧ EcdsaEq s.key m (sig.r : Sc) (sig.s : Sc) ∧ Lindell17.verify sig s.key m = .ok () ∧
      Lindell17.verify sig s.key m' ≠ .ok () := by
  obtain ⟨x', y', sig, hc', ho, -, -, h1⟩ := lindell_outputs hs m
  rw [hc] at hc'
  cases hc'
  exact ⟨sig, ho, (h1 h0).1, (h1 h0).2 hx, fun h => (C136_lindell_partial hs hc hx ho h).elim hm hm'⟩

end

/-! ### CCLST19 -/

section
variable [Crypto] [CL] {s : CclSession}

/-- What party one outputs in a session. -/
theorem ccl_outputs (h1 : s.k1 ≠ 0) (h2 : s.k2 ≠ 0) (m : ℤ) :
    ∃ x y sig, coords ((s.k1 * s.k2) • (G : Pt)) = some (x, y) ∧ s.Outputs m sig ∧ sig.r = (x : ℤ) % q ∧
      ((m : Sc) + (x : Sc) * (s.x1 * s.x2) = 0 → sig.s = 0) ∧
      ((m : Sc) + (x : Sc) * (s.x1 * s.x2) ≠ 0 → EcdsaEq s.key m (sig.r : Sc) (sig.s : Sc) ∧
        (x < q → CCLST19.verify sig s.key m = .ok ())) := by
  obtain ⟨x, y, c3, sig, hc, h3, hsig, hr, -, -, h0, h1⟩ := C57_sign s.x1 s.x2 s.k1 s.k2 s.n1 s.n2
    h1 h2 m s.b1 s.b2 s.seed s.rk s.re s.r
  exact ⟨x, y, sig, hc, ⟨c3, h3, hsig⟩, hr, h0, fun h => ⟨(h1 h).1, (h1 h).2.2⟩⟩

theorem ccl_outputs_unique {m : ℤ} {sig sig' : Lindell17.Signature} (h : s.Outputs m sig)
    (h' : s.Outputs m sig') : sig' = sig := by
  obtain ⟨c, h1, h2⟩ := h
  obtain ⟨c', h1', h2'⟩ := h'
  obtain rfl : c' = c := by rw [h1] at h1'; cases h1'; rfl
  rw [h2] at h2'
  cases h2'
  rfl

theorem ccl_key : s.key = (s.x1 * s.x2) • (G : Pt) := (mul_smul s.x1 s.x2 G).symm

omit [CL] in
/-- A signature that CCLST19's verification accepts is accepted by Lindell17's. -/
theorem cc_verify_l17 {sig : Lindell17.Signature} {Y : Pt} {m : ℤ} (h : CCLST19.verify sig Y m = .ok ()) :
    Lindell17.verify sig Y m = .ok () := by
  by_cases hs : (sig.s : Sc) = 0
  · rw [(C06_cclst_verify sig Y m).2 hs] at h; cases h
  · rwa [(C06_cclst_verify sig Y m).1 hs] at h

/-- **C136 (partial), CCLST19.** -/
theorem C136_cclst_partial (h1 : s.k1 ≠ 0) (h2 : s.k2 ≠ 0) {m m' : ℤ} {sig : Lindell17.Signature} {x y : ℕ}
    (hc : coords ((s.k1 * s.k2) • (G : Pt)) = some (x, y)) (hx : x < q) (h : s.Outputs m sig)
    (hv : CCLST19.verify sig s.key m' = .ok ()) :
    m ≡ m' [ZMOD q] ∨ ((m + m' : ℤ) : Sc) = -(2 * (x : Sc) * (s.x1 * s.x2)) := by
  obtain ⟨x', y', sig', hc', ho, hr, h0, h1⟩ := ccl_outputs h1 h2 m
  obtain rfl := ccl_outputs_unique h ho
  rw [hc] at hc'
  cases hc'
  replace hv := cc_verify_l17 hv
  have hne : (m : Sc) + (x : Sc) * (s.x1 * s.x2) ≠ 0 := by
    intro he
    have := ((C05_l17_verify_ok_iff _ _ _).1 hv).1
    rw [h0 he] at this
    exact this (by simp)
  have hm := cc_verify_l17 ((h1 hne).2 hx)
  rw [ccl_key] at hm hv
  have hrx : ((sig'.r : ℤ) : Sc) = (x : Sc) := by rw [hr, castMod, Int.cast_natCast]
  have := l17_two_messages hm hv
  rwa [hrx] at this

/-- **C136 (partial), chance, CCLST19.** -/
theorem C136_cclst_chance (hk2 : s.k2 ≠ 0) {m m' : ℤ} (hm : ¬ m ≡ m' [ZMOD q]) (h1 : s.x1 ≠ 0) (h2 : s.x2 ≠ 0) :
    chance (fun k1 : {z : Sc // z ≠ 0} => ∃ x y sig, coords ((k1.1 * s.k2) • (G : Pt)) = some (x, y) ∧ x < q ∧
      CclSession.Outputs { s with k1 := k1.1 } m sig ∧ CCLST19.verify sig s.key m' = .ok ()) ≤
    2 / ((q : ℚ) - 1) := by
  refine chance_two_scalars ?_
  rintro u v ⟨x, y, sig, hc, hx, ho, hv⟩ ⟨x', y', sig', hc', hx', ho', hv'⟩
  have e := (C136_cclst_partial (s := { s with k1 := u.1 }) u.2 hk2 hc hx ho hv).resolve_left hm
  have e' := (C136_cclst_partial (s := { s with k1 := v.1 }) v.2 hk2 hc' hx' ho' hv').resolve_left hm
  exact same_nonce hk2 (mul_ne_zero h1 h2) hc hc' hx hx' e e'

/-- **C136 is violated, CCLST19.** -/
theorem C136_cclst_other_message (h1 : s.k1 ≠ 0) (h2 : s.k2 ≠ 0) {m m' : ℤ} {x y : ℕ}
    (hc : coords ((s.k1 * s.k2) • (G : Pt)) = some (x, y)) (hx : x < q)
    (h0 : (m : Sc) + (x : Sc) * (s.x1 * s.x2) ≠ 0) (hm : ¬ m ≡ m' [ZMOD q])
    (hm' : ((m + m' : ℤ) : Sc) ≠ -(2 * (x : Sc) * (s.x1 * s.x2))) :
    ∃ sig, s.Outputs m sig ∧ EcdsaEq s.key m (sig.r : Sc) (sig.s : Sc) ∧ CCLST19.verify sig s.key m = .ok () ∧
      CCLST19.verify sig s.key m' ≠ .ok () := by
  obtain ⟨x', y', sig, hc', ho, -, -, h⟩ := ccl_outputs h1 h2 m
  rw [hc] at hc'
  cases hc'
  exact ⟨sig, ho, (h h0).1, (h h0).2 hx, fun hv => (C136_cclst_partial h1 h2 hc hx ho hv).elim hm hm'⟩

end

/-! ### Examples -/

section Examples
attribute [local instance] Toy.crypto
attribute [local instance] CL.trivial

/-- A session with key `9 * 5 = 14` and nonce point `(29, 12)`. -/
def toyLindell : LindellSession where
  dk := toyKey2
  x1 := (9 : ZMod 31)
  x2 := (5 : ZMod 31)
  k1 := (5 : ZMod 31)
  k2 := (5 : ZMod 31)
  n1 := (2 : ZMod 31)
  n2 := (4 : ZMod 31)
  b1 := 1
  b2 := 2
  rk := 5
  rho := 900
  r := 9

theorem toyLindell_fair : toyLindell.Fair :=
  ⟨toyKey2_valid, by decide, by decide, by decide, by decide, by decide, by decide⟩

theorem toyLindell_coords : coords ((toyLindell.k1 * toyLindell.k2) • (G : Pt)) = some (29, 12) := by decide +kernel

/-- Party two is given 10, party one wants 11. -/
example : ∃ sig, toyLindell.Outputs 10 sig ∧ EcdsaEq toyLindell.key 10 (sig.r : Sc) (sig.s : Sc) ∧
    Lindell17.verify sig toyLindell.key 10 = .ok () ∧ Lindell17.verify sig toyLindell.key 11 ≠ .ok () :=
  C136_lindell_other_message toyLindell_fair toyLindell_coords (by decide) (by decide) (by decide) (by decide)

example := C136_lindell_chance toyLindell_fair (m := 10) (m' := 11) (by decide) (by decide) (by decide)

/-- The same values with CCLST19. -/
def toyCcl : CclSession where
  x1 := (9 : ZMod 31)
  x2 := (5 : ZMod 31)
  k1 := (5 : ZMod 31)
  k2 := (5 : ZMod 31)
  n1 := (2 : ZMod 31)
  n2 := (4 : ZMod 31)
  b1 := 1
  b2 := 2
  seed := 77
  rk := 1
  re := 2
  r := 3

example : ∃ sig, toyCcl.Outputs 10 sig ∧ EcdsaEq toyCcl.key 10 (sig.r : Sc) (sig.s : Sc) ∧
    CCLST19.verify sig toyCcl.key 10 = .ok () ∧ CCLST19.verify sig toyCcl.key 11 ≠ .ok () :=
  C136_cclst_other_message (x := 29) (y := 12) (by decide) (by decide) (by decide +kernel) (by decide) (by decide)
    (by decide) (by decide)

example := C136_cclst_chance (s := toyCcl) (by decide) (m := 10) (m' := 11) (by decide) (by decide) (by decide)

end Examples

end Verif.Props
