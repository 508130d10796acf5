import Verif.Spec.ShareAttack
import Verif.Props.TwoParty

/-!
# C115: signing does not disclose party one's share
-/

namespace Verif.Props

open EC Crypto Lindell17 Spec

section
variable [Crypto]

/-- A signing of party one (share `x1`, Paillier key `dk`) with nonce `k1`, as party two sees it. -/
def seenBy (s1 : Party1Private) (k1 k2 : Sc) (m rho r : ℤ) : SeenSigning :=
  { k2, m, rho, r, R1 := k1 • G, partyOne := fun R2 c3 => Signature.compute s1 c3 ⟨k1 • G, k1⟩ R2 }

omit [Crypto] in
theorem two_half {n : ℕ} (hodd : n % 2 = 1) : (2 : ℤ) * (((n + 1) / 2 : ℕ) : ℤ) ≡ 1 [ZMOD n] := by
  obtain ⟨h, rfl⟩ : ∃ h, n = 2 * h + 1 := ⟨n / 2, by omega⟩
  rw [show (2 * h + 1 + 1) / 2 = h + 1 by omega, Int.modEq_iff_dvd]
  exact ⟨-1, by push_cast; ring⟩

omit [Crypto] in
/-- The plaintext of the crafted ciphertext, if the bit is 0. -/
theorem plain_zero {n : ℕ} (hodd : n % 2 = 1) {w l y t : ℕ} {a : ℤ} (b : ℤ) {X : ℤ} (hX : X = y + 2 ^ l * (2 * t))
    (hb : b = a - (w * ((n + 1) / 2) ^ (l + 1) % n : ℕ) * y)
    (h0 : 0 ≤ w * t + a) (h1 : w * t + a < n) :
    ((w * ((n + 1) / 2) ^ (l + 1) % n : ℕ) * X + b % n) % n = w * t + a := by
  rw [← Int.emod_eq_of_lt h0 h1]
  show _ ≡ _ [ZMOD n]
  have h2 := two_half hodd
  generalize (n + 1) / 2 = h at h2 hb ⊢
  have hK : ((w * h ^ (l + 1) % n : ℕ) : ℤ) ≡ w * (h : ℤ) ^ (l + 1) [ZMOD n] := by
    push_cast; exact Int.mod_modEq _ _
  refine ((Int.ModEq.refl _).add (Int.mod_modEq b n)).trans ?_
  subst hb hX
  have e : ((w * h ^ (l + 1) % n : ℕ) : ℤ) * (y + 2 ^ l * (2 * t)) +
      (a - ((w * h ^ (l + 1) % n : ℕ) : ℤ) * y) =
      ((w * h ^ (l + 1) % n : ℕ) : ℤ) * (2 ^ (l + 1) * t) + a := by ring
  rw [e]
  refine Int.ModEq.add ?_ rfl
  refine (hK.mul_right _).trans ?_
  have e2 : (w : ℤ) * (h : ℤ) ^ (l + 1) * (2 ^ (l + 1) * t) = (2 * h) ^ (l + 1) * (w * t) := by
    rw [mul_pow]; ring
  rw [e2]
  simpa using (h2.pow (l + 1)).mul_right (w * t : ℤ)

omit [Crypto] in
/-- The plaintext of the crafted ciphertext, if the bit is 1. -/
theorem plain_one {n : ℕ} (hodd : n % 2 = 1) {w d l y t : ℕ} {a : ℤ} (b : ℤ) {X : ℤ}
    (hw : w = 2 * d + 1) (hX : X = y + 2 ^ l * (2 * t + 1))
    (hb : b = a - (w * ((n + 1) / 2) ^ (l + 1) % n : ℕ) * y)
    (h0 : 0 ≤ w * t + d + ((n + 1) / 2 : ℕ) + a) (h1 : w * t + d + ((n + 1) / 2 : ℕ) + a < n) :
    ((w * ((n + 1) / 2) ^ (l + 1) % n : ℕ) * X + b % n) % n = w * t + d + ((n + 1) / 2 : ℕ) + a := by
  rw [← Int.emod_eq_of_lt h0 h1]
  show _ ≡ _ [ZMOD n]
  have h2 := two_half hodd
  generalize (n + 1) / 2 = h at h2 hb ⊢
  have hK : ((w * h ^ (l + 1) % n : ℕ) : ℤ) ≡ w * (h : ℤ) ^ (l + 1) [ZMOD n] := by
    push_cast; exact Int.mod_modEq _ _
  refine ((Int.ModEq.refl _).add (Int.mod_modEq b n)).trans ?_
  subst hb hX
  have e : ((w * h ^ (l + 1) % n : ℕ) : ℤ) * (y + 2 ^ l * (2 * t + 1)) +
      (a - ((w * h ^ (l + 1) % n : ℕ) : ℤ) * y) =
      ((w * h ^ (l + 1) % n : ℕ) : ℤ) * (2 ^ l * (2 * t + 1)) + a := by ring
  rw [e]
  refine Int.ModEq.add ?_ rfl
  refine (hK.mul_right _).trans ?_
  have e2 : (w : ℤ) * (h : ℤ) ^ (l + 1) * (2 ^ l * (2 * t + 1)) =
      (2 * h) ^ (l + 1) * (w * t) + (2 * h) ^ (l + 1) * d + (2 * h) ^ l * h := by
    rw [mul_pow, mul_pow, hw]; push_cast; ring
  rw [e2]
  refine Int.ModEq.add (Int.ModEq.add ?_ ?_) ?_
  · simpa using (h2.pow (l + 1)).mul_right (w * t : ℤ)
  · simpa using (h2.pow (l + 1)).mul_right (d : ℤ)
  · simpa using (h2.pow l).mul_right (h : ℤ)

/-- The library accepts party one's answer exactly if the plaintext is plus or minus the right one. -/
theorem accept_iff {x1 x2 k1 k2 p : Sc} {m : ℤ} {x : ℕ} (hk1 : k1 ≠ 0) (hk2 : k2 ≠ 0)
    (hx : xc ((k1 * k2) • (G : Pt)) = some x) (hlt : x < q)
    (hs : k2⁻¹ * ((m : Sc) + (x : Sc) * (x1 * x2)) ≠ 0) :
    verify ⟨(normS (p * k1⁻¹)).val, (x : ℤ) % q⟩ ((x1 * x2) • (G : Pt)) m = .ok () ↔
      p = k2⁻¹ * ((m : Sc) + (x : Sc) * (x1 * x2)) ∨ p = -(k2⁻¹ * ((m : Sc) + (x : Sc) * (x1 * x2))) := by
  set u : Sc := k2⁻¹ * ((m : Sc) + (x : Sc) * (x1 * x2)) with hu
  have hum : (m : Sc) + (x : Sc) * (x1 * x2) = k2 * u := by rw [hu, mul_inv_cancel_left₀ hk2]
  have hr : (x : ℤ) % q = x := Int.emod_eq_of_lt (by positivity) (by exact_mod_cast hlt)
  have hsc : ((((normS (p * k1⁻¹)).val : ℕ) : ℤ) : Sc) = normS (p * k1⁻¹) := val_cast _
  have hpt : ∀ S : Sc, ((m : Sc) / S) • (G : Pt) + ((x : Sc) / S) • ((x1 * x2) • (G : Pt)) =
      (k2 * u / S) • (G : Pt) := by
    intro S
    rw [← mul_smul, ← add_smul, ← hum]
    congr 1
    ring
  rw [C05_l17_verify_ok_iff]
  simp only [hr, hsc, Int.cast_natCast, Int.natAbs_natCast]
  have hlow := normS_low (p * k1⁻¹)
  have hodd := q_odd
  have h2 : 2 * ((normS (p * k1⁻¹)).val : ℤ) < q := by unfold LowS at hlow; omega
  rw [hpt]
  constructor
  · rintro ⟨hne, -, x', y', hc, rfl⟩
    have hxc : xc ((k1 * k2) • (G : Pt)) = xc ((k2 * u / normS (p * k1⁻¹)) • (G : Pt)) := by
      rw [hx]; simp [xc, hc]
    have key : k2 * u / normS (p * k1⁻¹) = k1 * k2 ∨ k2 * u / normS (p * k1⁻¹) = -(k1 * k2) := by
      rcases eq_or_eq_neg_of_xc hxc with h | h
      · exact Or.inl (smul_G_inj.1 h)
      · exact Or.inr (smul_G_inj.1 (by rw [h, neg_smul]))
    rcases normS_cases (p * k1⁻¹) with h | h <;> rw [h] at key hne <;> rcases key with e | e <;>
      rw [div_eq_iff hne] at e
    · left
      have : k2 * u = k2 * p := by rw [e]; field_simp
      exact (mul_left_cancel₀ hk2 this).symm
    · right
      have : k2 * u = k2 * -p := by rw [e]; field_simp
      rw [mul_left_cancel₀ hk2 this, neg_neg]
    · right
      have : k2 * u = k2 * -p := by rw [e]; field_simp
      rw [mul_left_cancel₀ hk2 this, neg_neg]
    · left
      have : k2 * u = k2 * p := by rw [e]; field_simp
      exact (mul_left_cancel₀ hk2 this).symm
  · intro h
    have hcase : normS (p * k1⁻¹) = u * k1⁻¹ ∨ normS (p * k1⁻¹) = -(u * k1⁻¹) := by
      rcases normS_cases (p * k1⁻¹) with e | e <;> rcases h with h | h <;> rw [e, h]
      · exact Or.inl rfl
      · right; ring
      · exact Or.inr rfl
      · left; ring
    have huk : u * k1⁻¹ ≠ 0 := mul_ne_zero hs (inv_ne_zero hk1)
    have hne : normS (p * k1⁻¹) ≠ 0 := by
      rcases hcase with e | e <;> rw [e]
      · exact huk
      · exact neg_ne_zero.2 huk
    refine ⟨hne, h2, ?_⟩
    have hxc : xc ((k2 * u / normS (p * k1⁻¹)) • (G : Pt)) = some x := by
      rcases hcase with e | e <;> rw [e]
      · rw [show k2 * u / (u * k1⁻¹) = k1 * k2 by field_simp]
        exact hx
      · rw [show k2 * u / -(u * k1⁻¹) = -(k1 * k2) by field_simp, neg_smul, xc_neg]
        exact hx
    simp only [xc, Option.map_eq_some_iff] at hxc
    obtain ⟨⟨x', y'⟩, hc, rfl⟩ := hxc
    exact ⟨_, y', hc, rfl⟩

/-- Nothing exceptional happens in a signing: party one's and party two's nonces are not zero, the
x-coordinate of the nonce point is a scalar, the right plaintext is not 0 and not `- n / 4` modulo the group
order. -/
structure RegularSigning (n : ℕ) (x1 x2 k1 k2 : Sc) (m rho r : ℤ) : Prop where
  k1_ne : k1 ≠ 0
  k2_ne : k2 ≠ 0
  rho_nonneg : 0 ≤ rho
  rho_lt : rho < (q : ℤ) ^ 2
  r_unit : Int.gcd r n = 1
  plain : ∀ x, xc ((k1 * k2) • (G : Pt)) = some x → x < q ∧
    k2⁻¹ * ((m : Sc) + (x : Sc) * (x1 * x2)) ≠ 0 ∧
    4 * (k2⁻¹ * ((m : Sc) + (x : Sc) * (x1 * x2))) + (n : Sc) ≠ 0

theorem oddMultiple_spec (v : Sc) (l : ℕ) :
    ∃ d, oddMultiple v l = 2 * d + 1 ∧ d < q ∧ ((oddMultiple v l : ℕ) : Sc) = v * 2 ^ (l + 1) := by
  have hodd := q_odd
  have hlt := ZMod.val_lt (v * 2 ^ (l + 1))
  unfold oddMultiple
  simp only
  split_ifs with h
  · refine ⟨(v * 2 ^ (l + 1)).val / 2, by omega, by omega, ?_⟩
    rw [ZMod.natCast_val, ZMod.cast_id', id]
  · refine ⟨((v * 2 ^ (l + 1)).val + q) / 2, by omega, by omega, ?_⟩
    rw [Nat.cast_add, ZMod.natCast_val, ZMod.cast_id', id, CharP.cast_eq_zero, add_zero]

/-- One signing discloses the next bit. -/
theorem askBit_spec {dk : DecKey} (hv : dk.Valid) (hodd : dk.n % 2 = 1)
    (hn : 4 * ((q : ℤ) ^ 3 + (q : ℤ) ^ 2) ≤ dk.n) (hqn : ¬ q ∣ dk.n) {x1 x2 k1 k2 : Sc} {m rho r rk : ℤ}
    (hrk : Int.gcd rk dk.n = 1) (h : RegularSigning dk.n x1 x2 k1 k2 m rho r) {l y z : ℕ}
    (hz : x1.val = y + 2 ^ l * z) :
    askBit dk.n (Paillier.encrypt dk.n x1.val rk) x2 ((x1 * x2) • G)
      (seenBy ⟨x1, dk, rk⟩ k1 k2 m rho r) l y = y + 2 ^ l * (z % 2) := by
  obtain ⟨hk1, hk2, h0, h1, hr, hpl⟩ := h
  have hR : (k1 * k2) • (G : Pt) ≠ 0 := by
    rw [ne_eq, smul_G_eq_zero]; exact mul_ne_zero hk1 hk2
  obtain ⟨x, yy, hc⟩ := exists_coords hR
  have hx : xc ((k1 * k2) • (G : Pt)) = some x := by simp [xc, hc]
  obtain ⟨hlt, hs, hno⟩ := hpl x hx
  have hx2 : xc (k2 • (k1 • (G : Pt))) = some x := by rw [← mul_smul, mul_comm]; exact hx
  have hx1 : xc (k1 • (k2 • (G : Pt))) = some x := by rw [← mul_smul]; exact hx
  set v : Sc := k2⁻¹ * ((x : Sc) * x2) with hvdef
  set u : ℕ := (k2⁻¹ * (m : Sc)).val with hudef
  obtain ⟨d, hd, hdlt, hwc⟩ := oddMultiple_spec v l
  set w := oddMultiple v l with hw
  have hvc : ((v.val : ℕ) : Sc) = v := by rw [ZMod.natCast_val, ZMod.cast_id', id]
  have huc : ((u : ℕ) : Sc) = k2⁻¹ * (m : Sc) := by rw [hudef, ZMod.natCast_val, ZMod.cast_id', id]
  have hxc1 : ((x1.val : ℕ) : Sc) = x1 := by rw [ZMod.natCast_val, ZMod.cast_id', id]
  set a : ℤ := rho * q + u + v.val * y with ha
  -- bounds
  have hqodd := q_odd
  have hq1 := q_one_lt
  have hQ : 3 ≤ q := by omega
  have hvlt : v.val < q := ZMod.val_lt _
  have hult : u < q := ZMod.val_lt _
  have hxlt : x1.val < q := ZMod.val_lt _
  have hylt : y < q := by omega
  have hzlt : z < q := by
    have : z ≤ 2 ^ l * z := Nat.le_mul_of_pos_left _ (by positivity)
    omega
  have hvy : v.val * y ≤ q * q := Nat.mul_le_mul hvlt.le hylt.le
  have hwt : ∀ t, t ≤ z → w * t ≤ 2 * q * q := fun t ht => Nat.mul_le_mul (by omega) (by omega)
  have hrq : rho * q ≤ ((q : ℤ) ^ 2 - 1) * q := by
    apply mul_le_mul_of_nonneg_right (by omega) (by positivity)
  have hrq0 : 0 ≤ rho * q := by positivity
  have hq3 : 3 * ((q : ℤ) * q) ≤ (q : ℤ) ^ 3 := by
    have : (3 : ℤ) ≤ q := by exact_mod_cast hQ
    have h4 : 0 ≤ (q : ℤ) * q := by positivity
    calc 3 * ((q : ℤ) * q) ≤ q * ((q : ℤ) * q) := mul_le_mul_of_nonneg_right this h4
      _ = (q : ℤ) ^ 3 := by ring
  have hq2 : 3 * (q : ℤ) ≤ (q : ℤ) * q := mul_le_mul_of_nonneg_right (by exact_mod_cast hQ) (by positivity)
  have hvy' : (v.val : ℤ) * y ≤ (q : ℤ) * q := by exact_mod_cast hvy
  have hrq' : ((q : ℤ) ^ 2 - 1) * q = (q : ℤ) ^ 3 - q := by ring
  have hsq : (q : ℤ) ^ 2 = (q : ℤ) * q := by ring
  -- the plaintext
  have hcenc := Paillier.isEnc_encrypt dk.n x1.val rk
  have henc := (hcenc.mul (w * ((dk.n + 1) / 2) ^ (l + 1) % dk.n)).add (Paillier.isEnc_encrypt dk.n
    ((a - (w * ((dk.n + 1) / 2) ^ (l + 1) % dk.n : ℕ) * y) % dk.n) r)
  have hd2 := Paillier.decrypt_spec hv henc (gcd_pow_mul _ hrk hr)
  have hsig := compute_spec (s1 := ⟨x1, dk, rk⟩) (e1 := ⟨k1 • G, k1⟩) (R2 := k2 • G) hx1 hk1 hd2
  have hu : k2⁻¹ * ((m : Sc) + (x : Sc) * (x1 * x2)) = v * x1 + u := by rw [huc, hvdef]; ring
  have hax : ((a : ℤ) : Sc) = u + v * y := by
    rw [ha]
    push_cast
    rw [hvc, CharP.cast_eq_zero, mul_zero, zero_add]
  have hx1z : x1 = y + 2 ^ l * (z : Sc) := by rw [← hxc1, hz]; push_cast; ring
  have hask : ∀ pt : ℤ, ((w * ((dk.n + 1) / 2) ^ (l + 1) % dk.n : ℕ) * (x1.val : ℤ) +
      (a - (w * ((dk.n + 1) / 2) ^ (l + 1) % dk.n : ℕ) * y) % dk.n) % dk.n = pt →
      askBit dk.n (Paillier.encrypt dk.n x1.val rk) x2 ((x1 * x2) • G)
        (seenBy ⟨x1, dk, rk⟩ k1 k2 m rho r) l y =
      if verify ⟨(normS ((pt : Sc) * k1⁻¹)).val, (x : ℤ) % q⟩ ((x1 * x2) • (G : Pt)) m = .ok () then y
        else y + 2 ^ l := by
    rintro pt rfl
    unfold askBit
    simp only [seenBy, hx2]
    unfold craftedPartial
    simp only
    rw [hsig]
    rfl
  rcases Nat.mod_two_eq_zero_or_one z with hpar | hpar
  · obtain ⟨t, rfl⟩ : ∃ t, z = 2 * t := ⟨z / 2, by omega⟩
    have hwt' : (w : ℤ) * t ≤ 2 * q * q := by exact_mod_cast hwt t (by omega)
    have hwt0 : 0 ≤ (w : ℤ) * t := by positivity
    have hvy0 : 0 ≤ (v.val : ℤ) * y := by positivity
    have hp := plain_zero (w := w) (l := l) (y := y) (t := t) (a := a) hodd _ (X := (x1.val : ℤ))
      (by rw [hz]; push_cast; ring) rfl (by omega) (by
        generalize (w : ℤ) * t = A at hwt' ⊢
        generalize (v.val : ℤ) * y = B at *
        generalize (q : ℤ) ^ 3 = C at *
        rw [hsq] at hn
        rw [mul_assoc] at hwt'
        generalize (q : ℤ) * q = D at *
        omega)
    rw [hask _ hp, hpar, if_pos, mul_zero, add_zero]
    rw [accept_iff hk1 hk2 hx hlt hs]
    left
    rw [hu]
    push_cast
    rw [hax, hwc]
    push_cast at hx1z
    linear_combination (-v) * hx1z
  · obtain ⟨t, rfl⟩ : ∃ t, z = 2 * t + 1 := ⟨z / 2, by omega⟩
    have hwt' : (w : ℤ) * t ≤ 2 * q * q := by exact_mod_cast hwt t (by omega)
    have hwt0 : 0 ≤ (w : ℤ) * t := by positivity
    have hvy0 : 0 ≤ (v.val : ℤ) * y := by positivity
    have hhalf : (((dk.n + 1) / 2 : ℕ) : ℤ) * 2 = dk.n + 1 := by
      have : (dk.n + 1) / 2 * 2 = dk.n + 1 := by omega
      exact_mod_cast this
    have hp := plain_one (w := w) (d := d) (l := l) (y := y) (t := t) (a := a) hodd _ (X := (x1.val : ℤ)) hd
      (by rw [hz]; push_cast; ring) rfl (by omega) (by
        generalize (w : ℤ) * t = A at hwt' ⊢
        generalize (v.val : ℤ) * y = B at *
        generalize (q : ℤ) ^ 3 = C at *
        rw [hsq] at hn
        rw [mul_assoc] at hwt'
        generalize (q : ℤ) * q = D at *
        omega)
    rw [hask _ hp, hpar, if_neg, mul_one]
    rw [accept_iff hk1 hk2 hx hlt hs]
    have hpt : 2 * ((w * t + d + ((dk.n + 1) / 2 : ℕ) + a : ℤ) : Sc) =
        2 * (k2⁻¹ * ((m : Sc) + (x : Sc) * (x1 * x2))) + (dk.n : Sc) := by
      have e1 : 2 * (w * t + d + ((dk.n + 1) / 2 : ℕ) + a : ℤ) = w * (2 * t + 1) + dk.n + 2 * a := by
        have : (w : ℤ) = 2 * d + 1 := by exact_mod_cast hd
        linear_combination hhalf - this
      have e2 := congrArg (Int.cast (R := Sc)) e1
      rw [Int.cast_mul, Int.cast_ofNat] at e2
      rw [e2, hu]
      push_cast
      rw [hax, hwc]
      nth_rw 1 [hx1z]
      push_cast
      ring
    rintro (e | e) <;> rw [e] at hpt
    · exact hqn ((ZMod.natCast_eq_zero_iff _ _).1 (by linear_combination -hpt))
    · exact hno (by linear_combination -hpt)

/-- **C115 fails.** Party two learns party one's whole share, and so the private key, from as many signings
as a scalar has bits.  In each of them it sends a crafted ciphertext instead of its partial signature and
looks only whether the result is a valid signature (`Spec/ShareAttack`). -/
theorem C115_share_extracted {dk : DecKey} (hv : dk.Valid) (hodd : dk.n % 2 = 1)
    (hn : 4 * ((q : ℤ) ^ 3 + (q : ℤ) ^ 2) ≤ dk.n) (hqn : ¬ q ∣ dk.n) (x1 x2 : Sc) {rk : ℤ}
    (hrk : Int.gcd rk dk.n = 1) (signings : List (Sc × Sc × ℤ × ℤ × ℤ))
    (hreg : ∀ s ∈ signings, RegularSigning dk.n x1 x2 s.1 s.2.1 s.2.2.1 s.2.2.2.1 s.2.2.2.2)
    (hlen : q ≤ 2 ^ signings.length) :
    let key := PaillierKeyPair.generate dk ⟨x1 • G, x1⟩ rk
    let s1 := Party1Private.set_private_key ⟨x1 • G, x1⟩ key
    let Y := compute_pubkey s1 (x2 • G)
    let found := askBits key.ek key.encrypted_share x2 Y
      (signings.map fun s => seenBy s1 s.1 s.2.1 s.2.2.1 s.2.2.2.1 s.2.2.2.2) 0 0
    found = x1.val ∧ ((found : Sc) * x2) • G = Y := by
  intro key s1 Y found
  have hY : Y = (x1 * x2) • G := (mul_smul x1 x2 G).symm
  have main : ∀ (ss : List (Sc × Sc × ℤ × ℤ × ℤ)) (l y z : ℕ),
      (∀ s ∈ ss, RegularSigning dk.n x1 x2 s.1 s.2.1 s.2.2.1 s.2.2.2.1 s.2.2.2.2) →
      x1.val = y + 2 ^ l * z → z < 2 ^ ss.length →
      askBits dk.n (Paillier.encrypt dk.n x1.val rk) x2 ((x1 * x2) • G)
        (ss.map fun s => seenBy ⟨x1, dk, rk⟩ s.1 s.2.1 s.2.2.1 s.2.2.2.1 s.2.2.2.2) l y = x1.val := by
    intro ss
    induction ss with
    | nil =>
      intro l y z _ hz hlt
      simp only [List.length_nil, pow_zero] at hlt
      obtain rfl : z = 0 := by omega
      simpa [askBits] using hz.symm
    | cons s ss ih =>
      intro l y z hss hz hlt
      rw [List.map_cons, askBits, askBit_spec hv hodd hn hqn hrk (hss s (by simp)) hz]
      refine ih (l + 1) _ (z / 2) (fun s hs => hss s (by simp [hs])) ?_ ?_
      · rw [hz]
        have := Nat.div_add_mod z 2
        calc y + 2 ^ l * z = y + 2 ^ l * (2 * (z / 2) + z % 2) := by rw [this]
          _ = _ := by ring
      · rw [List.length_cons, pow_succ] at hlt
        omega
  have hfound : found = x1.val := by
    have := main signings 0 0 x1.val hreg (by simp) ((ZMod.val_lt x1).trans_le hlen)
    show askBits dk.n _ x2 Y _ 0 0 = _
    rw [hY]
    exact this
  refine ⟨hfound, ?_⟩
  rw [hfound, hY, ZMod.natCast_val, ZMod.cast_id', id]

/-- **C115** (CCLST19, partial). With class group encryption the plaintexts are scalars, and the attack has
nothing to work with: if party two sends any combination `v x1 + b` of the encrypted share, then whether
party one's answer is a valid signature is the same for all shares `x1` outside a set of at most three,
which party two determines by its choice.

Missing with respect to the property: ciphertexts that are not computed from the encrypted share in this
way. -/
theorem C115_class_group_partial [CL] (x2 k2 : Sc) (hk2 : k2 ≠ 0) (m v : ℤ) (b : Sc) {x : ℕ} (hlt : x < q) :
    ∃ (S : Finset Sc) (valid : Prop), S.card ≤ 3 ∧ ∀ x1 ∉ S, ∀ k1 : Sc, k1 ≠ 0 →
      xc ((k1 * k2) • (G : Pt)) = some x → ∀ (seed : ℤ) (rk re r : ℕ),
      let h := CCLST19.HSMCL.generate ⟨x1 • G, x1⟩ seed rk re
      let s1 := CCLST19.Party1Private.set_private_key ⟨x1 • G, x1⟩ h.1
      let c3 := CL.eval_sum (CL.encrypt h.1.cl_group h.1.public_ b r) (CL.eval_scal h.1.encrypted_share v)
      ∃ sig, CCLST19.Signature.compute h.1 s1 c3 ⟨k1 • G, k1⟩ (k2 • G) = .ok sig ∧
        (CCLST19.verify sig (CCLST19.compute_pubkey s1 (x2 • G)) m = .ok () ↔ valid) := by
  classical
  set α : Sc := k2⁻¹ * ((x : Sc) * x2) with hα
  set β : Sc := k2⁻¹ * (m : Sc) with hβ
  refine ⟨{-(b - β) / (v - α), -(b + β) / (v + α), -β / α},
    ¬ (α = 0 ∧ β = 0) ∧ (((v : Sc) = α ∧ b = β) ∨ ((v : Sc) = -α ∧ b = -β)), Finset.card_le_three, ?_⟩
  intro x1 hx1 k1 hk1 hx seed rk re r h s1 c3
  simp only [Finset.mem_insert, Finset.mem_singleton, not_or] at hx1
  obtain ⟨hS1, hS2, hS3⟩ := hx1
  have lin : ∀ a c : Sc, x1 ≠ -c / a → (a * x1 + c = 0 ↔ a = 0 ∧ c = 0) := by
    intro a c hne
    constructor
    · intro h0
      by_cases ha : a = 0
      · rw [ha, zero_mul, zero_add] at h0
        exact ⟨ha, h0⟩
      · exact absurd ((eq_div_iff ha).2 (by linear_combination h0)) hne
    · rintro ⟨rfl, rfl⟩
      rw [zero_mul, zero_add]
  have hx1' : xc (k1 • (k2 • (G : Pt))) = some x := by rw [← mul_smul]; exact hx
  obtain ⟨i1, hi1, hi1c, -⟩ := modInv_sc (k := k1) hk1
  have henc := CL.isEnc_sum h.1.cl_group h.1.public_ _ _ _ _
    (CL.isEnc_encrypt h.1.cl_group h.1.public_ b r)
    (CL.isEnc_scal h.1.cl_group h.1.public_ _ _ v (CL.isEnc_verifiably h.1.cl_group h.1.public_ x1 re))
  have hdec : CL.decrypt h.1.cl_group s1.hsmcl_priv c3 = b + (v : Sc) * x1 :=
    CL.decrypt_isEnc h.1.cl_group rk c3 _ henc
  have hst : (i1 * ((CL.decrypt h.1.cl_group s1.hsmcl_priv c3).val : ℤ)) % (q : ℤ) =
      (((b + (v : Sc) * x1) * k1⁻¹).val : ℤ) := by
    rw [emod_eq_val, hdec, Int.cast_mul, val_cast, hi1c, mul_comm]
  refine ⟨⟨(normS ((b + (v : Sc) * x1) * k1⁻¹)).val, (x : ℤ) % q⟩, ?_, ?_⟩
  · unfold CCLST19.Signature.compute
    dsimp only
    rw [hx1', hi1]
    show Res.ok _ = _
    rw [hst, min_eq_normS]
  have hY : CCLST19.compute_pubkey s1 (x2 • G) = (x1 * x2) • G := (mul_smul x1 x2 G).symm
  have hu : k2⁻¹ * ((m : Sc) + (x : Sc) * (x1 * x2)) = α * x1 + β := by rw [hα, hβ]; ring
  rw [hY]
  have hcc : CCLST19.verify ⟨(normS ((b + (v : Sc) * x1) * k1⁻¹)).val, (x : ℤ) % q⟩
      ((x1 * x2) • (G : Pt)) m = .ok () ↔
      Lindell17.verify ⟨(normS ((b + (v : Sc) * x1) * k1⁻¹)).val, (x : ℤ) % q⟩
      ((x1 * x2) • (G : Pt)) m = .ok () := by
    by_cases hs : ((((normS ((b + (v : Sc) * x1) * k1⁻¹)).val : ℕ) : ℤ) : Sc) = 0
    · rw [(C06_cclst_verify _ _ _).2 hs]
      simp only [reduceCtorEq, false_iff]
      intro h
      exact ((C05_l17_verify_ok_iff _ _ _).1 h).1 hs
    · rw [(C06_cclst_verify _ _ _).1 hs]
  rw [hcc]
  by_cases hz : α * x1 + β = 0
  · have h0 := (lin α β hS3).1 hz
    refine iff_of_false (fun hok => ?_) (fun hok => hok.1 h0)
    obtain ⟨hs, -, x', y', hc, -⟩ := (C05_l17_verify_ok_iff _ _ _).1 hok
    have hm : (m : Sc) + (((x : ℤ) % q : ℤ) : Sc) * (x1 * x2) = 0 := by
      have e : k2⁻¹ * ((m : Sc) + (((x : ℤ) % q : ℤ) : Sc) * (x1 * x2)) = 0 := by
        rw [castMod, Int.cast_natCast, hu, hz]
      exact (mul_eq_zero.1 e).resolve_left (inv_ne_zero hk2)
    rw [← mul_smul, ← add_smul, show ∀ S : Sc, (m : Sc) / S + (((x : ℤ) % q : ℤ) : Sc) / S * (x1 * x2) =
      ((m : Sc) + (((x : ℤ) % q : ℤ) : Sc) * (x1 * x2)) / S from fun S => by ring, hm, zero_div, zero_smul,
      coords_zero] at hc
    cases hc
  · rw [accept_iff hk1 hk2 hx hlt (by rw [hu]; exact hz), hu]
    have h0 : ¬ (α = 0 ∧ β = 0) := fun h => hz ((lin α β hS3).2 h)
    have e1 : b + (v : Sc) * x1 = α * x1 + β ↔ ((v : Sc) - α) * x1 + (b - β) = 0 := by
      rw [← sub_eq_zero]; ring_nf
    have e2 : b + (v : Sc) * x1 = -(α * x1 + β) ↔ ((v : Sc) + α) * x1 + (b + β) = 0 := by
      rw [← sub_eq_zero]; ring_nf
    rw [e1, e2, lin _ _ hS1, lin _ _ hS2, sub_eq_zero, sub_eq_zero, add_eq_zero_iff_eq_neg,
      add_eq_zero_iff_eq_neg]
    exact ⟨fun h => ⟨h0, h⟩, fun h => h.2⟩

end

/-! ### Examples: the 31-point group -/

section
attribute [local instance] Toy.crypto

/-- C115's hypotheses hold for five signings of messages 1 to 5 with the nonces 5 and 5, and the share 9. -/
example := C115_share_extracted toyKey2_valid (by decide) (by decide) (by decide) (9 : ZMod 31) (5 : ZMod 31)
  (rk := 5) (by decide) ([1, 2, 3, 4, 5].map fun m => ((5 : ZMod 31), (5 : ZMod 31), m, 900, 9))
  (fun s hs => by
    simp only [List.map_cons, List.map_nil, List.mem_cons, List.not_mem_nil, or_false] at hs
    have hx : xc (((5 : ZMod 31) * (5 : ZMod 31)) • (G : Pt)) = some 29 := by decide +kernel
    rcases hs with rfl | rfl | rfl | rfl | rfl <;>
    exact ⟨by decide, by decide, by decide, by decide, by decide, fun x h => by
      rw [hx] at h
      cases h
      decide +kernel⟩)
  (by decide)

/-- The bits of 9 come out one by one. -/
example : askBits toyKey2.n (Paillier.encrypt toyKey2.n 9 5) (5 : ZMod 31) ((45 : ZMod 31) • (G : Pt))
    ([1, 2, 3, 4, 5].map fun m => seenBy ⟨(9 : ZMod 31), toyKey2, 5⟩ (5 : ZMod 31) (5 : ZMod 31) m 900 9) 0 0 =
    9 := by decide +kernel

attribute [local instance] CL.trivial

example := C115_class_group_partial (5 : ZMod 31) (5 : ZMod 31) (by decide) 10 3 (4 : ZMod 31) (x := 29)
  (by decide)
example : xc (((5 : ZMod 31) * (5 : ZMod 31)) • (G : Pt)) = some 29 := by decide +kernel

end
end Verif.Props
