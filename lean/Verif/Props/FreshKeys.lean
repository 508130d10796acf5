import Verif.Props.FreshNonces
import Verif.Props.StartedTwice
import Verif.Spec.FreshKeys

/-!
# C142: different key generations give different keys

A birthday bound over the secrets that one party draws in several key generations.
-/

namespace Verif.Props

open EC Crypto Spec

section
variable [Crypto]

theorem birthday_key {N : ℕ} (c : ℚ) (E : Fin N → Fin N → {z : Sc // z ≠ 0} → {z : Sc // z ≠ 0} → Prop)
    (h : ∀ i j u, chance (fun v => E i j u v) ≤ c) :
    chance (fun ω : Fin N → {z : Sc // z ≠ 0} => ∃ i j, i < j ∧ E i j (ω i) (ω j)) ≤ N * (N - 1) / 2 * c :=
  birthday h

/-- Outcomes each of which comes from one draw are rarely equal. -/
theorem outcomes_differ {β : Type} {N : ℕ} {values : Fin N → Set β} {outcome : Fin N → Sc → β → Prop}
    (h : ∀ a, EachOnce {u : Sc | u ≠ 0} (values a) (outcome a)) :
    chance (fun u : Fin N → {z : Sc // z ≠ 0} => ∃ a b, a < b ∧ ∃ Y, outcome a (u a).1 Y ∧ outcome b (u b).1 Y) ≤
      N * (N - 1) / 2 * (1 / ((q : ℚ) - 1)) := by
  refine birthday_key _ (fun a b u v => ∃ Y, outcome a u.1 Y ∧ outcome b v.1 Y) fun a b u => ?_
  obtain ⟨Y, -, hY⟩ := (h a).one u.1 u.2
  by_cases hb : Y ∈ values b
  · obtain ⟨v, -, hv⟩ := (h b).hit Y hb
    refine chance_one_scalar v ?_
    rintro w ⟨Y', h1, h2⟩
    obtain rfl := hY Y' h1
    exact hv w.1 ⟨w.2, h2⟩
  · refine chance_one_scalar 0 ?_
    rintro w ⟨Y', h1, h2⟩
    obtain rfl := hY Y' h1
    exact absurd ((h b).mem w.1 w.2 _ h2) hb

/-- **C142**, GG20. Among `N` honest key generations, of any sizes, in each of which the secret of one party is drawn and
all other random values are fixed, two end with the same public key with chance at most `N (N - 1) / 2 / (q - 1)`. -/
theorem C142_gg20 {N : ℕ} {t n i : Fin N → ℕ} (ht : ∀ a, t a < n a) (hn : ∀ a, n a < q) (hi : ∀ a, i a < n a)
    (rnd : Fin N → ℕ → GG20.KeygenRandomness) (hon : ∀ a, ∀ k < n a, GG20.Keygen.HonestRandomness (t a) (rnd a k)) :
    chance (fun u : Fin N → {z : Sc // z ≠ 0} => ∃ a b, a < b ∧ ∃ Y,
      Gg20Key (t a) (n a) (i a) (rnd a) (u a).1 Y ∧ Gg20Key (t b) (n b) (i b) (rnd b) (u b).1 Y) ≤
      N * (N - 1) / 2 * (1 / ((q : ℚ) - 1)) :=
  outcomes_differ (outcome := fun a u Y => Gg20Key (t a) (n a) (i a) (rnd a) u Y)
    fun a => C117_keygen (ht a) (hn a) (hi a) (rnd a) (hon a)

/-- **C142**, GG18 demo. -/
theorem C142_gg18 (A : Aead) {N : ℕ} {t n i : Fin N → ℕ} (ht : ∀ a, t a < n a) (hn : ∀ a, n a < q)
    (hi : ∀ a, i a < n a) (rnd : Fin N → ℕ → Demo.Keygen.Rand)
    (hon : ∀ a k, 1 ≤ k → k ≤ n a → Spec.GG18.HonestKeygenRand (t a) (rnd a k)) :
    chance (fun u : Fin N → {z : Sc // z ≠ 0} => ∃ a b, a < b ∧ ∃ Y,
      Gg18Key A (t a) (n a) (i a) (rnd a) (u a).1 Y ∧ Gg18Key A (t b) (n b) (i b) (rnd b) (u b).1 Y) ≤
      N * (N - 1) / 2 * (1 / ((q : ℚ) - 1)) :=
  outcomes_differ (outcome := fun a u Y => Gg18Key A (t a) (n a) (i a) (rnd a) u Y)
    fun a => C117_gg18_keygen A (ht a) (hn a) (hi a) (rnd a) (hon a)

/-- **C142**, Lindell17: over the shares of party one, and over those of party two. -/
theorem C142_lindell {N : ℕ} (c t1 t2 : Fin N → Sc) (b1 b2 r : Fin N → ℤ) (dk : Fin N → DecKey) (hc : ∀ a, c a ≠ 0) :
    chance (fun u : Fin N → {z : Sc // z ≠ 0} => ∃ a b, a < b ∧ ∃ Y,
      LindellKey (u a).1 (c a) (t1 a) (t2 a) (b1 a) (b2 a) (r a) (dk a) Y ∧
      LindellKey (u b).1 (c b) (t1 b) (t2 b) (b1 b) (b2 b) (r b) (dk b) Y) ≤ N * (N - 1) / 2 * (1 / ((q : ℚ) - 1)) ∧
    chance (fun u : Fin N → {z : Sc // z ≠ 0} => ∃ a b, a < b ∧ ∃ Y,
      LindellKey (c a) (u a).1 (t1 a) (t2 a) (b1 a) (b2 a) (r a) (dk a) Y ∧
      LindellKey (c b) (u b).1 (t1 b) (t2 b) (b1 b) (b2 b) (r b) (dk b) Y) ≤ N * (N - 1) / 2 * (1 / ((q : ℚ) - 1)) :=
  ⟨outcomes_differ (outcome := fun a u Y => LindellKey u (c a) (t1 a) (t2 a) (b1 a) (b2 a) (r a) (dk a) Y)
      fun a => (C117_lindell_keygen (t1 a) (t2 a) (b1 a) (b2 a) (r a) (dk a) (hc a)).1,
    outcomes_differ (outcome := fun a u Y => LindellKey (c a) u (t1 a) (t2 a) (b1 a) (b2 a) (r a) (dk a) Y)
      fun a => (C117_lindell_keygen (t1 a) (t2 a) (b1 a) (b2 a) (r a) (dk a) (hc a)).2⟩

theorem cclKey_eq [CL] (secret x2 t1 t2 : Sc) (b1 b2 seed : ℤ) (rk re : ℕ) :
    CclKey secret x2 t1 t2 b1 b2 seed rk re = (((secret.val / 3 : ℕ) : Sc) * x2) • G := by
  refine ((C57_keygen secret x2 t1 t2 b1 b2 seed rk re).2.2.2.2.1).trans ?_
  show ((((secret.val : ℤ) / 3 : ℤ) : Sc) * x2) • (G : Pt) = _
  rw [show ((secret.val : ℤ) / 3 : ℤ) = ((secret.val / 3 : ℕ) : ℤ) by push_cast; rfl, Int.cast_natCast]

/-- **C142**, CCLST19, over the shares of party two, if party one does not draw `0`, `1` or `2`. -/
theorem C142_cclst_party_two [CL] {N : ℕ} (secret t1 t2 : Fin N → Sc) (b1 b2 seed : Fin N → ℤ) (rk re : Fin N → ℕ)
    (hs : ∀ a, 3 ≤ (secret a).val) :
    chance (fun u : Fin N → {z : Sc // z ≠ 0} => ∃ a b, a < b ∧
      CclKey (secret a) (u a).1 (t1 a) (t2 a) (b1 a) (b2 a) (seed a) (rk a) (re a) =
        CclKey (secret b) (u b).1 (t1 b) (t2 b) (b1 b) (b2 b) (seed b) (rk b) (re b)) ≤
      N * (N - 1) / 2 * (1 / ((q : ℚ) - 1)) := by
  refine birthday_key _ (fun a b u v =>
      CclKey (secret a) u.1 (t1 a) (t2 a) (b1 a) (b2 a) (seed a) (rk a) (re a) =
        CclKey (secret b) v.1 (t1 b) (t2 b) (b1 b) (b2 b) (seed b) (rk b) (re b)) fun a b u => ?_
  have hne : (((secret b).val / 3 : ℕ) : Sc) ≠ 0 := fun h => by
    have hd := (ZMod.natCast_eq_zero_iff _ _).1 h
    have h3 := hs b
    exact absurd (Nat.le_of_dvd (by omega) hd)
      (not_le.2 (lt_of_le_of_lt (Nat.div_le_self _ _) (ZMod.val_lt (secret b))))
  refine chance_one_scalar ((((secret a).val / 3 : ℕ) : Sc) * u.1 / (((secret b).val / 3 : ℕ) : Sc)) fun v hv => ?_
  rw [cclKey_eq, cclKey_eq, smul_G_inj] at hv
  rw [hv, mul_div_cancel_left₀ _ hne]

/-- **C142**, CCLST19: over the numbers that party one draws and of which it takes a third as its share, the bound is
three times as large. -/
theorem C142_cclst [CL] {N : ℕ} (x2 t1 t2 : Fin N → Sc) (b1 b2 seed : Fin N → ℤ) (rk re : Fin N → ℕ)
    (hx : ∀ a, x2 a ≠ 0) :
    chance (fun u : Fin N → {z : Sc // z ≠ 0} => ∃ a b, a < b ∧
      CclKey (u a).1 (x2 a) (t1 a) (t2 a) (b1 a) (b2 a) (seed a) (rk a) (re a) =
        CclKey (u b).1 (x2 b) (t1 b) (t2 b) (b1 b) (b2 b) (seed b) (rk b) (re b)) ≤
      N * (N - 1) / 2 * (3 / ((q : ℚ) - 1)) := by
  refine birthday_key _ (fun a b u v => CclKey u.1 (x2 a) (t1 a) (t2 a) (b1 a) (b2 a) (seed a) (rk a) (re a) =
        CclKey v.1 (x2 b) (t1 b) (t2 b) (b1 b) (b2 b) (seed b) (rk b) (re b)) fun a b u => ?_
  let w : ℕ := ((((u.1.val / 3 : ℕ) : Sc) * x2 a) / x2 b).val
  have hm := chance_mem (Ω := {z : Sc // z ≠ 0}) (f := Subtype.val) Subtype.val_injective
    [((3 * w : ℕ) : Sc), ((3 * w + 1 : ℕ) : Sc), ((3 * w + 2 : ℕ) : Sc)] (n := 3) le_rfl
  rw [card_nonzero, Nat.cast_ofNat] at hm
  refine le_trans (chance_mono' fun v hv => ?_) hm
  rw [cclKey_eq, cclKey_eq, smul_G_inj] at hv
  have hw : w = v.1.val / 3 := by
    show ((((u.1.val / 3 : ℕ) : Sc) * x2 a) / x2 b).val = _
    rw [hv, mul_div_cancel_right₀ _ (hx b), ZMod.val_natCast, Nat.mod_eq_of_lt]
    exact lt_of_le_of_lt (Nat.div_le_self _ _) (ZMod.val_lt v.1)
  have hv' : v.1 = ((v.1.val : ℕ) : Sc) := (ZMod.natCast_zmod_val v.1).symm
  have h3 : v.1.val = 3 * w ∨ v.1.val = 3 * w + 1 ∨ v.1.val = 3 * w + 2 := by omega
  rw [hv']
  rcases h3 with e | e | e <;> rw [e] <;> simp

end

section
attribute [local instance] Secp256k1.inst

/-- **C142** (the real parameters): on secp256k1 the larger of the bounds is below `2^-127` for up to `2^64` key
generations. -/
theorem C142_secp256k1 (N : ℕ) (hN : N ≤ 2 ^ 64) : (N : ℚ) * (N - 1) / 2 * (3 / ((q : ℚ) - 1)) ≤ 1 / 2 ^ 127 := by
  have hq : (q : ℕ) = Secp256k1.n := rfl
  rw [hq]
  have h1 : (N : ℚ) ≤ 2 ^ 64 := by exact_mod_cast hN
  have h0 : (0 : ℚ) ≤ N := Nat.cast_nonneg N
  have h2 : (N : ℚ) * (N - 1) / 2 ≤ 2 ^ 127 := by nlinarith
  refine (mul_le_mul_of_nonneg_right h2 ?_).trans ?_ <;> norm_num [Secp256k1.n]

end

/-! ### Examples -/

section Examples
attribute [local instance] Toy.crypto
attribute [local instance] CL.trivial

example (A : ZMod 31) : ∃ rnd : ℕ → GG20.KeygenRandomness, (∀ k < 3, GG20.Keygen.HonestRandomness 1 (rnd k)) ∧
    chance (fun u : Fin 2 → {z : ZMod 31 // z ≠ 0} => ∃ a b, a < b ∧ ∃ Y,
      Gg20Key 1 3 1 rnd (u a).1 Y ∧ Gg20Key 1 3 1 rnd (u b).1 Y) ≤
      ((2 : ℕ) : ℚ) * ((2 : ℕ) - 1) / 2 * (1 / ((q : ℚ) - 1)) := by
  obtain ⟨r, hr, -⟩ := honestRandomness_exists 1 (7 : ZMod 31) [A] rfl
  exact ⟨fun _ => r, fun _ _ => hr, C142_gg20 (N := 2) (t := fun _ => 1) (n := fun _ => 3) (i := fun _ => 1)
    (fun _ => by decide) (fun _ => by decide) (fun _ => by decide) (fun _ _ => r) fun _ _ _ => hr⟩

example := C142_gg18 toyAead (N := 2) (t := fun _ => 1) (n := fun _ => 3) (i := fun _ => 2) (fun _ => by decide)
  (fun _ => by decide) (fun _ => by decide) (fun _ => toyKg) fun _ _ => toyKg_honest

example := C142_lindell (N := 2) (fun _ => (9 : ZMod 31)) (fun _ => (3 : ZMod 31)) (fun _ => (4 : ZMod 31)) (fun _ => 1)
  (fun _ => 2) (fun _ => 3) (fun _ => toyKey) fun _ => by decide

example := C142_cclst (N := 2) (fun _ => (9 : ZMod 31)) (fun _ => (3 : ZMod 31)) (fun _ => (4 : ZMod 31)) (fun _ => 1)
  (fun _ => 2) (fun _ => 77) (fun _ => 3) (fun _ => 4) fun _ => by decide

example := C142_cclst_party_two (N := 2) (fun _ => (9 : ZMod 31)) (fun _ => (3 : ZMod 31)) (fun _ => (4 : ZMod 31))
  (fun _ => 1) (fun _ => 2) (fun _ => 77) (fun _ => 3) (fun _ => 4) fun _ => by decide

end Examples

end Verif.Props
