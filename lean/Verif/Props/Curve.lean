import Verif.Secp256k1.Instance
import Verif.Props.Signature

/-!
# C64, C80: the real curve, and what the signature theorems mean on it
-/

namespace Verif.Props

/-! ### C64 -/

section
open Secp256k1

/-- **C64.** The two parameters are prime, the equation has `n - 1` solutions, every solution is a
multiple of the generator, and `n` is the order of every point but the identity. -/
theorem C64_prime_order :
    p.Prime ∧ n.Prime ∧ n < p ∧ p < 2 * n ∧
    Nat.card {xy : ZMod p × ZMod p // xy.2 ^ 2 = xy.1 ^ 3 + 7} + 1 = n ∧
    (∀ (x y : ZMod p) (h : y ^ 2 = x ^ 3 + 7), ∃ k : ℕ, 0 < k ∧ k < n ∧ k • gen = mk x y h) ∧
    (∀ (P : Point) (k : ℕ), P ≠ 0 → (k • P = 0 ↔ n ∣ k)) := by
  refine ⟨p_prime, n_prime, by decide +kernel, by decide +kernel, ?_, ?_, ?_⟩
  · rw [← card_eq]
    have e : Point ≃ Option {xy : ZMod p × ZMod p // xy.2 ^ 2 = xy.1 ^ 3 + 7} :=
      { toFun := fun P => match P with
          | .zero => none
          | .some x y h => some ⟨(x, y), (nonsingular_iff x y).1 h⟩
        invFun := fun o => match o with
          | none => .zero
          | some xy => mk xy.1.1 xy.1.2 xy.2
        left_inv := fun P => by cases P <;> rfl
        right_inv := fun o => by cases o <;> rfl }
    rw [Nat.card_congr e, Finite.card_option]
  · intro x y h
    obtain ⟨k, hk⟩ := exists_smul_gen (mk x y h)
    have hn : (0 : ℤ) < n := by exact_mod_cast n_prime.pos
    have h1 : (k % n).toNat • gen = mk x y h := by
      rw [← natCast_zsmul, Int.toNat_of_nonneg (Int.emod_nonneg _ hn.ne'), ← hk]
      conv_rhs => rw [← Int.emod_add_mul_ediv k n]
      rw [add_zsmul, mul_zsmul, natCast_zsmul, n_smul, add_zero]
    refine ⟨(k % n).toNat, Nat.pos_of_ne_zero fun h0 => ?_, ?_, h1⟩
    · rw [h0, zero_nsmul] at h1
      exact WeierstrassCurve.Affine.Point.some_ne_zero _ h1.symm
    · have := Int.emod_lt_of_pos k hn
      omega
  · intro P k hP
    rw [← addOrderOf_dvd_iff_nsmul_eq_zero, addOrderOf_eq_prime (n_smul P) hP]

/-- **C64.** The interface that all other theorems are stated for is met by this curve: the points, the
group law, the generator, the coordinates and the order are the ones above. -/
theorem C64_interface :
    inst.q = n ∧ inst.p = p ∧ inst.Pt = Point ∧
    (∀ (k : ℕ) (P : Point), (inst.mod.toSMul.smul (k : ZMod n) P : Point) = k • P) ∧
    inst.G = gen ∧ inst.coords gen = some (gx, gy) ∧
    (∀ (x y : ZMod p) (h : y ^ 2 = x ^ 3 + 7), inst.coords (mk x y h) = some (x.val, y.val)) ∧
    (∀ (x y : ZMod p) (h : y ^ 2 = x ^ 3 + 7), -mk x y h = mk x (-y) (by rw [neg_sq]; exact h)) :=
  ⟨rfl, rfl, rfl, fun k P => Nat.cast_smul_eq_nsmul (ZMod n) k P, rfl, by
    rw [show inst.coords gen = some ((gx : K).val, (gy : K).val) from rfl, ZMod.val_natCast,
      ZMod.val_natCast, Nat.mod_eq_of_lt (by decide +kernel), Nat.mod_eq_of_lt (by decide +kernel)],
    fun _ _ _ => rfl, fun _ _ h => neg_mk h⟩

/- `2 G` on the real curve. -/
example : ∃ h, 2 • gen = mk
    (0xC6047F9441ED7D6D3045406E95C07CD85C778E4B8CEF3CA7ABAC09B95C709EE5 : ℕ)
    (0x1AE168FEA63DC339A3C58419466CEAEEF7F632653266D0E1236431A950CFE52A : ℕ) h :=
  smul_of_check g_on_curve (by decide) (by decide +kernel) _ _ (by decide +kernel)

end

open EC Spec

/-! ### C80: how many keys a signature is valid for -/

section
variable [EC]

theorem points_with_x (x : ℕ) : ∃ l : List Pt, l.length ≤ 2 ∧ ∀ P : Pt, xc P = some x → P ∈ l := by
  by_cases h : ∃ P : Pt, xc P = some x
  · obtain ⟨P, hP⟩ := h
    refine ⟨[P, -P], by simp, fun Q hQ => ?_⟩
    rcases eq_or_eq_neg_of_xc (hP.trans hQ.symm) with h | h <;> simp [h]
  · exact ⟨[], by simp, fun P hP => (h ⟨P, hP⟩).elim⟩

/-- **C80 (partial: `r ≠ 0`).** A signature with `r ≠ 0` on a message verifies under at most four public
keys. -/
theorem C80_few_keys_partial (hp : p ≤ 2 * q) (m : ℤ) (r s : Sc) (hr : r ≠ 0) :
    ∃ l : List Pt, l.length ≤ 4 ∧ ∀ Y : Pt, EcdsaEq Y m r s → Y ∈ l := by
  obtain ⟨l1, h1, hl1⟩ := points_with_x r.val
  obtain ⟨l2, h2, hl2⟩ := points_with_x (r.val + q)
  refine ⟨(l1 ++ l2).map (fun P => (s / r) • (P - ((m : Sc) / s) • G)), by simp; omega, ?_⟩
  rintro Y ⟨hs, x, y, hc, hx⟩
  refine List.mem_map.2 ⟨((m : Sc) / s) • G + (r / s) • Y, ?_, ?_⟩
  · have hxc : xc (((m : Sc) / s) • G + (r / s) • Y) = some x := by simp [xc, hc]
    have hlt := (coords_lt _ _ _ hc).1
    have hmod : r.val = x % q := by rw [← hx, ZMod.val_natCast]
    rcases Nat.lt_or_ge x q with h | h
    · have : x = r.val := by rw [hmod, Nat.mod_eq_of_lt h]
      exact List.mem_append_left _ (hl1 _ (this ▸ hxc))
    · have : x = r.val + q := by
        rw [hmod, Nat.mod_eq_sub_mod h, Nat.mod_eq_of_lt (by omega)]; omega
      exact List.mem_append_right _ (hl2 _ (this ▸ hxc))
  · rw [add_sub_cancel_left, ← mul_smul, div_mul_div_cancel₀ hr, div_self hs, one_smul]

/-- **C80 is violated by `r = 0`**: verification does not refuse it, and then the key does not matter. -/
theorem C80_zero_r (m : ℤ) (s : Sc) (recid : ℕ) (Y Y' : Pt) :
    GG20.verify ⟨0, s, recid⟩ Y m = GG20.verify ⟨0, s, recid⟩ Y' m ∧
    GG18.verify ⟨0, s, recid⟩ Y m = GG18.verify ⟨0, s, recid⟩ Y' m := by
  constructor
  · simp [GG20.verify]
  · simp [GG18.verify]

end

/-! ### On the real curve -/

section
attribute [local instance] Secp256k1.inst

open Secp256k1 in
/-- A finite point from numbers -/
theorem real_point {x y : ℕ} (hx : x < Secp256k1.p) (hy : y < Secp256k1.p)
    (h : y ^ 2 % Secp256k1.p = (x ^ 3 + 7) % Secp256k1.p) : ∃ P : Pt, coords P = some (x, y) :=
  ⟨mk x y (on_curve h), by
    show some ((x : K).val, (y : K).val) = _
    rw [ZMod.val_natCast, ZMod.val_natCast, Nat.mod_eq_of_lt hx, Nat.mod_eq_of_lt hy]⟩

/-- There is a point whose x-coordinate is the group order, so `r = 0` occurs. -/
theorem real_x_eq_order : ∃ (P : Pt) (y : ℕ), coords P = some (Secp256k1.n, y) :=
  (real_point (y := 69186903114498750860896505739646488798970448350379198433587849548453839594014)
    (by decide +kernel) (by decide +kernel) (by decide +kernel)).imp fun _ h => ⟨_, h⟩

/-- **C80 is violated on secp256k1**: for every message not divisible by the group order there is a pair
`(0, s)` that verifies under every public key. -/
theorem C80_universal_signature (m : ℤ) (hm : (m : Sc) ≠ 0) (recid : ℕ) :
    ∃ s : Sc, ∀ Y : Pt, GG20.verify ⟨0, s, recid⟩ Y m = .ok () ∧
      GG18.verify ⟨0, s, recid⟩ Y m = .ok () := by
  obtain ⟨P, y, hP⟩ := real_x_eq_order
  obtain ⟨k, rfl⟩ := gen P
  have hk : k ≠ 0 := by
    rintro rfl
    rw [zero_smul, coords_zero] at hP
    cases hP
  have he : ∀ Y : Pt, EcdsaEq Y m 0 ((m : Sc) / k) := fun Y =>
    ⟨div_ne_zero hm hk, Secp256k1.n, y, by
      rw [zero_div, zero_smul, add_zero, div_div_cancel₀ hm, hP], ZMod.natCast_self _⟩
  exact ⟨(m : Sc) / k, fun Y => ⟨(C01_gg20_verify _ Y m).1.2 (he Y), (C02_gg18_verify _ Y m).1 (he Y)⟩⟩

/-- Points with a coordinate between the group order and the field characteristic: one with such an `x`
and a small `y`, one with a small `x` and such a `y`. -/
theorem real_large_coordinates :
    (∃ (P : Pt) (y : ℕ), coords P = some (Secp256k1.n + 2, y) ∧ y < Secp256k1.n) ∧
    (∃ (P : Pt) (x : ℕ), coords P = some (x, Secp256k1.n + 4) ∧ x < Secp256k1.n ∧ (x : Sc) ≠ 0) := by
  constructor
  · obtain ⟨P, hP⟩ := real_point (x := Secp256k1.n + 2)
      (y := 24738801717713540165859037596706942650182884013760002261031960508407254471123)
      (by decide +kernel) (by decide +kernel) (by decide +kernel)
    exact ⟨P, _, hP, by decide +kernel⟩
  · obtain ⟨P, hP⟩ := real_point (y := Secp256k1.n + 4)
      (x := 67803286904417524545415662349772541713923847277516205027886195992321953077349)
      (by decide +kernel) (by decide +kernel) (by decide +kernel)
    refine ⟨P, _, hP, by decide +kernel, ?_⟩
    rw [Ne, ZMod.natCast_eq_zero_iff]
    exact fun h => absurd (Nat.mod_eq_zero_of_dvd h) (by decide +kernel)

/-- **C05 and C06 are violated on secp256k1**: for every message there are a public key and a valid low-s
signature that Lindell17 and CCLST19 verification refuse. -/
theorem C05_rejects_valid_real (m : ℤ) : ∃ (Y : Pt) (r s : Sc), EcdsaEq Y m r s ∧ LowS s ∧ r ≠ 0 ∧
    Lindell17.verify ⟨s.val, r.val⟩ Y m = .err .InvalidSig ∧
    CCLST19.verify ⟨s.val, r.val⟩ Y m = .err .InvalidSig := by
  obtain ⟨P, y, hP, -⟩ := real_large_coordinates.1
  have h2 := EC.two_ne_zero
  have hc : coords (((m : Sc) / 1) • G + ((2 : Sc) / 1) • ((2 : Sc)⁻¹ • (P - (m : Sc) • G))) =
      some (Secp256k1.n + 2, y) := by
    rw [div_one, div_one, ← mul_smul, mul_inv_cancel₀ h2, one_smul, add_sub_cancel, hP]
  have hx : ((Secp256k1.n + 2 : ℕ) : Sc) = 2 := by
    rw [Nat.cast_add, ZMod.natCast_self, zero_add]; rfl
  have h := C05_l17_rejects_valid 2 1 _ m _ y one_ne_zero hc (Nat.le_add_right _ _) hx
  exact ⟨_, 2, 1, h.1, by show ZMod.val (1 : ZMod Secp256k1.n) ≤ _; decide +kernel, h2, h.2,
    (C06_cclst_rejects_valid 2 1 _ m _ y one_ne_zero hc (Nat.le_add_right _ _) hx).2⟩

/-- **C04 is violated on secp256k1**: for every message and every nonce point with a coordinate that is at
least the group order (`real_large_coordinates`) there are a public key and a correct partial signature from
which GG20 outputs a valid signature with a recovery id that does not recover the key. -/
theorem C04_wrong_recid_real (m : ℤ) (P : Pt) (x y : ℕ) (hc : coords P = some (x, y)) (hx0 : (x : Sc) ≠ 0)
    (hge : Secp256k1.n ≤ x ∨ Secp256k1.n ≤ y) :
    ∃ (Y : Pt) (s : Sc) (sig : GG20.SignatureRecid),
      GG20.SignManual.complete ⟨(x : Sc), P, s, m, Y⟩ [] = .ok sig ∧ EcdsaEq Y m sig.r sig.s ∧
      ¬ Recovers sig.r sig.s sig.recid m Y := by
  have hs : (1 : Sc) • P = (m : Sc) • G + (x : Sc) • ((x : Sc)⁻¹ • (P - (m : Sc) • G)) := by
    rw [← mul_smul, mul_inv_cancel₀ hx0, one_smul, one_smul, add_sub_cancel]
  have he : EcdsaEq ((x : Sc)⁻¹ • (P - (m : Sc) • G)) m (x : Sc) (1 + ([] : List Sc).sum) := by
    rw [List.sum_nil, add_zero]
    refine ⟨one_ne_zero, x, y, ?_, rfl⟩
    rw [div_one, div_one, ← hs, one_smul, hc]
  obtain ⟨⟨sig, h, -⟩, -⟩ := C03_output_complete P _ m 1 [] x y hc he
  refine ⟨_, 1, sig, h, (C03_gg20_output_valid _ _ _ h).1, fun hr => ?_⟩
  have := (C04_gg20_recid_iff (show Secp256k1.p < 2 * Secp256k1.n by decide +kernel) _ [] sig x y hc hx0
    (by rw [List.sum_nil, add_zero]; exact hs) h).1 hr
  exact hge.elim (fun h => absurd this.1 (Nat.not_lt.2 h)) (fun h => absurd this.2 (Nat.not_lt.2 h))

end

end Verif.Props
