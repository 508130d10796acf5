import Verif.Secp256k1.Primes
import Mathlib.AlgebraicGeometry.EllipticCurve.Affine.Point
import Mathlib.Algebra.Field.ZMod
import Mathlib.Tactic.LinearCombination
import Mathlib.Tactic.FieldSimp

/-!
# The curve secp256k1

`y^2 = x^3 + 7` over the prime field, with Mathlib's group law, and scalar multiplication in Jacobian
coordinates on natural numbers that the kernel can evaluate.
-/

namespace Verif.Secp256k1

instance : Fact p.Prime := ⟨p_prime⟩
instance : Fact n.Prime := ⟨n_prime⟩

/-- The base field -/
abbrev K := ZMod p

/-- The curve `y^2 = x^3 + 7` -/
def W : WeierstrassCurve.Affine K := ⟨0, 0, 0, 0, 7⟩

/-- The points of the curve, with the point at infinity -/
abbrev Point := WeierstrassCurve.Affine.Point W

theorem equation_iff (x y : K) : W.Equation x y ↔ y ^ 2 = x ^ 3 + 7 := by
  rw [WeierstrassCurve.Affine.equation_iff]
  simp [W]

theorem natCast_ne_zero {a : ℕ} (h : a % p ≠ 0) : (a : K) ≠ 0 := by
  rw [Ne, ZMod.natCast_eq_zero_iff]
  exact fun hd => h (Nat.mod_eq_zero_of_dvd hd)

theorem two_ne : (2 : K) ≠ 0 := natCast_ne_zero (a := 2) (by decide +kernel)

theorem nonsingular_iff (x y : K) : W.Nonsingular x y ↔ y ^ 2 = x ^ 3 + 7 := by
  refine Iff.trans (WeierstrassCurve.Affine.equation_iff_nonsingular_of_Δ_ne_zero ?_).symm
    (equation_iff x y)
  have : W.Δ = -((21168 : ℕ) : K) := by
    simp only [WeierstrassCurve.Δ, WeierstrassCurve.b₂, WeierstrassCurve.b₄, WeierstrassCurve.b₆,
      WeierstrassCurve.b₈, W]
    push_cast; ring
  rw [this, neg_ne_zero]
  exact natCast_ne_zero (by decide +kernel)

theorem negY_eq (x y : K) : W.negY x y = -y := by simp [WeierstrassCurve.Affine.negY, W]

/-- The finite point with the given coordinates -/
def mk (x y : K) (h : y ^ 2 = x ^ 3 + 7) : Point := .some x y ((nonsingular_iff x y).2 h)

theorem mk_congr {x y x' y' : K} {h : y ^ 2 = x ^ 3 + 7} (hx : x = x') (hy : y = y') :
    mk x y h = mk x' y' (by rw [← hx, ← hy]; exact h) := by subst hx hy; rfl

theorem neg_mk {x y : K} (h : y ^ 2 = x ^ 3 + 7) : -mk x y h = mk x (-y) (by rw [neg_sq]; exact h) := by
  unfold mk
  rw [WeierstrassCurve.Affine.Point.neg_some]
  congr 1
  exact negY_eq x y

theorem cases_point (P : Point) : P = 0 ∨ ∃ x y h, P = mk x y h := by
  cases P with
  | zero => exact .inl rfl
  | some x y h => exact .inr ⟨x, y, (nonsingular_iff x y).1 h, rfl⟩

theorem double_mk {x y : K} (h : y ^ 2 = x ^ 3 + 7) (hy : y ≠ 0) (x' y' : K)
    (hx' : x' = (3 * x ^ 2 / (2 * y)) ^ 2 - 2 * x) (hy' : y' = 3 * x ^ 2 / (2 * y) * (x - x') - y) :
    ∃ h', mk x y h + mk x y h = mk x' y' h' := by
  have hne : y ≠ W.negY x y := by
    rw [negY_eq]
    intro he
    have : 2 * y = 0 := by linear_combination he
    exact (mul_ne_zero two_ne hy) this
  have hs : W.slope x x y y = 3 * x ^ 2 / (2 * y) := by
    rw [WeierstrassCurve.Affine.slope_of_Y_ne rfl hne, negY_eq]
    simp only [W]
    congr 1 <;> ring
  have ha := WeierstrassCurve.Affine.Point.add_self_of_Y_ne (h₁ := (nonsingular_iff x y).2 h) hne
  have hX : W.addX x x (W.slope x x y y) = x' := by
    rw [hs, WeierstrassCurve.Affine.addX, hx']
    simp only [W]; ring
  have hY : W.addY x x y (W.slope x x y y) = y' := by
    rw [WeierstrassCurve.Affine.addY, negY_eq, WeierstrassCurve.Affine.negAddY, hX, hs, hy']
    ring
  have hns := WeierstrassCurve.Affine.nonsingular_add ((nonsingular_iff x y).2 h)
    ((nonsingular_iff x y).2 h) (fun hxy => hne hxy.right)
  rw [hX, hY] at hns
  refine ⟨(nonsingular_iff _ _).1 hns, ?_⟩
  unfold mk
  rw [ha]
  congr 1

theorem add_mk {x₁ y₁ x₂ y₂ : K} (h₁ : y₁ ^ 2 = x₁ ^ 3 + 7) (h₂ : y₂ ^ 2 = x₂ ^ 3 + 7) (hx : x₁ ≠ x₂)
    (x' y' : K) (hx' : x' = ((y₁ - y₂) / (x₁ - x₂)) ^ 2 - x₁ - x₂)
    (hy' : y' = (y₁ - y₂) / (x₁ - x₂) * (x₁ - x') - y₁) :
    ∃ h', mk x₁ y₁ h₁ + mk x₂ y₂ h₂ = mk x' y' h' := by
  have ha := WeierstrassCurve.Affine.Point.add_of_X_ne (h₁ := (nonsingular_iff x₁ y₁).2 h₁)
    (h₂ := (nonsingular_iff x₂ y₂).2 h₂) hx
  have hs := WeierstrassCurve.Affine.slope_of_X_ne (W := W) (y₁ := y₁) (y₂ := y₂) hx
  have hX : W.addX x₁ x₂ (W.slope x₁ x₂ y₁ y₂) = x' := by
    rw [hs, WeierstrassCurve.Affine.addX, hx']
    simp only [W]; ring
  have hY : W.addY x₁ x₂ y₁ (W.slope x₁ x₂ y₁ y₂) = y' := by
    rw [WeierstrassCurve.Affine.addY, negY_eq, WeierstrassCurve.Affine.negAddY, hX, hs, hy']
    ring
  have hns := WeierstrassCurve.Affine.nonsingular_add ((nonsingular_iff x₁ y₁).2 h₁)
    ((nonsingular_iff x₂ y₂).2 h₂) (fun hxy => hx hxy.left)
  rw [hX, hY] at hns
  refine ⟨(nonsingular_iff _ _).1 hns, ?_⟩
  unfold mk
  rw [ha]
  congr 1

/-! ### Jacobian coordinates -/

/-- `(X / Z^2, Y / Z^3)` -/
structure Jac where
  X : ℕ
  Y : ℕ
  Z : ℕ

/-- `a - b` modulo `p` -/
def sub (a b : ℕ) : ℕ := (a + (p - b % p)) % p

theorem cast_sub (a b : ℕ) : (sub a b : K) = a - b := by
  rw [sub, ZMod.natCast_mod, Nat.cast_add, Nat.cast_sub (Nat.mod_lt _ p_prime.pos).le, ZMod.natCast_mod]
  simp [sub_eq_add_neg]

/-- What a triple stands for; nothing if `Z = 0` -/
def Rep (P : Point) (t : Jac) : Prop :=
  (t.Z : K) ≠ 0 → ∃ h, P = mk (t.X / t.Z ^ 2) (t.Y / t.Z ^ 3) h

/-- Doubling -/
def dbl (t : Jac) : Jac :=
  let y2 := t.Y * t.Y % p
  let s := 4 * t.X * y2 % p
  let m := 3 * t.X * t.X % p
  let x := sub (m * m) (2 * s)
  ⟨x, sub (m * sub s x) (8 * y2 * y2), 2 * t.Y * t.Z % p⟩

/-- Addition of the point `(x, y)` -/
def addTo (x y : ℕ) (t : Jac) : Jac :=
  let z2 := t.Z * t.Z % p
  let h := sub (x * z2) t.X
  let r := sub (y * (z2 * t.Z % p)) t.Y
  let h2 := h * h % p
  let h3 := h2 * h % p
  let v := t.X * h2 % p
  let x' := sub (sub (r * r) h3) (2 * v)
  ⟨x', sub (r * sub v x') (t.Y * h3), h * t.Z % p⟩

theorem dbl_rep {P : Point} {t : Jac} (h : Rep P t) : Rep (P + P) (dbl t) := by
  intro hz
  have hz' : (t.Y : K) ≠ 0 ∧ (t.Z : K) ≠ 0 := by
    constructor <;> (intro h0; apply hz; simp [dbl, ZMod.natCast_mod, h0])
  obtain ⟨hY, hZ⟩ := hz'
  obtain ⟨he, rfl⟩ := h hZ
  have h2 := two_ne
  refine double_mk he (div_ne_zero hY (pow_ne_zero _ hZ)) _ _ ?_ ?_
  · simp only [dbl, cast_sub, ZMod.natCast_mod, Nat.cast_mul]
    push_cast
    field_simp
    ring
  · simp only [dbl, cast_sub, ZMod.natCast_mod, Nat.cast_mul]
    push_cast
    field_simp
    ring

theorem addTo_rep {x y : ℕ} (hxy : (y : K) ^ 2 = (x : K) ^ 3 + 7) {P : Point} {t : Jac} (h : Rep P t) :
    Rep (P + mk x y hxy) (addTo x y t) := by
  intro hz
  have hh : (((addTo x y t).Z : ℕ) : K) = ((x : K) * t.Z ^ 2 - t.X) * t.Z := by
    simp only [addTo, cast_sub, ZMod.natCast_mod, Nat.cast_mul]
    ring
  rw [hh] at hz
  obtain ⟨hH, hZ⟩ := mul_ne_zero_iff.1 hz
  obtain ⟨he, rfl⟩ := h hZ
  have hne : (t.X / t.Z ^ 2 : K) ≠ x := by
    intro h0
    apply hH
    rw [← h0]; field_simp; ring
  have hd : (t.X / t.Z ^ 2 : K) - x ≠ 0 := sub_ne_zero.2 hne
  have hd' : (t.X : K) - t.Z ^ 2 * x ≠ 0 := by
    intro h0; apply hH; linear_combination -h0
  have hsl : ((t.Y / t.Z ^ 3 : K) - y) / (t.X / t.Z ^ 2 - x) =
      (y * t.Z ^ 3 - t.Y) / ((x * t.Z ^ 2 - t.X) * t.Z) := by
    rw [div_eq_div_iff hd hz]
    field_simp
    ring
  have hxe : (x : K) = (t.X + (x * t.Z ^ 2 - t.X)) / t.Z ^ 2 := by field_simp; ring
  refine add_mk he hxy hne _ _ ?_ ?_
  all_goals
    rw [hsl, hh]
    simp only [addTo, cast_sub, ZMod.natCast_mod, Nat.cast_mul]
    push_cast
    generalize (x : K) * t.Z ^ 2 - t.X = H at hxe hH
    rw [hxe]
    field_simp
    ring

/-- `k` times the point `(x, y)`, for `1 ≤ k < 2 ^ (f + 1)` -/
def mulJ (x y : ℕ) : ℕ → ℕ → Jac
  | 0, _ => ⟨x, y, 1⟩
  | f + 1, k =>
    if k ≤ 1 then ⟨x, y, 1⟩
    else if k % 2 = 0 then dbl (mulJ x y f (k / 2))
    else addTo x y (dbl (mulJ x y f (k / 2)))

theorem mulJ_rep {x y : ℕ} (hxy : (y : K) ^ 2 = (x : K) ^ 3 + 7) : ∀ f k, 1 ≤ k → k < 2 ^ (f + 1) →
    Rep (k • mk x y hxy) (mulJ x y f k) := by
  have h1 : Rep (1 • mk x y hxy) ⟨x, y, 1⟩ := by
    intro _
    rw [one_smul]
    exact ⟨by simpa using hxy, mk_congr (by simp) (by simp)⟩
  intro f
  induction f with
  | zero =>
    intro k hk hk'
    obtain rfl : k = 1 := by omega
    exact h1
  | succ f ih =>
    intro k hk hk'
    rw [mulJ]
    split_ifs with ha hb
    · obtain rfl : k = 1 := by omega
      exact h1
    · have := dbl_rep (ih (k / 2) (by omega) (by omega))
      rw [← add_smul] at this
      rwa [show k / 2 + k / 2 = k by omega] at this
    · have := addTo_rep hxy (dbl_rep (ih (k / 2) (by omega) (by omega)))
      rw [← add_smul, ← succ_nsmul] at this
      rwa [show k / 2 + k / 2 + 1 = k by omega] at this

end Verif.Secp256k1
