import Verif.Secp256k1.Order
import Verif.Base.EC

/-!
# secp256k1 as an instance of the curve interface

All laws of the interface hold for the real curve.
-/

namespace Verif.Secp256k1

/-- x-coordinate of `base_point2` of curv -/
def hx : ℕ := 0x08d13221e3a7326a34dd45214ba80116dd142e4b5ff3ce66a8dc7bfa0378b795
/-- y-coordinate of `base_point2` of curv -/
def hy : ℕ := 0x5d41ac1477614b5c0848d50dbd565ea2807bcba1df0df07a8217e9f7f7c2be88

theorem h_on_curve : (hy : K) ^ 2 = (hx : K) ^ 3 + 7 := on_curve (by decide +kernel)

/-- Affine coordinates as numbers below `p`; none at infinity -/
def coordinates : Point → Option (ℕ × ℕ)
  | .zero => none
  | .some x y _ => some (x.val, y.val)

instance : Module (ZMod n) Point := AddCommGroup.zmodModule n_smul

theorem coordinates_mk {x y : K} (h : y ^ 2 = x ^ 3 + 7) : coordinates (mk x y h) = some (x.val, y.val) :=
  rfl

theorem coordinates_eq_some {P : Point} {x y : ℕ} (h : coordinates P = some (x, y)) :
    ∃ (a b : K) (hab : b ^ 2 = a ^ 3 + 7), P = mk a b hab ∧ a.val = x ∧ b.val = y := by
  rcases cases_point P with rfl | ⟨a, b, hab, rfl⟩
  · exact absurd h (by simp [coordinates])
  · rw [coordinates_mk, Option.some.injEq, Prod.mk.injEq] at h
    exact ⟨a, b, hab, rfl, h.1, h.2⟩

/-- The curve the library is used with -/
@[reducible] def inst : EC where
  q := n
  p := p
  q_prime := ⟨n_prime⟩
  q_ne_two := by decide +kernel
  p_odd := by decide +kernel
  p_lt := by decide +kernel
  Pt := Point
  grp := inferInstance
  dec := inferInstance
  mod := inferInstance
  G := gen
  H := mk hx hy h_on_curve
  G_ne_zero := gen_ne_zero
  gen P := by
    obtain ⟨k, hk⟩ := exists_smul_gen P
    exact ⟨(k : ZMod n), by rw [Int.cast_smul_eq_zsmul, hk]⟩
  coords := coordinates
  coords_eq_none P := by
    rcases cases_point P with rfl | ⟨a, b, hab, rfl⟩
    · exact ⟨fun _ => rfl, fun _ => rfl⟩
    · exact ⟨fun h => (nomatch h), fun h => absurd h (WeierstrassCurve.Affine.Point.some_ne_zero _)⟩
  coords_lt P x y h := by
    obtain ⟨a, b, hab, rfl, rfl, rfl⟩ := coordinates_eq_some h
    exact ⟨ZMod.val_lt a, ZMod.val_lt b⟩
  coords_neg P x y h := by
    obtain ⟨a, b, hab, rfl, rfl, rfl⟩ := coordinates_eq_some h
    rw [neg_mk, coordinates_mk, val_neg_parity (y_ne_zero hab)]
  x_inj P Q x y y' hP hQ := by
    obtain ⟨a, b, hab, rfl, rfl, rfl⟩ := coordinates_eq_some hP
    obtain ⟨a', b', hab', rfl, h1, rfl⟩ := coordinates_eq_some hQ
    obtain rfl := ZMod.val_injective p h1
    rcases sq_eq_sq_iff_eq_or_eq_neg.1 (hab'.trans hab.symm) with rfl | rfl
    · exact .inl rfl
    · exact .inr (neg_mk hab).symm

end Verif.Secp256k1
