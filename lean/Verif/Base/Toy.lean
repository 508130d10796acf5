import Verif.Base.EC
import Mathlib.Tactic.NormNum.Prime
import Mathlib.Tactic.FinCases

/-!
# A 31-point curve

`y^2 = x^3 + 7` over the field with 43 elements has 31 points.  Multiples of the generator
`(2, 12)` are tabulated; a point is represented by its discrete logarithm.  This instance is
only used for executable examples (non-vacuity checks and witnesses).  As on secp256k1, the
order 31 is smaller than the field size 43, so coordinates at or above the order exist.
-/

namespace Verif.Toy

/-- Coordinates of `k • (2, 12)` for `k = 1, ..., 30`. -/
def table : List (ℕ × ℕ) :=
  [(2, 12), (7, 7), (35, 21), (21, 18), (12, 12), (29, 31), (25, 18), (32, 40), (20, 40),
   (42, 7), (40, 25), (37, 36), (13, 21), (34, 40), (38, 21), (38, 22), (34, 3), (13, 22),
   (37, 7), (40, 18), (42, 36), (20, 3), (32, 3), (25, 25), (29, 12), (12, 31), (21, 25),
   (35, 22), (7, 36), (2, 31)]

/-- Every tabulated point is on the curve. -/
example : ∀ P ∈ table, P.2 ^ 2 % 43 = (P.1 ^ 3 + 7) % 43 := by decide

def coords (k : ZMod 31) : Option (ℕ × ℕ) :=
  match k.val with
  | 0 => none
  | n + 1 => table[n]?

instance : Fact (Nat.Prime 31) := ⟨by norm_num⟩

@[reducible] def inst : EC where
  q := 31
  p := 43
  q_prime := inferInstance
  q_ne_two := by norm_num
  p_odd := by norm_num
  p_lt := by norm_num
  Pt := ZMod 31
  grp := inferInstance
  dec := inferInstance
  mod := inferInstance
  G := 1
  H := 5
  G_ne_zero := by decide
  gen := fun P => ⟨P, by simp⟩
  coords := coords
  coords_eq_none := by decide
  coords_lt := by
    intro P x y h
    have : ∀ P : ZMod 31, ∀ xy ∈ coords P, xy.1 < 43 ∧ xy.2 < 43 := by decide
    exact this P (x, y) h
  coords_neg := by
    intro P x y h
    have : ∀ P : ZMod 31, ∀ xy ∈ coords P, coords (-P) = some (xy.1, 43 - xy.2) := by decide
    exact this P (x, y) h
  x_inj := by
    intro P Q x y y' h h'
    have : ∀ P Q : ZMod 31, (coords P).map Prod.fst = (coords Q).map Prod.fst →
      Q = P ∨ Q = -P := by decide
    exact this P Q (by rw [h, h']; rfl)

end Verif.Toy
