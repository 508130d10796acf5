import Verif.Base.EC

/-!
# Specification: ECDSA

An independent statement of what a valid ECDSA signature is, what "low s" means and what
public-key recovery computes.  Nothing here refers to the model of the code.
-/

namespace Verif.Spec

open EC

variable [EC]

/-- The ECDSA verification equation for public key `Y`, (hashed) message `m`, and signature
`(r, s)`: `s ≠ 0`, the point `(m/s) G + (r/s) Y` is finite and its x-coordinate is congruent to
`r` modulo the group order. -/
def EcdsaEq (Y : Pt) (m : ℤ) (r s : Sc) : Prop :=
  s ≠ 0 ∧ ∃ x y, coords (((m : Sc) / s) • G + (r / s) • Y) = some (x, y) ∧ (x : Sc) = r

/-- A scalar is in the lower half: its representative is at most `(q - 1) / 2`. -/
def LowS (s : Sc) : Prop := s.val ≤ (q - 1) / 2

/-- Standard public-key recovery (SEC 1, 4.1.6): bit 1 of the recovery id says whether `q` has
to be added to `r` to get the x-coordinate of the nonce point, bit 0 is the parity of its
y-coordinate; the key is `r⁻¹ (s R - m G)`. -/
def Recovers (r s : Sc) (recid : ℕ) (m : ℤ) (Y : Pt) : Prop :=
  ∃ R x y, coords R = some (x, y) ∧ x = r.val + q * (recid / 2) ∧ y % 2 = recid % 2 ∧
    Y = r⁻¹ • (s • R - (m : Sc) • G)

/-- Recovery gives at most one key. -/
theorem recovers_unique {r s : Sc} {recid : ℕ} {m : ℤ} {Y Y' : Pt}
    (h : Recovers r s recid m Y) (h' : Recovers r s recid m Y') : Y = Y' := by
  obtain ⟨R, x, y, hc, hx, hy, rfl⟩ := h
  obtain ⟨R', x', y', hc', hx', hy', rfl⟩ := h'
  have hxx : x' = x := by rw [hx, hx']
  subst hxx
  rcases x_inj R R' x' y y' hc hc' with h | h
  · rw [h]
  · exfalso
    have h1 := coords_neg R x' y hc
    rw [← h, hc'] at h1
    have h2 : y' = p - y := by simpa using h1
    have h3 := (coords_lt _ _ _ hc).2
    have := p_odd (self := ‹EC›)
    omega

end Verif.Spec
