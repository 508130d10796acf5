import Verif.Lemmas.Counting
import Verif.Lemmas.RangeProofs
import Verif.Lemmas.PdlSlack
import Mathlib.GroupTheory.OrderOfElement

/-! Lemmas on the responses of the proofs about integers. -/

namespace Verif.Spec

open EC Crypto

/-- If `h1` is a power of `h2`, a commitment to any number is a commitment to zero with a shifted exponent. -/
theorem exists_shift {M : ℕ} (hM : 0 < M) {u1 u2 : (ZMod M)ˣ} {s : ℕ} (hs : u2 ^ s * u1 = 1) (a : ℤ) :
    ∃ x : ℤ, 0 ≤ x ∧ x ≤ M ∧ ∀ ρ : ℤ, u1 ^ a * u2 ^ ρ = u1 ^ (0 : ℤ) * u2 ^ (ρ + x) := by
  have : NeZero M := ⟨hM.ne'⟩
  have hT := orderOf_pos u2
  have hT2 : (0 : ℤ) < orderOf u2 := by exact_mod_cast hT
  have e1 : u1 = u2 ^ (-(s : ℤ)) := by
    rw [zpow_neg, zpow_natCast, ← mul_eq_one_iff_eq_inv', hs]
  refine ⟨(-(s * a)) % orderOf u2, Int.emod_nonneg _ hT2.ne', ?_, fun ρ => ?_⟩
  · have h1 := Int.emod_lt_of_pos (-(s * a)) hT2
    have h2 : orderOf u2 ≤ M := by
      refine (orderOf_le_card_univ).trans ?_
      rw [ZMod.card_units_eq_totient]
      exact Nat.totient_le M
    have : (orderOf u2 : ℤ) ≤ M := by exact_mod_cast h2
    omega
  · rw [zpow_zero, one_mul, zpow_add, zpow_mod_orderOf, e1, ← zpow_mul, mul_comm, neg_mul]

/-- The same for `commitInts`. -/
theorem commitInts_shift {st : DLogStatement} (hst : st.Usable) {s : ℕ}
    (hs : st.ni ^ s * st.g ≡ 1 [ZMOD st.N]) (a : ℤ) :
    ∃ x : ℤ, 0 ≤ x ∧ x ≤ st.N ∧ ∀ ρ : ℤ, ∃ z, commitInts st a ρ = some z ∧
      commitInts st 0 (ρ + x) = some z := by
  obtain ⟨M, hM, hN, u1, u2, h1, h2⟩ := hst.units
  have hs' : u2 ^ s * u1 = 1 := by
    rw [hN] at hs
    have := cast_of_modEq hs
    push_cast at this
    rw [h1, h2, ← Units.val_pow_eq_pow_val, ← Units.val_mul, ← Units.val_one, Units.val_inj] at this
    exact this
  obtain ⟨x, hx0, hxM, hx⟩ := exists_shift hM hs' a
  refine ⟨x, hx0, by rw [hN]; exact hxM, fun ρ => ?_⟩
  obtain ⟨y, hy, hy2, hy3⟩ := commitInts_unit hM hN h1 h2 a ρ
  obtain ⟨y', hy', hy2', hy3'⟩ := commitInts_unit hM hN h1 h2 0 (ρ + x)
  refine ⟨y, hy, ?_⟩
  rw [hy', Option.some.injEq]
  exact eq_of_cast (by rw [hy2, hy2', hx]) hy3' hy3

/-- Multiplication by a unit permutes the numbers below the modulus. -/
theorem mul_rem_inj {N : ℕ} {re : ℤ} {u : (ZMod N)ˣ} (hu : (re : ZMod N) = u)
    {x y : ℤ} (hx : 0 ≤ x ∧ x < N) (hy : 0 ≤ y ∧ y < N) (h : rem (re * x) N = rem (re * y) N) : x = y := by
  have := congrArg (fun z : ℤ => (z : ZMod N)) h
  simp only [cast_rem] at this
  push_cast at this
  rw [hu] at this
  exact eq_of_cast (u.mul_right_inj.1 this) hx hy

theorem rem_range {N : ℕ} (hN : 0 < N) {x : ℤ} (h : 0 ≤ x) : 0 ≤ rem x N ∧ rem x N < N := by
  have hN' : (0 : ℤ) < N := by exact_mod_cast hN
  rw [rem_of_nonneg h]
  exact ⟨Int.emod_nonneg _ hN'.ne', Int.emod_lt_of_pos _ hN'⟩

theorem mul_rem_units {N : ℕ} (hN : 0 < N) {re : ℤ} {u : (ZMod N)ˣ} (hu : (re : ZMod N) = u) (h0 : 0 ≤ re)
    {x : ℤ} (hx : x ∈ unitsBelow N) : rem (re * x) N ∈ unitsBelow N := by
  unfold unitsBelow at *
  rw [Finset.mem_filter, Finset.mem_Ico] at *
  refine ⟨rem_range hN (mul_nonneg h0 hx.1.1), ?_⟩
  obtain ⟨v, hv⟩ := unit_of_gcd hx.2
  refine gcd_of_unit (u := u * v) ?_
  rw [cast_rem]
  push_cast
  rw [hu, hv]

theorem mem_below {n x : ℤ} : x ∈ below n ↔ 0 ≤ x ∧ x < n := Finset.mem_Ico

theorem mem_unitsBelow {n x : ℤ} : x ∈ unitsBelow n ↔ (0 ≤ x ∧ x < n) ∧ Int.gcd x n = 1 := by
  unfold unitsBelow; rw [Finset.mem_filter, Finset.mem_Ico]

/-- A shift by little seldom leads out of an interval. -/
theorem not_mem_below {n k d x : ℤ} (hx : x ∈ below n) (hd : 0 ≤ d) (hdk : d ≤ k) (h : d + x ∉ below n) :
    n ≤ x + k := by
  rw [mem_below] at *
  omega

end Verif.Spec
