import Verif.Base.EC
import Mathlib.LinearAlgebra.Lagrange

/-!
# Specification of threshold sharing

Independent of the model: what it means that any `t + 1` out of `n` parties hold a secret.
-/

namespace Verif.Spec

open EC Polynomial

variable [EC]

/-- The Lagrange coefficient at zero of party `i` within the set `S` of (one-based) party
indices. -/
noncomputable def lagrangeCoeff (S : Finset ℕ) (i : ℕ) : Sc :=
  ∏ j ∈ S.erase i, (j : Sc) / ((j : Sc) - (i : Sc))

/-- Any set of at least `t + 1` of the parties `1, ..., n` recovers `secret` from its members'
shares by Lagrange interpolation at zero. -/
def Reconstructs (t n : ℕ) (share : ℕ → Sc) (secret : Sc) : Prop :=
  ∀ S : Finset ℕ, (∀ i ∈ S, 1 ≤ i ∧ i ≤ n) → t + 1 ≤ S.card →
    ∑ i ∈ S, lagrangeCoeff S i * share i = secret

/-- The shares of parties `1, ..., n` are the values of one polynomial of degree at most `t`. -/
def OnPolynomial (t n : ℕ) (share : ℕ → Sc) (f : Polynomial Sc) : Prop :=
  f.degree < (t + 1 : ℕ) ∧ ∀ i, 1 ≤ i → i ≤ n → share i = f.eval (i : Sc)

theorem natCast_inj_of_lt {i j : ℕ} (hi : i < q) (hj : j < q) (h : (i : Sc) = (j : Sc)) :
    i = j := by
  have := (ZMod.natCast_eq_natCast_iff' i j q).1 h
  rwa [Nat.mod_eq_of_lt hi, Nat.mod_eq_of_lt hj] at this

/-- Shares on a polynomial of degree at most `t` reconstruct its value at zero. -/
theorem OnPolynomial.reconstructs {t n : ℕ} {share : ℕ → Sc} {f : Polynomial Sc}
    (h : OnPolynomial t n share f) (hn : n < q) : Reconstructs t n share (f.eval 0) := by
  intro S hS hc
  have hinj : Set.InjOn (fun i : ℕ => (i : Sc)) S := by
    intro i hi j hj hij
    exact natCast_inj_of_lt (lt_of_le_of_lt (hS i hi).2 hn) (lt_of_le_of_lt (hS j hj).2 hn) hij
  have hdeg : f.degree < S.card :=
    lt_of_lt_of_le h.1 (by exact_mod_cast hc)
  have := congrArg (Polynomial.eval 0) (Lagrange.eq_interpolate hinj hdeg)
  rw [this, Lagrange.interpolate_apply, Polynomial.eval_finsetSum]
  refine Finset.sum_congr rfl fun i hi => ?_
  rw [Polynomial.eval_mul, Polynomial.eval_C, h.2 i (hS i hi).1 (hS i hi).2, mul_comm]
  congr 1
  rw [lagrangeCoeff, Lagrange.basis, Polynomial.eval_prod]
  refine Finset.prod_congr rfl fun j _ => ?_
  simp only [Lagrange.basisDivisor, Polynomial.eval_mul, Polynomial.eval_C, Polynomial.eval_sub,
    Polynomial.eval_X]
  rw [div_eq_mul_inv, ← neg_sub ((i : Sc)) (j : Sc), inv_neg]
  ring

end Verif.Spec

namespace Verif.Spec

open EC

variable [EC]

/-- Feldman evaluation: the commitment to the value at `x` of the polynomial whose coefficients
are committed to in `cs` (constant term first), `∑ₖ xᵏ · Cₖ`. -/
def feldmanEval (cs : List Pt) (x : Sc) : Pt :=
  ∑ k : Fin cs.length, x ^ (k : ℕ) • cs[k]

end Verif.Spec
