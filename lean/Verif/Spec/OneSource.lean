import Mathlib.Data.Set.Basic
import Mathlib.Logic.ExistsUnique

/-!
# Specification: an outcome that is as random as one of the draws it depends on
-/

namespace Verif.Spec

/-- Every draw has exactly one outcome, every outcome is one of `values`, and every one of these is the
outcome of exactly one draw.  So if all draws are equally likely, all values are. -/
structure EachOnce {α β : Type} (draws : Set α) (values : Set β) (outcome : α → β → Prop) : Prop where
  one : ∀ a ∈ draws, ∃! b, outcome a b
  mem : ∀ a ∈ draws, ∀ b, outcome a b → b ∈ values
  hit : ∀ b ∈ values, ∃! a, a ∈ draws ∧ outcome a b

end Verif.Spec
