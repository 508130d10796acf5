import Verif.Spec.Knowledge
import Mathlib.Algebra.BigOperators.Group.Finset.Basic
import Mathlib.Algebra.Order.BigOperators.Group.Finset
import Mathlib.Data.Fintype.BigOperators
import Mathlib.Data.Fintype.Pi
import Mathlib.Tactic.Positivity
import Mathlib.Tactic.Ring

/-!
# Guessing values of a random function
-/

namespace Verif.Spec

namespace Prover

variable {X E Z W : Type}

/-- Afterwards, something is computed from the result. -/
def map (f : Z → W) : Prover X E Z → Prover X E W
  | result z => result (f z)
  | ask x next => ask x fun e => (next e).map f

theorem run_map {f : Z → W} {O : X → E} : ∀ A : Prover X E Z, (A.map f).run O = f (A.run O)
  | result _ => rfl
  | ask x next => run_map (next (O x))

theorem asksAtMost_map {f : Z → W} : ∀ {n : ℕ} {A : Prover X E Z}, A.AsksAtMost n → (A.map f).AsksAtMost n
  | 0, result _, _ => trivial
  | _ + 1, result _, _ => trivial
  | 0, ask _ _, h => h.elim
  | _ + 1, ask _ _, h => fun e => asksAtMost_map (h e)

end Prover

section
variable {X E Z : Type} [Fintype X] [DecidableEq X] [Fintype E] [DecidableEq E]

/-- The functions that agree with `O₀` on a list of points -/
def agree (l : List X) (O₀ : X → E) : Finset (X → E) := Finset.univ.filter fun O => ∀ x ∈ l, O x = O₀ x

theorem mem_agree {l : List X} {O₀ O : X → E} : O ∈ agree l O₀ ↔ ∀ x ∈ l, O x = O₀ x := by
  simp [agree]

omit [Fintype X] [DecidableEq X] in
theorem ne_of_not_mem {l : List X} {x y : X} (hx : x ∉ l) (hy : y ∈ l) : y ≠ x := fun h => hx (h ▸ hy)

omit [Fintype X] [DecidableEq X] in
theorem sum_fibers (S : Finset (X → E)) (x : X) : ∑ e, (S.filter fun O => O x = e).card = S.card :=
  (Finset.card_eq_sum_card_fiberwise (f := fun O : X → E => O x) (t := Finset.univ)
    (fun _ _ => Finset.mem_coe.2 (Finset.mem_univ _))).symm

theorem fiber_card {l : List X} {O₀ : X → E} {x : X} (hx : x ∉ l) (e e' : E) :
    ((agree l O₀).filter fun O => O x = e).card ≤ ((agree l O₀).filter fun O => O x = e').card := by
  refine Finset.card_le_card_of_injOn (fun O => Function.update O x e') ?_ ?_
  · intro O hO
    simp only [Finset.coe_filter, Set.mem_ofPred_eq, mem_agree] at hO ⊢
    refine ⟨fun y hy => ?_, Function.update_self ..⟩
    rw [Function.update_of_ne (ne_of_not_mem hx hy)]
    exact hO.1 y hy
  · intro O hO O' hO' h
    simp only [Finset.coe_filter, Set.mem_ofPred_eq] at hO hO'
    funext y
    by_cases hy : y = x
    · rw [hy, hO.2, hO'.2]
    · have := congrFun h y
      simpa only [Function.update_of_ne hy] using this

theorem card_fiber {l : List X} {O₀ : X → E} {x : X} (hx : x ∉ l) (e : E) :
    Fintype.card E * ((agree l O₀).filter fun O => O x = e).card = (agree l O₀).card := by
  rw [← sum_fibers (agree l O₀) x,
    Finset.sum_congr rfl (fun e' _ => le_antisymm (fiber_card hx e' e) (fiber_card hx e e')), Finset.sum_const,
    Finset.card_univ, smul_eq_mul]

theorem agree_cons {l : List X} {O₀ : X → E} {x : X} (hx : x ∉ l) (e : E) :
    (agree l O₀).filter (fun O => O x = e) = agree (x :: l) (Function.update O₀ x e) := by
  ext O
  simp only [Finset.mem_filter, mem_agree, List.forall_mem_cons, Function.update_self]
  rw [and_comm]
  refine and_congr_right fun _ => forall₂_congr fun y hy => ?_
  rw [Function.update_of_ne (ne_of_not_mem hx hy)]

/-- A prover that asks `n` questions finds a point at which the function has a prescribed value with probability at
most `(n + 1) / |E|`. -/
theorem guess_card (good : X → E) (out : Z → X) : ∀ (A : Prover X E Z) (n : ℕ), A.AsksAtMost n →
    ∀ (l : List X) (O₀ : X → E), (∀ x ∈ l, O₀ x ≠ good x) →
    Fintype.card E * ((agree l O₀).filter fun O => O (out (A.run O)) = good (out (A.run O))).card ≤
      (n + 1) * (agree l O₀).card
  | .result z, n, _, l, O₀, hl => by
    by_cases hx : out z ∈ l
    · rw [Finset.filter_false_of_mem, Finset.card_empty, Nat.mul_zero]
      · exact Nat.zero_le _
      · intro O hO h
        exact hl _ hx ((mem_agree.1 hO _ hx).symm.trans h)
    · refine le_trans (le_of_eq (card_fiber hx (good (out z)))) ?_
      exact Nat.le_mul_of_pos_left _ (Nat.succ_pos n)
  | .ask x next, 0, h, _, _, _ => h.elim
  | .ask x next, n + 1, h, l, O₀, hl => by
    by_cases hx : x ∈ l
    · have e : ((agree l O₀).filter fun O => O (out (((Prover.ask x next).run O))) =
          good (out ((Prover.ask x next).run O))) =
          (agree l O₀).filter fun O => O (out ((next (O₀ x)).run O)) = good (out ((next (O₀ x)).run O)) := by
        refine Finset.filter_congr fun O hO => ?_
        rw [Prover.run, mem_agree.1 hO x hx]
      rw [e]
      refine (guess_card good out (next (O₀ x)) n (h _) l O₀ hl).trans ?_
      exact Nat.mul_le_mul_right _ (by omega)
    · have part : ∀ e : E, Fintype.card E * (((agree l O₀).filter fun O => O (out ((Prover.ask x next).run O)) =
          good (out ((Prover.ask x next).run O))).filter fun O => O x = e).card ≤
          (if e = good x then (agree l O₀).card else 0) +
            (n + 1) * ((agree l O₀).filter fun O => O x = e).card := by
        intro e
        by_cases he : e = good x
        · rw [if_pos he]
          refine le_trans ?_ (Nat.le_add_right _ _)
          rw [← card_fiber hx e]
          refine Nat.mul_le_mul_left _ (Finset.card_le_card ?_)
          exact Finset.filter_subset_filter _ (Finset.filter_subset _ _)
        · rw [if_neg he, Nat.zero_add, agree_cons hx]
          refine le_trans (le_of_eq ?_) (guess_card good out (next e) n (h e) (x :: l)
            (Function.update O₀ x e) ?_)
          · rw [← agree_cons hx, Finset.filter_filter, Finset.filter_filter]
            congr 2
            refine Finset.filter_congr fun O _ => ?_
            rw [and_comm]
            refine and_congr_right fun ho => ?_
            rw [Prover.run, ho]
          · intro y hy
            rcases List.mem_cons.1 hy with rfl | hy
            · rw [Function.update_self]; exact he
            · rw [Function.update_of_ne (ne_of_not_mem hx hy)]; exact hl y hy
      rw [← sum_fibers _ x, Finset.mul_sum]
      refine (Finset.sum_le_sum fun e _ => part e).trans (le_of_eq ?_)
      rw [Finset.sum_add_distrib, Finset.sum_ite_eq' Finset.univ (good x), if_pos (Finset.mem_univ _),
        ← Finset.mul_sum, sum_fibers]
      ring

end

section
variable [EC] {k n : ℕ} {Z : Type}

open EC

theorem finite_pt : Finite Pt :=
  Finite.of_surjective (fun a : Sc => a • G) fun P => (gen P).imp fun _ h => h.symm

theorem card_hash_pos : 0 < Nat.card (HashOf k) := by
  have := finite_pt
  have : Nonempty (HashOf k) := ⟨fun _ => 0⟩
  exact Nat.card_pos

theorem hashProb_mono {E F : HashOf k → Prop} (h : ∀ O, E O → F O) : hashProb k E ≤ hashProb k F := by
  have := finite_pt
  refine div_le_div_of_nonneg_right ?_ (Nat.cast_nonneg _)
  exact_mod_cast Nat.card_le_card_of_injective (Subtype.map id h) (Subtype.map_injective h Function.injective_id)

theorem hashProb_of_forall {E : HashOf k → Prop} (h : ∀ O, E O) : hashProb k E = 1 := by
  have hN : (Nat.card (HashOf k) : ℚ) ≠ 0 := by exact_mod_cast card_hash_pos.ne'
  rw [hashProb, Nat.card_congr (Equiv.subtypeUnivEquiv h), div_self hN]

/-- A prover that computes `n` hashes finds a point with a prescribed hash with probability at most
`(n + 1) / q`. -/
theorem guess_prob (good : (Fin k → Pt) → Sc) (out : Z → Fin k → Pt) {A : Prover (Fin k → Pt) Sc Z}
    (hA : A.AsksAtMost n) :
    hashProb k (fun O => O (out (A.run O)) = good (out (A.run O))) ≤ ((n : ℚ) + 1) / q := by
  classical
  have := finite_pt
  have := Fintype.ofFinite Pt
  have h := guess_card good out A n hA [] (fun _ => 0) (by simp)
  have e : agree [] (fun _ => 0) = (Finset.univ : Finset (HashOf k)) := by ext; simp [mem_agree]
  rw [e, ZMod.card, Finset.card_univ] at h
  have hq : (0 : ℚ) < q := by exact_mod_cast q_pos
  have hN : (0 : ℚ) < Nat.card (HashOf k) := by exact_mod_cast card_hash_pos
  rw [hashProb, div_le_div_iff₀ hN hq, Nat.card_eq_fintype_card, Nat.card_eq_fintype_card, Fintype.card_subtype]
  rw [mul_comm]
  exact_mod_cast h

/-- If the results of a prover satisfy a condition on the result and the hash of a point in it more often than
hashes can be guessed, they do so in two runs with different hashes of the same point. -/
theorem exists_fork (out : Z → Fin k → Pt) (ok : Sc → Z → Prop) {A : Prover (Fin k → Pt) Sc Z}
    (hA : A.AsksAtMost n)
    (h : ((n : ℚ) + 1) / q < hashProb k fun O => ok (O (out (A.run O))) (A.run O)) :
    ∃ O O' : HashOf k, ok (O (out (A.run O))) (A.run O) ∧ ok (O' (out (A.run O'))) (A.run O') ∧
      out (A.run O) = out (A.run O') ∧ O (out (A.run O)) ≠ O' (out (A.run O)) := by
  classical
  by_contra hno
  push Not at hno
  refine absurd h (not_lt.2 ?_)
  let wins (O : HashOf k) : Prop := ok (O (out (A.run O))) (A.run O)
  let good (x : Fin k → Pt) : Sc := if hx : ∃ O, wins O ∧ out (A.run O) = x then hx.choose x else 0
  refine (hashProb_mono fun O hO => ?_).trans (guess_prob good out hA)
  have hx : ∃ O', wins O' ∧ out (A.run O') = out (A.run O) := ⟨O, hO, rfl⟩
  show O (out (A.run O)) = good (out (A.run O))
  rw [show good (out (A.run O)) = hx.choose (out (A.run O)) from dif_pos hx]
  exact hno O hx.choose hO hx.choose_spec.1 hx.choose_spec.2.symm

theorem hashProb_exists_le (m : ℕ) {E : ℕ → HashOf k → Prop} {p : ℚ} (h : ∀ i < m, hashProb k (E i) ≤ p) :
    hashProb k (fun O => ∃ i < m, E i O) ≤ m * p := by
  classical
  have := finite_pt
  have := Fintype.ofFinite Pt
  have hN : (0 : ℚ) < Nat.card (HashOf k) := by exact_mod_cast card_hash_pos
  have key : (Nat.card {O : HashOf k // ∃ i < m, E i O} : ℚ) ≤
      ∑ i ∈ Finset.range m, (Nat.card {O : HashOf k // E i O} : ℚ) := by
    simp only [Nat.card_eq_fintype_card, Fintype.card_subtype]
    have : (Finset.univ.filter fun O : HashOf k => ∃ i < m, E i O) ⊆
        (Finset.range m).biUnion fun i => Finset.univ.filter (E i) := by
      intro O hO
      simpa using hO
    exact_mod_cast (Finset.card_le_card this).trans Finset.card_biUnion_le
  rw [hashProb, div_le_iff₀ hN]
  refine key.trans ?_
  refine (Finset.sum_le_sum fun i hi => (div_le_iff₀ hN).1 (h i (Finset.mem_range.1 hi))).trans (le_of_eq ?_)
  rw [Finset.sum_const, Finset.card_range, nsmul_eq_mul]
  ring

end
end Verif.Spec
