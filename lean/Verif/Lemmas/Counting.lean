import Verif.Spec.ZeroKnowledge
import Mathlib.Data.Finset.Card
import Mathlib.Tactic.LinearCombination

/-! Counting lemmas for statistical closeness. -/

namespace Verif.Spec

variable {Ω Ω' α : Type}

open Classical in
/-- The samples with a property. -/
noncomputable def sel (S : Finset Ω) (P : Ω → Prop) : Finset Ω := S.filter P

theorem count_eq (S : Finset Ω) (P : Ω → Prop) : count S P = (sel S P).card := rfl

theorem mem_sel {S : Finset Ω} {P : Ω → Prop} {ω : Ω} : ω ∈ sel S P ↔ ω ∈ S ∧ P ω := by
  classical
  exact Finset.mem_filter

theorem count_mono {S : Finset Ω} {P Q : Ω → Prop} (h : ∀ ω ∈ S, P ω → Q ω) : count S P ≤ count S Q := by
  rw [count_eq, count_eq]
  refine Finset.card_le_card fun ω hω => ?_
  obtain ⟨h1, h2⟩ := mem_sel.1 hω
  exact mem_sel.2 ⟨h1, h ω h1 h2⟩

theorem count_or (S : Finset Ω) (P Q : Ω → Prop) : count S (fun ω => P ω ∨ Q ω) ≤ count S P + count S Q := by
  classical
  rw [count_eq, count_eq, count_eq]
  refine (Finset.card_le_card fun ω hω => ?_).trans (Finset.card_union_le (sel S P) (sel S Q))
  rw [Finset.mem_union, mem_sel, mem_sel]
  have := mem_sel.1 hω
  tauto

theorem count_not (S : Finset Ω) (P : Ω → Prop) : count S P + count S (fun ω => ¬ P ω) = S.card := by
  classical
  rw [count_eq, count_eq, ← Finset.card_union_of_disjoint]
  · congr 1
    ext ω
    rw [Finset.mem_union, mem_sel, mem_sel]
    tauto
  · rw [Finset.disjoint_left]
    intro ω h1 h2
    exact (mem_sel.1 h2).2 (mem_sel.1 h1).2

theorem Rare.mono {num den : ℕ} {S : Finset Ω} {P Q : Ω → Prop} (h : Rare num den S Q)
    (hPQ : ∀ ω ∈ S, P ω → Q ω) : Rare num den S P :=
  (Nat.mul_le_mul_left _ (count_mono hPQ)).trans h

theorem Rare.or {a b den : ℕ} {S : Finset Ω} {P Q : Ω → Prop} (h1 : Rare a den S P) (h2 : Rare b den S Q) :
    Rare (a + b) den S (fun ω => P ω ∨ Q ω) := by
  unfold Rare at *
  calc den * count S (fun ω => P ω ∨ Q ω) ≤ den * (count S P + count S Q) :=
        Nat.mul_le_mul_left _ (count_or S P Q)
    _ ≤ a * S.card + b * S.card := by rw [Nat.mul_add]; exact Nat.add_le_add h1 h2
    _ = (a + b) * S.card := by ring

theorem Rare.fst {num den : ℕ} {S : Finset Ω} {T : Finset Ω'} {P : Ω → Prop} (h : Rare num den S P) :
    Rare num den (S ×ˢ T) (fun ω => P ω.1) := by
  unfold Rare at *
  rw [count_eq] at *
  have : sel (S ×ˢ T) (fun ω => P ω.1) = sel S P ×ˢ T := by
    ext ω; simp only [mem_sel, Finset.mem_product]; tauto
  rw [this, Finset.card_product, Finset.card_product, ← mul_assoc, ← mul_assoc]
  exact Nat.mul_le_mul_right _ h

theorem Rare.snd {num den : ℕ} {S : Finset Ω} {T : Finset Ω'} {P : Ω' → Prop} (h : Rare num den T P) :
    Rare num den (S ×ˢ T) (fun ω => P ω.2) := by
  unfold Rare at *
  rw [count_eq] at *
  have : sel (S ×ˢ T) (fun ω => P ω.2) = S ×ˢ sel T P := by
    ext ω; simp only [mem_sel, Finset.mem_product]; tauto
  rw [this, Finset.card_product, Finset.card_product]
  calc den * (S.card * (sel T P).card) = S.card * (den * (sel T P).card) := by ring
    _ ≤ S.card * (num * T.card) := Nat.mul_le_mul_left _ h
    _ = num * (S.card * T.card) := by ring

/-- Few numbers below `n` are among the last `k`. -/
theorem rare_top {num den : ℕ} {n k : ℤ} (hk : 0 ≤ k) (hn : 0 ≤ n) (h : den * k ≤ num * n) :
    Rare num den (below n) (fun x => n ≤ x + k) := by
  unfold Rare below
  have h1 : count (Finset.Ico 0 n) (fun x => n ≤ x + k) ≤ k.toNat := by
    have : k.toNat = (Finset.Ico (n - k) n).card := by rw [Int.card_Ico, sub_sub_cancel]
    rw [this, count_eq]
    refine Finset.card_le_card fun x hx => ?_
    simp only [mem_sel, Finset.mem_Ico] at hx ⊢
    omega
  rw [Int.card_Ico, sub_zero]
  have h2 : (den * k.toNat : ℤ) ≤ num * n.toNat := by
    rw [Int.toNat_of_nonneg hk, Int.toNat_of_nonneg hn]; exact h
  exact (Nat.mul_le_mul_left _ h1).trans (by exact_mod_cast h2)

/-- If a map of samples that seldom leaves the set turns `v` into `w`, these are close. -/
theorem within_of_map {num den : ℕ} {S : Finset Ω} {v w : Ω → α} (f : Ω → Ω)
    (hinj : ∀ x ∈ S, ∀ y ∈ S, f x = f y → x = y) (hvw : ∀ ω ∈ S, v ω = w (f ω))
    (hb : Rare num den S (fun ω => f ω ∉ S)) : Within num den S v w := by
  have key : ∀ P : α → Prop, count S (fun ω => P (v ω)) ≤
      count S (fun ω => P (w ω)) + count S (fun ω => f ω ∉ S) := by
    intro P
    have h1 : count S (fun ω => P (v ω)) ≤ count S (fun ω => (f ω ∈ S ∧ P (v ω)) ∨ f ω ∉ S) :=
      count_mono fun ω _ h => by by_cases h2 : f ω ∈ S <;> simp [h2, h]
    refine h1.trans ((count_or _ _ _).trans (Nat.add_le_add_right ?_ _))
    rw [count_eq, count_eq]
    refine Finset.card_le_card_of_injOn f (fun ω hω => ?_) (fun x hx y hy h => ?_)
    · obtain ⟨m1, m2, m3⟩ := mem_sel.1 hω
      exact mem_sel.2 ⟨m2, by rw [← hvw ω m1]; exact m3⟩
    · exact hinj x (mem_sel.1 hx).1 y (mem_sel.1 hy).1 h
  intro P
  have h1 := key P
  have h2 := key (fun a => ¬ P a)
  have h3 := count_not S (fun ω => P (v ω))
  have h4 := count_not S (fun ω => P (w ω))
  have h5 : |(count S (fun ω => P (v ω)) : ℤ) - count S (fun ω => P (w ω))| ≤
      count S (fun ω => f ω ∉ S) := by
    rw [abs_le]
    constructor <;> omega
  have h6 : (den * count S (fun ω => f ω ∉ S) : ℤ) ≤ num * S.card := by exact_mod_cast hb
  exact (mul_le_mul_of_nonneg_left h5 (Int.natCast_nonneg _)).trans h6

end Verif.Spec
