import Verif.Spec.SignDraws
import Verif.Lemmas.Counting
import Verif.Lemmas.SignOnline
import Mathlib.Algebra.Order.BigOperators.Group.Finset
import Mathlib.Data.Nat.Prime.Basic

/-! Counting lemmas for draws, and honest signing in terms of draws. -/

namespace Verif.Spec

open EC Crypto GG20 Paillier

section
variable {Ω ι : Type}

theorem Rare.false {num den : ℕ} {S : Finset Ω} {P : Ω → Prop} (h : ∀ ω ∈ S, ¬ P ω) : Rare num den S P := by
  unfold Rare
  have : count S P = 0 := by
    rw [count_eq, Finset.card_eq_zero, Finset.eq_empty_iff_forall_notMem]
    intro ω hω
    exact h ω (mem_sel.1 hω).1 (mem_sel.1 hω).2
  rw [this]; simp

theorem Rare.exists_mem {den : ℕ} {S : Finset Ω} {P : ι → Ω → Prop} (T : Finset ι)
    (h : ∀ c ∈ T, Rare 1 den S (P c)) : Rare T.card den S (fun ω => ∃ c ∈ T, P c ω) := by
  classical
  induction T using Finset.induction_on with
  | empty => exact Rare.false fun ω _ h => by simp at h
  | insert a T ha ih =>
    rw [Finset.card_insert_of_notMem ha, Nat.add_comm]
    refine ((h a (Finset.mem_insert_self _ _)).or
      (ih fun c hc => h c (Finset.mem_insert_of_mem hc))).mono fun ω _ hω => ?_
    obtain ⟨c, hc, hp⟩ := hω
    rcases Finset.mem_insert.1 hc with rfl | hc
    · exact Or.inl hp
    · exact Or.inr ⟨c, hc, hp⟩

theorem Rare.exists_fintype {den : ℕ} {S : Finset Ω} [Fintype ι] {P : ι → Ω → Prop}
    (h : ∀ c, Rare 1 den S (P c)) : Rare (Fintype.card ι) den S (fun ω => ∃ c, P c ω) :=
  (Rare.exists_mem Finset.univ fun c _ => h c).mono fun _ _ ⟨c, hc⟩ => ⟨c, Finset.mem_univ c, hc⟩

/-- If, whatever the other coordinates are, at most `b` values of one coordinate are bad, then bad points are
rare. -/
theorem rare_coordinate [Fintype ι] [DecidableEq ι] {box : ι → Finset ℕ} {P : (ι → ℕ) → Prop} (c : ι) {b K : ℕ}
    (h : ∀ f ∈ Fintype.piFinset box, count (box c) (fun v => P (Function.update f c v)) ≤ b) (hb : 0 < b)
    (hK : K * b ≤ (box c).card) : Rare 1 K (Fintype.piFinset box) P := by
  classical
  set S := Fintype.piFinset box with hS
  have hup : ∀ f ∈ S, ∀ v ∈ box c, Function.update f c v ∈ S := by
    intro f hf v hv
    rw [hS, Fintype.mem_piFinset] at hf ⊢
    intro i
    by_cases hi : i = c
    · subst hi; rw [Function.update_self]; exact hv
    · rw [Function.update_of_ne hi]; exact hf i
  have hc : ∀ f ∈ S, f c ∈ box c := fun f hf => Fintype.mem_piFinset.1 hf c
  have h1 : (box c).card * count S P ≤ b * S.card := by
    have e : ((sel S P) ×ˢ (box c)).card = (S.sigma fun f => sel (box c) (fun v => P (Function.update f c v))).card := by
      refine Finset.card_bij' (fun x _ => ⟨Function.update x.1 c x.2, x.1 c⟩)
        (fun y _ => (Function.update y.1 c y.2, y.1 c)) ?_ ?_ ?_ ?_
      · rintro ⟨f, v⟩ hx
        rw [Finset.mem_product, mem_sel] at hx
        rw [Finset.mem_sigma, mem_sel]
        refine ⟨hup f hx.1.1 v hx.2, hc f hx.1.1, ?_⟩
        simpa using hx.1.2
      · rintro ⟨f, v⟩ hx
        rw [Finset.mem_sigma, mem_sel] at hx
        rw [Finset.mem_product, mem_sel]
        exact ⟨⟨hup f hx.1 v hx.2.1, hx.2.2⟩, hc f hx.1⟩
      · rintro ⟨f, v⟩ _; simp
      · rintro ⟨f, v⟩ _; simp
    rw [Finset.card_product, Finset.card_sigma] at e
    rw [count_eq, Nat.mul_comm, e, Nat.mul_comm b, ← smul_eq_mul]
    exact Finset.sum_le_card_nsmul _ _ _ fun f hf => by
      have := h f hf
      rwa [count_eq] at this
  unfold Rare
  refine Nat.le_of_mul_le_mul_left (c := b) ?_ hb
  calc b * (K * count S P) = (K * b) * count S P := by ring
    _ ≤ (box c).card * count S P := Nat.mul_le_mul_right _ hK
    _ ≤ b * S.card := h1
    _ = b * (1 * S.card) := by ring

/-- The same for a property of the coordinate alone. -/
theorem rare_value [Fintype ι] [DecidableEq ι] {box : ι → Finset ℕ} {Q : ℕ → Prop} (c : ι) {b K : ℕ}
    (h : count (box c) Q ≤ b) (hb : 0 < b) (hK : K * b ≤ (box c).card) :
    Rare 1 K (Fintype.piFinset box) (fun f => Q (f c)) :=
  rare_coordinate c (fun f _ => by simpa using h) hb hK

/-- At most `b` values are at least `n - b`. -/
theorem count_top (n b : ℕ) : count (Finset.Ico 0 n) (fun v => n ≤ v + b) ≤ b := by
  rw [count_eq]
  refine (Finset.card_le_card (t := Finset.Ico (n - b) n) fun v hv => ?_).trans ?_
  · rw [mem_sel, Finset.mem_Ico] at hv
    rw [Finset.mem_Ico]; omega
  · rw [Nat.card_Ico]; omega

theorem count_multiples (a b : ℕ) : count (Finset.Ico 0 (a * b)) (fun v => a ∣ v) ≤ b := by
  rw [count_eq]
  refine (Finset.card_le_card (t := (Finset.range b).image (a * ·)) fun v hv => ?_).trans
    (Finset.card_image_le.trans (by simp))
  rw [mem_sel, Finset.mem_Ico] at hv
  obtain ⟨⟨-, h1⟩, u, rfl⟩ := hv
  exact Finset.mem_image.2 ⟨u, Finset.mem_range.2 (Nat.lt_of_mul_lt_mul_left h1), rfl⟩

/-- Few numbers below a product of two primes are not prime to it. -/
theorem count_nonunits {a b : ℕ} (ha : a.Prime) (hb : b.Prime) :
    count (Finset.Ico 0 (a * b)) (fun v => Int.gcd v ((a * b : ℕ) : ℤ) ≠ 1) ≤ a + b := by
  have h1 : count (Finset.Ico 0 (a * b)) (fun v => a ∣ v) ≤ b := count_multiples a b
  have h2 : count (Finset.Ico 0 (b * a)) (fun v => b ∣ v) ≤ a := count_multiples b a
  rw [Nat.mul_comm b a] at h2
  have h3 : count (Finset.Ico 0 (a * b)) (fun v => Int.gcd v ((a * b : ℕ) : ℤ) ≠ 1) ≤
      count (Finset.Ico 0 (a * b)) (fun v => a ∣ v ∨ b ∣ v) := by
    refine count_mono fun v _ hv => ?_
    rw [Int.gcd_natCast_natCast] at hv
    by_contra hno
    push Not at hno
    apply hv
    exact Nat.Coprime.mul_right ((Nat.Prime.coprime_iff_not_dvd ha).2 hno.1).symm
      ((Nat.Prime.coprime_iff_not_dvd hb).2 hno.2).symm
  have h4 := count_or (Finset.Ico 0 (a * b)) (fun v => a ∣ v) (fun v => b ∣ v)
  exact h3.trans (h4.trans ((Nat.add_le_add h1 h2).trans (by omega)))

/-- A set of at most `b` values. -/
theorem count_list {T : Finset ℕ} {Q : ℕ → Prop} {α : Type} (g : ℕ → α) (l : List α)
    (hinj : ∀ v ∈ T, ∀ w ∈ T, g v = g w → v = w) (h : ∀ v ∈ T, Q v → g v ∈ l) : count T Q ≤ l.length := by
  classical
  rw [count_eq]
  refine (Finset.card_le_card_of_injOn (t := l.toFinset) g (fun v hv => ?_) fun v hv w hw e => ?_).trans
    (List.toFinset_card_le l)
  · obtain ⟨h1, h2⟩ := mem_sel.1 hv
    exact List.mem_toFinset.2 (h v h1 h2)
  · exact hinj v (mem_sel.1 hv).1 w (mem_sel.1 hw).1 e

end

end Verif.Spec
