import Verif.Spec.Hiding
import Verif.Lemmas.Bytes
import Mathlib.Data.Set.Card
import Mathlib.Data.Set.Finite.List
import Mathlib.Algebra.BigOperators.Field
import Mathlib.Data.Fintype.BigOperators
import Mathlib.Logic.Function.Basic
import Mathlib.Tactic.Linarith
import Mathlib.Tactic.Positivity
import Mathlib.Tactic.Ring
import Mathlib.Tactic.FieldSimp

/-!
# Commitments are independent of the message unless the blinding factor is guessed
-/

namespace Verif.Spec

section
variable {Ω Ω' : Type}

open Classical in
theorem chance_eq [Fintype Ω] {E : Ω → Prop} :
    chance E = ((Finset.univ.filter E).card : ℚ) / Fintype.card Ω := by
  rw [chance, Nat.card_eq_fintype_card, Nat.card_eq_fintype_card, Fintype.card_subtype]

theorem chance_le_add [Finite Ω] {E F B : Ω → Prop} (h : ∀ ω, E ω → F ω ∨ B ω) :
    chance E ≤ chance F + chance B := by
  classical
  have := Fintype.ofFinite Ω
  rw [chance_eq, chance_eq, chance_eq, ← add_div]
  refine div_le_div_of_nonneg_right ?_ (Nat.cast_nonneg _)
  have : Finset.univ.filter E ⊆ Finset.univ.filter F ∪ Finset.univ.filter B := fun ω hω => by
    simp only [Finset.mem_union, Finset.mem_filter, Finset.mem_univ, true_and] at hω ⊢
    exact h ω hω
  exact_mod_cast (Finset.card_le_card this).trans (Finset.card_union_le _ _)

theorem chance_equiv (e : Ω ≃ Ω') {E : Ω' → Prop} : chance (fun ω => E (e ω)) = chance E := by
  rw [chance, chance, Nat.card_congr e, Nat.card_congr (e.subtypeEquiv fun _ => Iff.rfl)]

/-- Averaging over the second component -/
theorem chance_prod [Finite Ω] [Finite Ω'] {E : Ω × Ω' → Prop} :
    chance E = (∑ᶠ y, chance fun x => E (x, y)) / Nat.card Ω' := by
  classical
  have := Fintype.ofFinite Ω
  have := Fintype.ofFinite Ω'
  rw [finsum_eq_sum_of_fintype, chance_eq, Nat.card_eq_fintype_card, Fintype.card_prod]
  simp only [chance_eq]
  rw [← Finset.sum_div, div_div]
  push_cast
  congr 1
  rw [← Nat.cast_sum]
  congr 1
  rw [Finset.card_eq_sum_card_fiberwise (f := Prod.snd) (t := Finset.univ) (fun _ _ => Finset.mem_coe.2 (Finset.mem_univ _))]
  refine Finset.sum_congr rfl fun y _ => ?_
  refine Finset.card_bij' (fun x _ => x.1) (fun x _ => (x, y)) ?_ ?_ ?_ ?_
  · intro x hx
    simp only [Finset.mem_filter, Finset.mem_univ, true_and] at hx ⊢
    obtain ⟨h1, rfl⟩ := hx
    exact h1
  · intro x hx
    simp only [Finset.mem_filter, Finset.mem_univ, true_and] at hx ⊢
    exact ⟨hx, trivial⟩
  · intro x hx
    simp only [Finset.mem_filter, Finset.mem_univ, true_and] at hx
    exact Prod.ext rfl hx.2.symm
  · intro x _
    rfl

theorem chance_prod_le_add [Finite Ω] [Finite Ω'] [Nonempty Ω'] {E F : Ω × Ω' → Prop} {δ : ℚ}
    (h : ∀ y, (chance fun x => E (x, y)) ≤ (chance fun x => F (x, y)) + δ) : chance E ≤ chance F + δ := by
  classical
  have := Fintype.ofFinite Ω'
  have hc : (0 : ℚ) < Nat.card Ω' := by exact_mod_cast Nat.card_pos
  rw [chance_prod, chance_prod (E := F), finsum_eq_sum_of_fintype, finsum_eq_sum_of_fintype]
  rw [div_add' _ _ _ hc.ne']
  refine div_le_div_of_nonneg_right ?_ hc.le
  refine (Finset.sum_le_sum fun y _ => h y).trans ?_
  rw [Finset.sum_add_distrib, Finset.sum_const, Finset.card_univ, Nat.card_eq_fintype_card, nsmul_eq_mul, mul_comm]

theorem chance_prod_abs [Finite Ω] [Finite Ω'] [Nonempty Ω'] {E F : Ω × Ω' → Prop} {δ : ℚ}
    (h : ∀ y, |(chance fun x => E (x, y)) - chance fun x => F (x, y)| ≤ δ) : |chance E - chance F| ≤ δ := by
  rw [abs_sub_le_iff, sub_le_iff_le_add', sub_le_iff_le_add']
  exact ⟨chance_prod_le_add fun y => sub_le_iff_le_add'.1 (abs_sub_le_iff.1 (h y)).1,
    chance_prod_le_add fun y => sub_le_iff_le_add'.1 (abs_sub_le_iff.1 (h y)).2⟩

theorem chance_prod_le [Finite Ω] [Finite Ω'] [Nonempty Ω'] {E : Ω × Ω' → Prop} {δ : ℚ}
    (h : ∀ y, (chance fun x => E (x, y)) ≤ δ) : chance E ≤ δ := by
  have h0 : chance (fun _ : Ω × Ω' => False) = 0 := by simp [chance]
  have := chance_prod_le_add (E := E) (F := fun _ => False) (δ := δ) fun y => by
    have : chance (fun _ : Ω => False) = 0 := by simp [chance]
    rw [this, zero_add]
    exact h y
  rwa [h0, zero_add] at this

theorem chance_fst [Finite Ω] [Finite Ω'] [Nonempty Ω'] {E : Ω → Prop} :
    chance (fun ω : Ω × Ω' => E ω.1) = chance E := by
  classical
  have := Fintype.ofFinite Ω'
  have hc : (0 : ℚ) < Fintype.card Ω' := by exact_mod_cast Fintype.card_pos
  rw [chance_prod, finsum_eq_sum_of_fintype]
  dsimp only
  rw [Finset.sum_const, Finset.card_univ, Nat.card_eq_fintype_card, nsmul_eq_mul,
    mul_div_cancel_left₀ _ hc.ne']

/-- Few of the values of an injective function are in a short list. -/
theorem chance_mem [Finite Ω] {f : Ω → Ω'} (hf : Function.Injective f) (l : List Ω') {n : ℕ} (hl : l.length ≤ n) :
    (chance fun x => f x ∈ l) ≤ n / Nat.card Ω := by
  classical
  have := Fintype.ofFinite Ω
  rw [chance_eq, Nat.card_eq_fintype_card]
  refine div_le_div_of_nonneg_right ?_ (Nat.cast_nonneg _)
  exact Nat.cast_le.2 (le_trans (Finset.card_le_card_of_injOn (t := l.toFinset) f (fun x hx => by simpa using hx) hf.injOn)
    ((List.toFinset_card_le l).trans hl))

/-- Two events that correspond to each other outside of a third -/
theorem chance_coupled [Finite Ω] (e : Ω ≃ Ω) {E F B : Ω → Prop} (h : ∀ ω, ¬ B (e ω) → (F (e ω) ↔ E ω)) :
    |chance E - chance F| ≤ chance B := by
  rw [← chance_equiv e (E := F), ← chance_equiv e (E := B), abs_sub_le_iff, sub_le_iff_le_add', sub_le_iff_le_add']
  constructor
  · refine chance_le_add fun ω hω => ?_
    by_cases hb : B (e ω)
    · exact Or.inr hb
    · exact Or.inl ((h ω hb).2 hω)
  · refine chance_le_add fun ω hω => ?_
    by_cases hb : B (e ω)
    · exact Or.inr hb
    · exact Or.inl ((h ω hb).1 hω)

end

namespace Prover

variable {X E Z : Type}

/-- What is asked in a run -/
def queries (O : X → E) : Prover X E Z → List X
  | result _ => []
  | ask x next => x :: (next (O x)).queries O

theorem length_queries {O : X → E} : ∀ {n : ℕ} {A : Prover X E Z}, A.AsksAtMost n → (A.queries O).length ≤ n
  | _, result _, _ => Nat.zero_le _
  | 0, ask _ _, h => h.elim
  | _ + 1, ask _ _, h => Nat.succ_le_succ (length_queries (h _))

theorem run_update [DecidableEq X] {O : X → E} {x : X} {e : E} : ∀ {A : Prover X E Z}, x ∉ A.queries O →
    A.run (Function.update O x e) = A.run O
  | result _, _ => rfl
  | ask y next, h => by
    have h1 : y ≠ x := fun h' => h (h' ▸ List.mem_cons_self)
    have h2 : x ∉ (next (O y)).queries O := fun h' => h (List.mem_cons_of_mem _ h')
    rw [run, run, Function.update_of_ne h1]
    exact run_update h2

end Prover

section
variable {X Y W : Type} [DecidableEq X] [Finite X] [Finite Y] [Finite W]

/-- The value at a random point and the random function, exchanged with a fresh value -/
def swapAt (enc : W → X) : (W × (X → Y)) × Y ≃ (W × (X → Y)) × Y :=
  let f : (W × (X → Y)) × Y → (W × (X → Y)) × Y := fun ω =>
    ((ω.1.1, Function.update ω.1.2 (enc ω.1.1) ω.2), ω.1.2 (enc ω.1.1))
  have hf : ∀ ω, f (f ω) = ω := fun ω => by
    simp only [f, Function.update_self, Function.update_idem, Function.update_eq_self]
  ⟨f, f, hf, hf⟩

theorem chance_swap [Nonempty Y] [Nonempty W] {enc : W → X} (henc : Function.Injective enc)
    {A : Y → Prover X Y Bool} {n : ℕ} (hA : ∀ c, (A c).AsksAtMost n) :
    |chance (fun ω : W × (X → Y) => (A (ω.2 (enc ω.1))).run ω.2 = true) -
      chance (fun ω : (W × (X → Y)) × Y => (A ω.2).run ω.1.2 = true)| ≤ n / Nat.card W := by
  classical
  have hbad : chance (fun ω : (W × (X → Y)) × Y => enc ω.1.1 ∈ (A ω.2).queries ω.1.2) ≤ n / Nat.card W := by
    refine chance_prod_le (E := fun ω : (W × (X → Y)) × Y => enc ω.1.1 ∈ (A ω.2).queries ω.1.2) fun c => ?_
    exact chance_prod_le (E := fun ω : W × (X → Y) => enc ω.1 ∈ (A c).queries ω.2) fun O =>
      chance_mem henc ((A c).queries O) (Prover.length_queries (hA c))
  rw [← chance_fst (Ω' := Y) (E := fun ω : W × (X → Y) => (A (ω.2 (enc ω.1))).run ω.2 = true)]
  refine (chance_coupled (swapAt enc) (E := fun ω : (W × (X → Y)) × Y => (A (ω.1.2 (enc ω.1.1))).run ω.1.2 = true)
    (F := fun ω : (W × (X → Y)) × Y => (A ω.2).run ω.1.2 = true)
    (B := fun ω : (W × (X → Y)) × Y => enc ω.1.1 ∈ (A ω.2).queries ω.1.2) fun ω h => ?_).trans hbad
  have := Prover.run_update (e := ω.1.2 (enc ω.1.1)) h
  rw [← this]
  simp only [swapAt, Equiv.coe_fn_mk, Function.update_idem, Function.update_eq_self]

/-- Whichever of two encodings is hashed, an observer of the digest sees nearly the same. -/
theorem chance_hiding [Nonempty Y] [Nonempty W] {enc enc' : W → X} (henc : Function.Injective enc)
    (henc' : Function.Injective enc') {A : Y → Prover X Y Bool} {n : ℕ} (hA : ∀ c, (A c).AsksAtMost n) :
    |chance (fun ω : W × (X → Y) => (A (ω.2 (enc ω.1))).run ω.2 = true) -
      chance (fun ω : W × (X → Y) => (A (ω.2 (enc' ω.1))).run ω.2 = true)| ≤ 2 * n / Nat.card W := by
  have h1 := chance_swap henc hA
  have h2 := chance_swap henc' hA
  rw [abs_sub_comm] at h2
  refine (abs_sub_le _ _ _).trans ((add_le_add h1 h2).trans (le_of_eq ?_))
  ring

end

/-! ### Commitments -/

instance : Finite UInt8 := Finite.of_injective UInt8.toFin fun _ _ h => UInt8.toFin_inj.1 h

instance : Finite ComInput := (List.finite_length_le UInt8 65).to_subtype

instance : Nonempty Blinding := ⟨⟨0, Nat.two_pow_pos _⟩⟩

instance : Nonempty ComHash := ⟨fun _ => ⟨0, Nat.two_pow_pos _⟩⟩

theorem card_blinding : Nat.card Blinding = 2 ^ 256 := Nat.card_fin _

/-- The bytes that are hashed -/
def comInput (m : ℤ) (hm : m.natAbs < 256 ^ 33) (b : Blinding) : ComInput :=
  ⟨toBytes m ++ toBytes ((b : ℕ) : ℤ), by
    have h1 := (toBytes_length_le (k := 33) (by decide)).2 hm
    have h2 : (toBytes ((b : ℕ) : ℤ)).length ≤ 32 := (toBytes_length_le (by decide)).2 (by
      rw [Int.natAbs_natCast]
      exact b.2.trans_eq (by norm_num))
    rw [List.length_append]
    omega⟩

theorem comInput_inj {m : ℤ} (hm : m.natAbs < 256 ^ 33) : Function.Injective (comInput m hm) := by
  intro b b' h
  have h1 := toBytes_inj (List.append_cancel_left (congrArg Subtype.val h))
  rw [Int.natAbs_natCast, Int.natAbs_natCast] at h1
  exact Fin.ext h1

theorem withComHash_hashCom (C : Crypto) (O : ComHash) {m : ℤ} (hm : m.natAbs < 256 ^ 33) (b : Blinding) :
    (withComHash C O).hashCom m ((b : ℕ) : ℤ) = ((O (comInput m hm b) : ℕ) : ℤ) :=
  dif_pos (comInput m hm b).2

end Verif.Spec
