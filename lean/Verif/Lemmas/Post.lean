import Verif.Model.Demo.GG18Room
import Verif.Lemmas.DemoRounds
import Verif.Lemmas.SignPanic
import Verif.Props.Managers

/-! # Programs that post and poll -/

namespace Verif.Demo

open Prog

variable {V α β : Type}

/-- One request: posting or polling the value `val` under `key`.  Ranks say which requests can come first. -/
structure Act (V : Type) where
  rank : ℕ
  post : Bool
  key : String
  val : V

/-- The program makes these requests and returns `r`, if it is given these values. -/
inductive Follows : Prog V α → List (Act V) → α → Prop where
  | done (r : α) : Follows (.done r) [] r
  | post {key : String} {v : V} {p : Prog V α} {rk : ℕ} {l : List (Act V)} {r : α} (h : Follows p l r) :
      Follows (.post key v p) (⟨rk, true, key, v⟩ :: l) r
  | poll {key : String} {v : V} {f : V → Prog V α} {rk : ℕ} {l : List (Act V)} {r : α}
      (h : Follows (f v) l r) : Follows (.poll key f) (⟨rk, false, key, v⟩ :: l) r

/-- What it takes for `n` programs to finish. -/
structure Plan (n : ℕ) (uuid : String) (start : Store V α) (tr : ℕ → List (Act V)) (res : ℕ → α) : Prop where
  follows : ∀ i, 1 ≤ i → i ≤ n → Follows (start.client i) (tr i) (res i)
  agree : ∀ i j a b, 1 ≤ i → i ≤ n → 1 ≤ j → j ≤ n → a ∈ tr i → b ∈ tr j → a.post = true →
    a.key = b.key → a.val = b.val
  sorted : ∀ i, (tr i).Pairwise (fun a b => a.rank ≤ b.rank)
  supply : ∀ i b, 1 ≤ i → i ≤ n → b ∈ tr i → b.post = false → ∃ j a, 1 ≤ j ∧ j ≤ n ∧ a ∈ tr j ∧
    a.post = true ∧ a.key = b.key ∧ a.rank < b.rank
  own : ∀ i a, a ∈ tr i → ¬ Store.Foreign uuid a.key
  clean : ∀ key v, start.table key = some v → Store.Foreign uuid key

namespace Plan

variable {n : ℕ} {uuid : String} {start : Store V α} {tr : ℕ → List (Act V)} {res : ℕ → α}

structure Inv (n : ℕ) (uuid : String) (tr : ℕ → List (Act V)) (res : ℕ → α) (k : ℕ) (s : Store V α)
    (made left : ℕ → List (Act V)) : Prop where
  split : ∀ i, tr i = made i ++ left i
  follows : ∀ i, 1 ≤ i → i ≤ n → Follows (s.client i) (left i) (res i)
  stored : ∀ i a, 1 ≤ i → i ≤ n → a ∈ made i → a.post = true → s.table a.key = some a.val
  table : ∀ key v, s.table key = some v → Store.Foreign uuid key ∨ ∃ i a, 1 ≤ i ∧ i ≤ n ∧ a ∈ tr i ∧
    a.post = true ∧ a.key = key ∧ a.val = v
  count : k = ∑ i ∈ Finset.Icc 1 n, (made i).length

theorem sum_length_update {i : ℕ} (h1 : 1 ≤ i) (h2 : i ≤ n) (m : ℕ → List (Act V)) (l : List (Act V))
    (h : l.length = (m i).length + 1) :
    ∑ j ∈ Finset.Icc 1 n, (Function.update m i l j).length = ∑ j ∈ Finset.Icc 1 n, (m j).length + 1 := by
  have hi : i ∈ Finset.Icc 1 n := Finset.mem_Icc.2 ⟨h1, h2⟩
  rw [← Finset.add_sum_erase _ _ hi, ← Finset.add_sum_erase _ (fun j => (m j).length) hi,
    Function.update_self, h]
  rw [Finset.sum_congr rfl (g := fun j => (m j).length) fun j hj => by
    rw [Function.update_of_ne (Finset.ne_of_mem_erase hj)]]
  omega

theorem inv (P : Plan n uuid start tr res) {k : ℕ} {s : Store V α} (h : Store.Steps n uuid start k s) :
    ∃ made left, Inv n uuid tr res k s made left := by
  induction h with
  | init =>
    exact ⟨fun _ => [], tr, fun i => rfl, P.follows, fun i a _ _ h => (by cases h),
      fun key v h => .inl (P.clean key v h), by simp⟩
  | @other k s h key v hk ih =>
    obtain ⟨made, left, I⟩ := ih
    refine ⟨made, left, I.split, I.follows, fun i a h1 h2 ha hp => ?_, fun key' v' hv => ?_, I.count⟩
    · have hne : a.key ≠ key := by
        rintro rfl
        exact P.own i a (by rw [I.split]; exact List.mem_append_left _ ha) hk
      dsimp only
      rw [Function.update_of_ne hne]
      exact I.stored i a h1 h2 ha hp
    · dsimp only at hv
      by_cases hkk : key' = key
      · subst hkk
        exact .inl hk
      · rw [Function.update_of_ne hkk] at hv
        exact I.table key' v' hv
  | @lost k s h i i1 i2 key v next prog ih =>
    obtain ⟨made, left, I⟩ := ih
    have hf := I.follows i i1 i2
    rw [prog] at hf
    generalize hl : left i = L at hf
    cases hf with
    | @post _ _ _ rk l _ hf =>
    have ha : ⟨rk, true, key, v⟩ ∈ tr i := by rw [I.split, hl]; simp
    refine ⟨made, left, I.split, I.follows, fun j b j1 j2 hb hp => ?_, fun key' v' hv => ?_, I.count⟩
    · dsimp only
      by_cases hk : b.key = key
      · have hb' : b ∈ tr j := by rw [I.split j]; exact List.mem_append_left _ hb
        rw [hk, Function.update_self]
        exact congrArg some (P.agree i j _ b i1 i2 j1 j2 ha hb' rfl hk.symm)
      · rw [Function.update_of_ne hk]
        exact I.stored j b j1 j2 hb hp
    · dsimp only at hv
      by_cases hkk : key' = key
      · subst hkk
        rw [Function.update_self] at hv
        exact .inr ⟨i, _, i1, i2, ha, rfl, rfl, Option.some.inj hv⟩
      · rw [Function.update_of_ne hkk] at hv
        exact I.table key' v' hv
  | @step k s s' h st ih =>
    obtain ⟨made, left, I⟩ := ih
    have move : ∀ {i : ℕ} (a : Act V) (l : List (Act V)), left i = a :: l → ∀ j,
        tr j = Function.update made i (made i ++ [a]) j ++ Function.update left i l j := by
      intro i a l hl j
      rw [I.split j]
      by_cases hj : j = i
      · subst hj
        rw [Function.update_self, Function.update_self, hl, List.append_assoc, List.singleton_append]
      · rw [Function.update_of_ne hj, Function.update_of_ne hj]
    cases st with
    | post i i1 i2 key v next prog =>
      have hf := I.follows i i1 i2
      rw [prog] at hf
      generalize hl : left i = L at hf
      cases hf with
      | @post _ _ _ rk l _ hf =>
      have ha : ⟨rk, true, key, v⟩ ∈ tr i := by rw [I.split, hl]; simp
      refine ⟨Function.update made i (made i ++ [⟨rk, true, key, v⟩]), Function.update left i l,
        move _ _ hl, fun j j1 j2 => ?_, fun j b j1 j2 hb hp => ?_, fun key' v' hv => ?_, ?_⟩
      · dsimp only
        by_cases hj : j = i
        · subst hj
          rw [Function.update_self, Function.update_self]
          exact hf
        · rw [Function.update_of_ne hj, Function.update_of_ne hj]
          exact I.follows j j1 j2
      · dsimp only
        have hb' : b ∈ tr j := by
          rw [move _ _ hl j]
          exact List.mem_append_left _ hb
        by_cases hk : b.key = key
        · rw [hk, Function.update_self]
          exact congrArg some (P.agree i j _ b i1 i2 j1 j2 ha hb' rfl hk.symm)
        · rw [Function.update_of_ne hk]
          by_cases hj : j = i
          · subst hj
            rw [Function.update_self, List.mem_append, List.mem_singleton] at hb
            rcases hb with hb | rfl
            · exact I.stored j b j1 j2 hb hp
            · exact absurd rfl hk
          · rw [Function.update_of_ne hj] at hb
            exact I.stored j b j1 j2 hb hp
      · dsimp only at hv
        by_cases hkk : key' = key
        · subst hkk
          rw [Function.update_self] at hv
          exact .inr ⟨i, _, i1, i2, ha, rfl, rfl, Option.some.inj hv⟩
        · rw [Function.update_of_ne hkk] at hv
          exact I.table key' v' hv
      · rw [sum_length_update i1 i2 _ _ (by simp), I.count]
    | poll i i1 i2 key next v prog found =>
      have hf := I.follows i i1 i2
      rw [prog] at hf
      generalize hl : left i = L at hf
      cases hf with
      | @poll _ v' _ rk l _ hf =>
      have ha : ⟨rk, false, key, v'⟩ ∈ tr i := by rw [I.split, hl]; simp
      have hvv : v = v' := by
        rcases I.table key v found with hfo | ⟨j, b, j1, j2, b1, b2, b3, b4⟩
        · exact absurd hfo (P.own i _ ha)
        · rw [← b4]
          exact P.agree j i b _ j1 j2 i1 i2 b1 ha b2 b3
      subst hvv
      refine ⟨Function.update made i (made i ++ [⟨rk, false, key, v⟩]), Function.update left i l,
        move _ _ hl, fun j j1 j2 => ?_, fun j b j1 j2 hb hp => ?_, I.table, ?_⟩
      · dsimp only
        by_cases hj : j = i
        · subst hj
          rw [Function.update_self, Function.update_self]
          exact hf
        · rw [Function.update_of_ne hj, Function.update_of_ne hj]
          exact I.follows j j1 j2
      · dsimp only
        by_cases hj : j = i
        · subst hj
          rw [Function.update_self, List.mem_append, List.mem_singleton] at hb
          rcases hb with hb | rfl
          · exact I.stored j b j1 j2 hb hp
          · cases hp
        · rw [Function.update_of_ne hj] at hb
          exact I.stored j b j1 j2 hb hp
      · rw [sum_length_update i1 i2 _ _ (by simp), I.count]

theorem sound (P : Plan n uuid start tr res) {k : ℕ} {s : Store V α} (h : Store.Steps n uuid start k s)
    {i : ℕ} (h1 : 1 ≤ i) (h2 : i ≤ n) {r : α} (hr : s.client i = .done r) : r = res i := by
  obtain ⟨made, left, I⟩ := P.inv h
  have hf := I.follows i h1 h2
  rw [hr] at hf
  generalize left i = L at hf
  cases hf
  rfl

theorem bounded (P : Plan n uuid start tr res) {k b : ℕ} {s : Store V α}
    (h : Store.Steps n uuid start k s) (hb : ∀ i, 1 ≤ i → i ≤ n → (tr i).length ≤ b) : k ≤ n * b := by
  obtain ⟨made, left, I⟩ := P.inv h
  rw [I.count]
  refine (Finset.sum_le_card_nsmul _ _ b fun i hi => ?_).trans (by simp)
  rw [Finset.mem_Icc] at hi
  have := hb i hi.1 hi.2
  rw [I.split, List.length_append] at this
  omega

theorem complete (P : Plan n uuid start tr res) {k : ℕ} {s : Store V α}
    (h : Store.Steps n uuid start k s) (hs : ¬ ∃ s', Store.Step n s s') {i : ℕ} (h1 : 1 ≤ i) (h2 : i ≤ n) :
    s.client i = .done (res i) := by
  obtain ⟨made, left, I⟩ := P.inv h
  have key : ∀ r i, 1 ≤ i → i ≤ n → ∀ a l, left i = a :: l → a.rank = r → False := by
    intro r
    induction r using Nat.strong_induction_on with
    | _ r ih =>
      intro i i1 i2 a l hl hr
      have hf := I.follows i i1 i2
      rw [hl] at hf
      generalize hc : s.client i = c at hf
      cases hf with
      | post hf => exact hs ⟨_, .post s i i1 i2 _ _ _ hc⟩
      | @poll ky v f rk _ _ hf =>
        have ha : ⟨rk, false, ky, v⟩ ∈ tr i := by rw [I.split, hl]; simp
        obtain ⟨j, b, j1, j2, b1, b2, b3, b4⟩ := P.supply i _ i1 i2 ha rfl
        rw [I.split j, List.mem_append] at b1
        rcases b1 with b1 | b1
        · have := I.stored j b j1 j2 b1 b2
          rw [b3] at this
          exact hs ⟨_, .poll s i i1 i2 ky f _ hc this⟩
        · obtain ⟨c, l', hl'⟩ : ∃ c l', left j = c :: l' := by
            cases hx : left j with
            | nil => rw [hx] at b1; cases b1
            | cons c l' => exact ⟨c, l', rfl⟩
          have hsort := P.sorted j
          rw [I.split j] at hsort
          have hsort := (List.pairwise_append.1 hsort).2.1
          rw [hl'] at hsort b1
          have hcb : c.rank ≤ b.rank := by
            rw [List.mem_cons] at b1
            rcases b1 with rfl | b1
            · exact le_rfl
            · exact List.rel_of_pairwise_cons hsort b1
          exact ih c.rank (by dsimp only at hr b4; omega) j j1 j2 c l' hl' rfl
  have hf := I.follows i h1 h2
  cases hl : left i with
  | cons a l => exact absurd (key _ i h1 h2 a l hl rfl) id
  | nil =>
    rw [hl] at hf
    generalize s.client i = c at hf
    cases hf
    rfl

end Plan

/-! ### Rounds -/

/-- What the parties `1, ..., n` send in a round, by position: to everybody, or to each other one -/
inductive Vals (V : Type) where
  | bcast (f : ℕ → V)
  | p2p (f : ℕ → ℕ → V)

open Manager Props in
/-- The requests of party `k + 1` in round number `rk` -/
def block (n : ℕ) (uuid : String) (k rk : ℕ) (name : String) : Vals V → List (Act V)
  | .bcast f => ⟨2 * rk, true, (Slot.broadcast (k + 1) name uuid).key, f k⟩ ::
      (GG20.Sign.others n k).map fun j => ⟨2 * rk + 1, false, (Slot.broadcast (j + 1) name uuid).key, f j⟩
  | .p2p f =>
      ((GG20.Sign.others n k).map fun j =>
        (⟨2 * rk, true, (Slot.p2p (k + 1) (j + 1) name uuid).key, f k j⟩ : Act V)) ++
      (GG20.Sign.others n k).map fun j => ⟨2 * rk + 1, false, (Slot.p2p (j + 1) (k + 1) name uuid).key, f j k⟩

def trace (n : ℕ) (uuid : String) (k : ℕ) : ℕ → List (String × Vals V) → List (Act V)
  | _, [] => []
  | rk, x :: l => block n uuid k rk x.1 x.2 ++ trace n uuid k (rk + 1) l

section
variable {n : ℕ} {uuid : String}

theorem mem_trace {k : ℕ} {a : Act V} {l : List (String × Vals V)} {rk : ℕ} :
    a ∈ trace n uuid k rk l ↔ ∃ i x, l[i]? = some x ∧ a ∈ block n uuid k (rk + i) x.1 x.2 := by
  induction l generalizing rk with
  | nil => simp [trace]
  | cons y l ih =>
    rw [trace, List.mem_append, ih]
    constructor
    · rintro (h | ⟨i, x, h1, h2⟩)
      · exact ⟨0, y, rfl, h⟩
      · exact ⟨i + 1, x, by simpa using h1, by rwa [show rk + (i + 1) = rk + 1 + i by omega]⟩
    · rintro ⟨i, x, h1, h2⟩
      cases i with
      | zero =>
        obtain rfl : y = x := by simpa using h1
        exact .inl h2
      | succ i => exact .inr ⟨i, x, by simpa using h1, by rwa [show rk + 1 + i = rk + (i + 1) by omega]⟩

theorem block_rank {k rk : ℕ} {name : String} {v : Vals V} {a : Act V} (h : a ∈ block n uuid k rk name v) :
    a.rank = 2 * rk ∧ a.post = true ∨ a.rank = 2 * rk + 1 ∧ a.post = false := by
  cases v with
  | bcast f =>
    simp only [block, List.mem_cons, List.mem_map] at h
    rcases h with rfl | ⟨j, -, rfl⟩
    · exact .inl ⟨rfl, rfl⟩
    · exact .inr ⟨rfl, rfl⟩
  | p2p f =>
    simp only [block, List.mem_append, List.mem_map] at h
    rcases h with ⟨j, -, rfl⟩ | ⟨j, -, rfl⟩
    · exact .inl ⟨rfl, rfl⟩
    · exact .inr ⟨rfl, rfl⟩

theorem block_sorted (k rk : ℕ) (name : String) (v : Vals V) :
    (block n uuid k rk name v).Pairwise (fun a b => a.rank ≤ b.rank) := by
  have const : ∀ (f : ℕ → Act V) c, (∀ j, (f j).rank = c) → ∀ l : List ℕ,
      (l.map f).Pairwise (fun a b => a.rank ≤ b.rank) := by
    intro f c hf l
    rw [List.pairwise_map]
    refine List.pairwise_of_forall fun a b => ?_
    rw [hf, hf]
  cases v with
  | bcast f =>
    refine List.pairwise_cons.2 ⟨fun b hb => ?_, const _ (2 * rk + 1) (fun _ => rfl) _⟩
    obtain ⟨j, -, rfl⟩ := List.mem_map.1 hb
    exact Nat.le_succ _
  | p2p f =>
    refine List.pairwise_append.2 ⟨const _ (2 * rk) (fun _ => rfl) _, const _ (2 * rk + 1) (fun _ => rfl) _,
      fun a ha b hb => ?_⟩
    obtain ⟨j, -, rfl⟩ := List.mem_map.1 ha
    obtain ⟨j, -, rfl⟩ := List.mem_map.1 hb
    exact Nat.le_succ _

theorem trace_sorted (k rk : ℕ) (l : List (String × Vals V)) :
    (trace n uuid k rk l).Pairwise (fun a b => a.rank ≤ b.rank) := by
  induction l generalizing rk with
  | nil => exact .nil
  | cons x l ih =>
    refine List.pairwise_append.2 ⟨block_sorted _ _ _ _, ih _, fun a ha b hb => ?_⟩
    obtain ⟨i, y, -, h2⟩ := mem_trace.1 hb
    rcases block_rank ha with ⟨e, -⟩ | ⟨e, -⟩ <;> rcases block_rank h2 with ⟨e', -⟩ | ⟨e', -⟩ <;> omega

theorem trace_length (k : ℕ) (hk : k < n) (rk : ℕ) (l : List (String × Vals V)) :
    (trace n uuid k rk l).length ≤ l.length * (2 * n) := by
  induction l generalizing rk with
  | nil => simp [trace]
  | cons x l ih =>
    have hb : (block n uuid k rk x.1 x.2).length ≤ 2 * n := by
      cases x.2 with
      | bcast f =>
        simp only [block, List.length_cons, List.length_map, length_others hk]
        omega
      | p2p f =>
        simp only [block, List.length_append, List.length_map, length_others hk]
        omega
    rw [trace, List.length_append, List.length_cons, Nat.succ_mul]
    have := ih (rk + 1)
    omega

open Props

/-- The slot and the value behind a request. -/
theorem block_slot {k rk : ℕ} {name : String} {v : Vals V} {a : Act V} (h : a ∈ block n uuid k rk name v) :
    (∃ f j, v = .bcast f ∧ a.key = (Slot.broadcast (j + 1) name uuid).key ∧ a.val = f j) ∨
      ∃ f i j, v = .p2p f ∧ a.key = (Slot.p2p (i + 1) (j + 1) name uuid).key ∧ a.val = f i j := by
  cases v with
  | bcast f =>
    simp only [block, List.mem_cons, List.mem_map] at h
    rcases h with rfl | ⟨j, -, rfl⟩
    · exact .inl ⟨f, k, rfl, rfl, rfl⟩
    · exact .inl ⟨f, j, rfl, rfl, rfl⟩
  | p2p f =>
    simp only [block, List.mem_append, List.mem_map] at h
    rcases h with ⟨j, -, rfl⟩ | ⟨j, -, rfl⟩
    · exact .inr ⟨f, k, j, rfl, rfl, rfl⟩
    · exact .inr ⟨f, j, k, rfl, rfl, rfl⟩

/-- Programs that follow the rounds `l` finish. -/
theorem Plan.ofRounds {start : Store V α} {l : List (String × Vals V)} {res : ℕ → α}
    (hf : ∀ k < n, Follows (start.client (k + 1)) (trace n uuid k 0 l) (res (k + 1)))
    (hn : (l.map Prod.fst).Nodup) (hr : ∀ x ∈ l, RoundName x.1)
    (hc : ∀ key v, start.table key = some v → Store.Foreign uuid key) :
    Plan n uuid start (fun i => trace n uuid (i - 1) 0 l) res where
  follows i h1 h2 := by
    have := hf (i - 1) (by omega)
    rwa [Nat.sub_add_cancel h1] at this
  agree i j a b _ _ _ _ ha hb _ hk := by
    obtain ⟨ia, x, hx, ha⟩ := mem_trace.1 ha
    obtain ⟨ib, y, hy, hb⟩ := mem_trace.1 hb
    have hxl := hr x (List.mem_of_getElem? hx)
    have hyl := hr y (List.mem_of_getElem? hy)
    have same : x.1 = y.1 → x = y := by
      intro e
      have hx' : (l.map Prod.fst)[ia]? = some x.1 := by rw [List.getElem?_map, hx]; rfl
      have hy' : (l.map Prod.fst)[ib]? = some x.1 := by rw [List.getElem?_map, hy, e]; rfl
      have hlt := (List.getElem?_eq_some_iff.1 hx').choose
      have : ia = ib := (List.getElem?_inj hlt hn).1 (hx'.trans hy'.symm)
      rw [this, hy] at hx
      exact (Option.some.inj hx).symm
    rcases block_slot ha with ⟨f, p, e1, e2, e3⟩ | ⟨f, p, p', e1, e2, e3⟩ <;>
      rcases block_slot hb with ⟨g, p2, e4, e5, e6⟩ | ⟨g, p2, p2', e4, e5, e6⟩ <;>
      rw [e2, e5] at hk
    · have := C61_keys_distinct (by exact hxl) (by exact hyl) hk
      injection this with h1 h2
      obtain rfl := same h2
      obtain rfl : p = p2 := by omega
      rw [e1] at e4
      cases e4
      rw [e3, e6]
    · have := C61_keys_distinct (by exact hxl) (by exact hyl) hk
      cases this
    · have := C61_keys_distinct (by exact hxl) (by exact hyl) hk
      cases this
    · have := C61_keys_distinct (by exact hxl) (by exact hyl) hk
      injection this with h1 h2 h3
      obtain rfl := same h3
      obtain rfl : p = p2 := by omega
      obtain rfl : p' = p2' := by omega
      rw [e1] at e4
      cases e4
      rw [e3, e6]
  sorted i := trace_sorted _ _ _
  supply i b h1 h2 hb hp := by
    obtain ⟨ib, x, hx, hb⟩ := mem_trace.1 hb
    cases hv : x.2 with
    | bcast f =>
      rw [hv] at hb
      simp only [block, List.mem_cons, List.mem_map] at hb
      rcases hb with rfl | ⟨j, hj, rfl⟩
      · cases hp
      · have hj := GG20.Sign.mem_others.1 hj
        refine ⟨j + 1, ⟨2 * (0 + ib), true, (Slot.broadcast (j + 1) x.1 uuid).key, f j⟩, by omega, by omega,
          mem_trace.2 ⟨ib, x, hx, ?_⟩, rfl, rfl, Nat.lt_succ_self _⟩
        rw [hv]
        exact List.mem_cons_self ..
    | p2p f =>
      rw [hv] at hb
      simp only [block, List.mem_append, List.mem_map] at hb
      rcases hb with ⟨j, -, rfl⟩ | ⟨j, hj, rfl⟩
      · cases hp
      · have hj := GG20.Sign.mem_others.1 hj
        refine ⟨j + 1, ⟨2 * (0 + ib), true, (Slot.p2p (j + 1) (i - 1 + 1) x.1 uuid).key, f j (i - 1)⟩,
          by omega, by omega, mem_trace.2 ⟨ib, x, hx, ?_⟩, rfl, rfl, Nat.lt_succ_self _⟩
        rw [hv]
        refine List.mem_append_left _ (List.mem_map.2 ⟨i - 1, ?_, rfl⟩)
        exact GG20.Sign.mem_others.2 ⟨by omega, fun e => hj.2 e.symm⟩
  own i a ha hfo := by
    obtain ⟨ia, x, hx, ha⟩ := mem_trace.1 ha
    rcases block_slot ha with ⟨f, p, e1, e2, e3⟩ | ⟨f, p, p', e1, e2, e3⟩
    · exact (hfo (p + 1) 0 x.1).1 e2
    · exact (hfo (p + 1) (p' + 1) x.1).2 e2
  clean := hc

theorem follows_gather {r : α} {l : List (Act V)} {rk : ℕ} {key : ℕ → String} {f : ℕ → V} :
    ∀ {js : List ℕ} {F : List V → Prog V α}, Follows (F (js.map f)) l r →
    Follows (gather (js.map key) F) (js.map (fun j => ⟨rk, false, key j, f j⟩) ++ l) r
  | [], _, h => h
  | j :: _, F, h => .poll (follows_gather (F := fun vs => F (f j :: vs)) h)

theorem dec_all {c : Codec V β} {f : ℕ → β} (js : List ℕ) :
    (js.map fun j => c.enc (f j)).mapM c.dec = some (js.map f) := by
  induction js with
  | nil => rfl
  | cons j js ih => rw [List.map_cons, List.mapM_cons, ih, c.dec_enc]; rfl

theorem follows_recv {c : Codec V β} {r : Res Empty α} {l : List (Act V)}
    {rk : ℕ} {key : ℕ → String} {f : ℕ → β} {js : List ℕ} {F : List β → Prog V (Res Empty α)}
    (h : Follows (F (js.map f)) l r) :
    Follows (recv c (js.map key) F) (js.map (fun j => ⟨rk, false, key j, c.enc (f j)⟩) ++ l) r := by
  refine follows_gather ?_
  rw [dec_all]
  exact h

theorem follows_bcast {c : Codec V β} {F : List β → Prog V (Res Empty α)} {r : Res Empty α}
    {l : List (Act V)} {rk k : ℕ} {name : String} {f : ℕ → β}
    (h : Follows (F ((GG20.Sign.others n k).map f)) l r) :
    Follows (send c name uuid [⟨k + 1, none, f k⟩] (poll_for_broadcasts c (k + 1) n name uuid F))
      (block n uuid k rk name (.bcast fun j => c.enc (f j)) ++ l) r := by
  refine .post ?_
  unfold poll_for_broadcasts poll
  rw [filter_range'_others]
  exact follows_recv h

theorem follows_p2p {c : Codec V β} {F : List β → Prog V (Res Empty α)} {r : Res Empty α}
    {l : List (Act V)} {rk k : ℕ} {name : String} {f : ℕ → ℕ → β}
    (h : Follows (F ((GG20.Sign.others n k).map fun j => f j k)) l r) :
    Follows (send c name uuid ((GG20.Sign.others n k).map fun j => ⟨k + 1, some (j + 1), f k j⟩)
      (poll_for_p2p c (k + 1) n name uuid F))
      (block n uuid k rk name (.p2p fun i j => c.enc (f i j)) ++ l) r := by
  have hsend : ∀ (js : List ℕ) {p : Prog V (Res Empty α)} {l : List (Act V)}, Follows p l r →
      Follows (send c name uuid (js.map fun j => ⟨k + 1, some (j + 1), f k j⟩) p)
        (js.map (fun j => ⟨2 * rk, true, (Slot.p2p (k + 1) (j + 1) name uuid).key, c.enc (f k j)⟩) ++ l) r := by
    intro js
    induction js with
    | nil => exact fun h => h
    | cons j js ih => exact fun h => .post (ih h)
  rw [block, List.append_assoc]
  refine hsend _ ?_
  unfold poll_for_p2p poll
  rw [filter_range'_others]
  exact follows_recv (f := fun j => f j k) h

end

end Verif.Demo
