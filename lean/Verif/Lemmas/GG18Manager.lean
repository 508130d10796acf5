import Verif.Spec.Managers
import Mathlib.Data.List.Basic
import Mathlib.Algebra.Order.Group.Nat
import Mathlib.Tactic.Common

/-! Lemmas on the keys and sign-ups of the GG18 manager. -/

namespace Verif.Demo.Manager

theorem toDigits_inj {n m : ℕ} (h : Nat.toDigits 10 n = Nat.toDigits 10 m) : n = m := by
  have := congrArg (fun l => Nat.ofDigitChars 10 l 0) h
  simpa using this

theorem digit_of_mem {n : ℕ} {c : Char} (h : c ∈ Nat.toDigits 10 n) : c.isDigit = true :=
  Nat.isDigit_of_mem_toDigits (by decide) (by decide) h

theorem dash_notMem (n : ℕ) : '-' ∉ Nat.toDigits 10 n := by
  intro h
  have := digit_of_mem h
  simp [Char.isDigit] at this

theorem toDigits_ne_nil (n : ℕ) : Nat.toDigits 10 n ≠ [] := by
  intro h
  have := Nat.length_toDigits_pos (b := 10) (n := n)
  rw [h] at this
  simp at this

theorem split_at_dash {l l' r r' : List Char} (h : '-' ∉ l) (h' : '-' ∉ l')
    (e : l ++ '-' :: r = l' ++ '-' :: r') : l = l' ∧ r = r' := by
  induction l generalizing l' with
  | nil =>
    cases l' with
    | nil => simpa using e
    | cons c l' =>
      simp only [List.nil_append, List.cons_append, List.cons.injEq] at e
      exact absurd (by rw [e.1]; simp) h'
  | cons c l ih =>
    cases l' with
    | nil =>
      simp only [List.nil_append, List.cons_append, List.cons.injEq] at e
      exact absurd (by rw [← e.1]; simp) h
    | cons c' l' =>
      simp only [List.cons_append, List.cons.injEq] at e
      obtain ⟨h1, h2⟩ := ih (by simp_all) (by simp_all) e.2
      exact ⟨by rw [e.1, h1], h2⟩

theorem broadcastKey_toList (p : ℕ) (r u : String) :
    (broadcastKey p r u).toList = Nat.toDigits 10 p ++ '-' :: (r.toList ++ '-' :: u.toList) := by
  simp [broadcastKey]

theorem p2pKey_toList (p p' : ℕ) (r u : String) :
    (p2pKey p p' r u).toList =
      Nat.toDigits 10 p ++ '-' :: (Nat.toDigits 10 p' ++ '-' :: (r.toList ++ '-' :: u.toList)) := by
  simp [p2pKey]

/-! ### Sign-ups one after the other -/

theorem Kind.key_inj {k k' : Kind} (h : k.key = k'.key) : k = k' := by
  cases k <;> cases k' <;> simp [Kind.key] at h ⊢

variable (J : Json) (P : Params)

/-- The counter of a kind after `c` sign-ups, when the session ids are `S 0, S 1, ...` -/
def counter (L : ℕ) (S : ℕ → String) : ℕ → PartySignup
  | 0 => ⟨0, S 0⟩
  | c + 1 => ⟨c % L + 1, S (c / L)⟩

theorem counter_next {L : ℕ} (hL : 0 < L) (S : ℕ → String) (c : ℕ) (u : String)
    (hu : c ≠ 0 → c % L = 0 → u = S (c / L)) :
    (if (counter L S c).number < L then (⟨(counter L S c).number + 1, (counter L S c).uuid⟩ : PartySignup)
      else ⟨1, u⟩) = counter L S (c + 1) := by
  cases c with
  | zero => simp [counter, hL]
  | succ c =>
    have hlt := Nat.mod_lt c hL
    change (if c % L + 1 < L then (⟨c % L + 1 + 1, S (c / L)⟩ : PartySignup) else ⟨1, u⟩) =
      ⟨(c + 1) % L + 1, S ((c + 1) / L)⟩
    by_cases h : c % L + 1 < L
    · rw [if_pos h]
      have h1 : (c + 1) % L = c % L + 1 := by
        rw [Nat.add_mod, Nat.mod_eq_of_lt (show 1 < L by omega), Nat.mod_eq_of_lt h]
      have h2 : (c + 1) / L = c / L := by
        have e1 := Nat.div_add_mod c L
        have e2 := Nat.div_add_mod (c + 1) L
        rw [h1] at e2
        have : L * ((c + 1) / L) = L * (c / L) := by omega
        exact Nat.eq_of_mul_eq_mul_left hL this
      rw [h1, h2]
    · rw [if_neg h]
      have hc : c % L + 1 = L := by omega
      have h1 : (c + 1) % L = 0 := by
        rw [Nat.add_mod]
        by_cases h1 : L = 1
        · subst h1; omega
        · rw [Nat.mod_eq_of_lt (show 1 < L by omega), hc, Nat.mod_self]
      rw [h1, hu (by omega) h1]

theorem offered_cons (kind : Kind) (e : Event) (es : List Event) :
    offered kind (e :: es) = offered kind [e] ++ offered kind es := List.filterMap_append (l := [e])

theorem numbers_append (kind : Kind) (o o' : List Out) :
    numbers kind (o ++ o') = numbers kind o ++ numbers kind o' := List.filterMap_append

/-- The sign-up counter and the sign-up in progress, after `c` answers -/
inductive At (kind : Kind) (S : ℕ → String) (m : Mgr) (c : ℕ) : ℕ → Prop
  | idle : m.tab kind.key = some (J.write (counter (P.limit kind) S c)) →
      (∀ s, (kind, s) ∉ m.busy) → At kind S m c 0
  | busy (j : ℕ) : m.tab kind.key = some (J.write (counter (P.limit kind) S c)) →
      m.busy[j]? = some (kind, counter (P.limit kind) S (c + 1)) →
      (∀ j' s, m.busy[j']? = some (kind, s) → j' = j) → At kind S m c 1

theorem At.congr {kind : Kind} {S : ℕ → String} {m m' : Mgr} {c b : ℕ} (h : At J P kind S m c b)
    (h1 : m'.tab kind.key = m.tab kind.key) (h2 : m'.busy = m.busy) : At J P kind S m' c b := by
  cases h with
  | idle a b => exact .idle (by rw [h1, a]) (by rw [h2]; exact b)
  | busy j a b d => exact .busy j (by rw [h1, a]) (by rw [h2, b]) (by rw [h2]; exact d)

theorem getElem?_eraseIdx_of {α : Type} {l : List α} {j j' : ℕ} {x : α} (h : (l.eraseIdx j)[j']? = some x) :
    ∃ i, l[i]? = some x ∧ i ≠ j ∧ j' = if i < j then i else i - 1 := by
  rw [List.getElem?_eraseIdx] at h
  split_ifs at h with hj
  · exact ⟨j', h, by omega, by rw [if_pos hj]⟩
  · exact ⟨j' + 1, h, by omega, by rw [if_neg (by omega)]; omega⟩

theorem step_at {kind : Kind} (hL : 0 < P.limit kind) {S : ℕ → String} {m : Mgr} {c b : ℕ} {e : Event}
    (h : At J P kind S m c b) (hs : (∃ u, e = .signupRead kind u) → ∀ s, (kind, s) ∉ m.busy)
    (hk : ∀ v, e ≠ .set kind.key v)
    (hS : ∀ u ∈ offered kind [e], c ≠ 0 → c % P.limit kind = 0 → u = S (c / P.limit kind)) :
    ∃ d b', At J P kind S (m.step J P e).1 (c + d) b' ∧
      d + b' = b + (offered kind [e]).length ∧
      numbers kind (m.step J P e).2 =
        (List.range d).map (fun i => some (counter (P.limit kind) S (c + i + 1))) := by
  cases e with
  | get key => exact ⟨0, b, h, by simp [offered], rfl⟩
  | set key value =>
    refine ⟨0, b, h.congr J P ?_ rfl, by simp [offered], rfl⟩
    have : kind.key ≠ key := by
      rintro rfl
      exact hk value rfl
    simp [Mgr.step, Table.insert, this]
  | signupRead k u =>
    by_cases hkk : k = kind
    · subst hkk
      have hb := hs ⟨u, rfl⟩
      have hof : offered k [.signupRead k u] = [u] := by simp [offered]
      cases h with
      | busy j h1 h2 h3 => exact absurd (List.mem_of_getElem? h2) (hb _)
      | idle h1 _ =>
        have hu := hS u (by rw [hof]; simp)
        have hr : readPhase J P m.tab k u = some (counter (P.limit k) S (c + 1)) := by
          simp only [readPhase, h1, Option.bind_eq_bind, Option.bind_some, J.read_write]
          rw [counter_next hL S c u hu]
        refine ⟨0, 1, ?_, by rw [hof]; rfl, ?_⟩
        · simp only [Mgr.step, hr]
          refine .busy m.busy.length h1 (by simp) ?_
          intro j' s hj
          by_contra hne
          simp only [List.getElem?_append] at hj
          split_ifs at hj with hlt
          · exact hb s (List.mem_of_getElem? hj)
          · rw [List.getElem?_singleton, if_neg (by omega)] at hj
            simp at hj
        · simp only [Mgr.step, hr]; rfl
    · have hof : offered kind [.signupRead k u] = [] := by simp [offered, hkk]
      refine ⟨0, b, ?_, by rw [hof]; simp, ?_⟩
      · simp only [Mgr.step]
        cases hr : readPhase J P m.tab k u with
        | none => exact h
        | some s =>
          have key : ∀ (j' : ℕ) (s' : PartySignup), (m.busy ++ [(k, s)])[j']? = some (kind, s') → m.busy[j']? = some (kind, s') := by
            intro j' s' hj
            simp only [List.getElem?_append] at hj
            split_ifs at hj with hlt
            · exact hj
            · rw [List.getElem?_singleton] at hj
              split_ifs at hj
              simp [hkk] at hj
          cases h with
          | idle h1 h2 =>
            refine .idle h1 fun s' hm => ?_
            obtain ⟨j', hj⟩ := List.getElem?_of_mem hm
            exact h2 s' (List.mem_of_getElem? (key j' s' hj))
          | busy j h1 h2 h3 =>
            have hj : j < m.busy.length := (List.getElem?_eq_some_iff.1 h2).1
            exact .busy j h1 (by simp only [List.getElem?_append, if_pos hj, h2])
              fun j' s' hm => h3 j' s' (key j' s' hm)
      · simp only [Mgr.step]
        cases readPhase J P m.tab k u <;> simp [numbers, hkk]
  | signupWrite j =>
    have hof : offered kind [.signupWrite j] = [] := rfl
    simp only [Mgr.step]
    cases hj : m.busy[j]? with
    | none => exact ⟨0, b, h, by rw [hof]; simp, rfl⟩
    | some ks =>
      obtain ⟨k, s⟩ := ks
      by_cases hkk : k = kind
      · subst hkk
        cases h with
        | idle h1 h2 => exact absurd (List.mem_of_getElem? hj) (h2 s)
        | busy j0 h1 h2 h3 =>
          obtain rfl := h3 j s hj
          rw [h2] at hj
          obtain rfl : counter (P.limit k) S (c + 1) = s := by simpa using hj
          refine ⟨1, 0, .idle (by simp [writePhase, Table.insert]) ?_, by rw [hof]; rfl, by simp [numbers]⟩
          intro s' hm
          obtain ⟨j', hj'⟩ := List.getElem?_of_mem hm
          obtain ⟨i, h4, h5, -⟩ := getElem?_eraseIdx_of hj'
          exact h5 (h3 i s' h4)
      · refine ⟨0, b, ?_, by rw [hof]; simp, by simp [numbers, hkk]⟩
        have hne : kind.key ≠ k.key := fun h => hkk (Kind.key_inj h).symm
        have ht : (writePhase J m.tab k s) kind.key = m.tab kind.key := by
          simp [writePhase, Table.insert, hne]
        cases h with
        | idle h1 h2 =>
          exact .idle (by simp only [ht, h1, Nat.add_zero]) fun s' hm => h2 s' (List.mem_of_mem_eraseIdx hm)
        | busy j0 h1 h2 h3 =>
          have hj0 : j0 ≠ j := by
            rintro rfl
            rw [h2] at hj
            simp only [Option.some.injEq, Prod.mk.injEq] at hj
            exact hkk hj.1.symm
          refine .busy (if j0 < j then j0 else j0 - 1) (by simp only [ht, h1, Nat.add_zero]) ?_ ?_
          · rw [List.getElem?_eraseIdx]
            by_cases h5 : j0 < j
            · rw [if_pos h5, if_pos h5, h2]
            · rw [if_neg h5, if_neg (by omega), show j0 - 1 + 1 = j0 by omega, h2]
          · intro j' s' hm
            obtain ⟨i, h4, h5, h6⟩ := getElem?_eraseIdx_of hm
            rw [h6, h3 i s' h4]

theorem run_at {kind : Kind} (hL : 0 < P.limit kind) (S : ℕ → String) (es : List Event) :
    ∀ {m : Mgr} {c b : ℕ}, At J P kind S m c b → Serial J P kind m es → KeepsCounter kind es →
    (∀ i u, (offered kind es)[i]? = some u → c + b + i ≠ 0 → (c + b + i) % P.limit kind = 0 →
      u = S ((c + b + i) / P.limit kind)) →
    ∃ d b', At J P kind S (m.run J P es).1 (c + d) b' ∧ d + b' = b + (offered kind es).length ∧
      numbers kind (m.run J P es).2 =
        (List.range d).map (fun i => some (counter (P.limit kind) S (c + i + 1))) := by
  induction es with
  | nil =>
    intro m c b h _ _ _
    exact ⟨0, b, h, by simp [offered], rfl⟩
  | cons e es ih =>
    intro m c b h hs hk hS
    have hb : ∀ u ∈ offered kind [e], b = 0 := by
      intro u hu
      cases h with
      | idle => rfl
      | busy j h1 h2 h3 =>
        cases e with
        | signupRead k u' =>
          by_cases hkk : k = kind
          · subst hkk
            exact absurd (List.mem_of_getElem? h2) (hs.1 ⟨u', rfl⟩ _)
          · simp [offered, hkk] at hu
        | _ => simp [offered] at hu
    have hlen : (offered kind [e]).length ≤ 1 := by
      unfold offered
      exact (List.length_filterMap_le _ _)
    obtain ⟨d, b1, a1, l1, n1⟩ := step_at J P hL h hs.1
      (fun v hv => hk v (by simp [hv])) (by
        intro u hu h0 h1
        have hb0 := hb u hu
        have hx : (offered kind [e])[0]? = some u := by
          obtain ⟨i, hi⟩ := List.getElem?_of_mem hu
          have := (List.getElem?_eq_some_iff.1 hi).1
          obtain rfl : i = 0 := by omega
          exact hi
        have := hS 0 u (by
          rw [offered_cons, List.getElem?_append_left (List.getElem?_eq_some_iff.1 hx).1, hx])
        rw [hb0] at this
        exact this h0 h1)
    obtain ⟨d', b2, a2, l2, n2⟩ := ih a1 hs.2 (fun v hv => hk v (List.mem_cons_of_mem _ hv)) (by
      intro i u hi
      have := hS (i + (offered kind [e]).length) u (by
        rw [offered_cons, List.getElem?_append_right (by omega), Nat.add_sub_cancel, hi])
      rwa [show c + b + (i + (offered kind [e]).length) = c + d + b1 + i by omega] at this)
    refine ⟨d + d', b2, ?_, ?_, ?_⟩
    · rw [← Nat.add_assoc]; exact a2
    · rw [offered_cons, List.length_append]; omega
    · simp only [Mgr.run]
      rw [numbers_append, n1, n2, List.range_add, List.map_append, List.map_map]
      congr 1
      refine List.map_congr_left fun i _ => ?_
      simp only [Function.comp, Nat.add_assoc]

end Verif.Demo.Manager
