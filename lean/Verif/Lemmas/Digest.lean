import Verif.Ext.Digest
import Verif.Ext.Sha256
import Verif.Lemmas.Bytes
import Verif.Spec.Hashing

namespace Verif

theorem Sha256.hash_length (m : List UInt8) : (Sha256.hash m).length = 32 := by
  unfold Sha256.hash Sha256.St.bytes
  simp only [List.length_flatMap, beBytes_length]
  rfl

namespace Digest

open EC Spec

/-- A byte string without leading zero is the encoding of its number. -/
theorem toBytes_eq {n : ℤ} {bs : List UInt8} {k : ℕ} (hl : bs.length = k + 1) (h : fromBytes bs = n.natAbs)
    (h0 : k = 0 ∨ 256 ^ k ≤ n.natAbs) : toBytes n = bs := by
  apply fromBytes_inj
  · have h1 : (toBytes n).length ≤ k + 1 := (toBytes_length_le (by omega)).2 (by
      rw [← h, ← hl]; exact fromBytes_lt bs)
    have h2 : ¬ (toBytes n).length ≤ k := by
      intro hle
      rcases Nat.eq_zero_or_pos k with hk | hk
      · subst hk
        have : toBytes n = [] := List.length_eq_zero_iff.1 (by omega)
        unfold toBytes at this
        split at this
        · cases this
        · rename_i hn
          simp only [List.map_eq_nil_iff, List.reverse_eq_nil_iff, Nat.digits_eq_nil_iff_eq_zero] at this
          omega
      · have := (toBytes_length_le hk).1 hle
        omega
    omega
  · rw [fromBytes_toBytes, h]

theorem toBytes_ne_nil (n : ℤ) : toBytes n ≠ [] := by
  unfold toBytes
  split
  · simp
  · rename_i hn
    simp only [ne_eq, List.map_eq_nil_iff, List.reverse_eq_nil_iff, Nat.digits_eq_nil_iff_eq_zero]
    omega

section
variable [EC]

theorem compressed_length {P : Pt} {x y : ℕ} (h : coords P = some (x, y)) : (compressed P).length = 33 := by
  unfold compressed; rw [h]; simp [beBytes_length]

theorem fromBytes_compressed (P : Pt) : (fromBytes (compressed P) : ℤ) = ser P := by
  unfold compressed ser
  cases h : coords P with
  | none => rfl
  | some xy =>
    obtain ⟨x, y⟩ := xy
    have hx := (coords_lt P x y h).1
    have hp := p_lt
    dsimp only
    rw [fromBytes_cons, beBytes_length, fromBytes_beBytes (by omega),
      UInt8.toNat_ofNat_of_lt' (by have : UInt8.size = 256 := rfl; omega)]
    norm_num

theorem toBytes_ser (P : Pt) : toBytes (ser P) = compressed P := by
  cases h : coords P with
  | none => unfold ser compressed; rw [h]; rfl
  | some xy =>
    obtain ⟨x, y⟩ := xy
    refine toBytes_eq (k := 32) (compressed_length h) ?_ (.inr ?_)
    · rw [← fromBytes_compressed]; rfl
    · unfold ser
      rw [h]
      show 256 ^ 32 ≤ (2 + y % 2) * 2 ^ 256 + x
      have : (256 : ℕ) ^ 32 = 2 ^ 256 := by norm_num
      rw [this]
      nlinarith [Nat.zero_le (y % 2)]

/-- Encodings of points are a prefix code. -/
theorem compressed_append_inj {P Q : Pt} {a b : List UInt8} (h : compressed P ++ a = compressed Q ++ b) :
    P = Q ∧ a = b := by
  have hlen : (compressed P).length = (compressed Q).length := by
    cases hP : coords P with
    | none =>
      cases hQ : coords Q with
      | none => unfold compressed; rw [hP, hQ]
      | some xy =>
        exfalso
        unfold compressed at h
        rw [hP, hQ] at h
        injection h with h1 _
        have : xy.2 % 2 = 0 ∨ xy.2 % 2 = 1 := by omega
        rcases this with e | e <;> rw [e] at h1 <;> exact absurd h1 (by decide)
    | some xy =>
      cases hQ : coords Q with
      | none =>
        exfalso
        unfold compressed at h
        rw [hP, hQ] at h
        injection h with h1 _
        have : xy.2 % 2 = 0 ∨ xy.2 % 2 = 1 := by omega
        rcases this with e | e <;> rw [e] at h1 <;> exact absurd h1 (by decide)
      | some xy' => rw [compressed_length hP, compressed_length hQ]
  obtain ⟨h1, h2⟩ := List.append_inj h hlen
  refine ⟨ser_inj ?_, h2⟩
  rw [← fromBytes_compressed, ← fromBytes_compressed, h1]

theorem uncompressed_length {P : Pt} {x y : ℕ} (h : coords P = some (x, y)) :
    (uncompressed P).length = 65 := by
  unfold uncompressed; rw [h]; simp [beBytes_length]

theorem uncompressed_append_inj {P Q : Pt} {a b : List UInt8} (h : uncompressed P ++ a = uncompressed Q ++ b) :
    P = Q ∧ a = b := by
  cases hP : coords P with
  | none =>
    cases hQ : coords Q with
    | none =>
      unfold uncompressed at h
      rw [hP, hQ] at h
      exact ⟨((coords_eq_none P).1 hP).trans ((coords_eq_none Q).1 hQ).symm, List.tail_eq_of_cons_eq h⟩
    | some xy =>
      unfold uncompressed at h
      rw [hP, hQ] at h
      injection h with h1 _
      exact absurd h1 (by decide)
  | some xy =>
    cases hQ : coords Q with
    | none =>
      unfold uncompressed at h
      rw [hP, hQ] at h
      injection h with h1 _
      exact absurd h1 (by decide)
    | some xy' =>
      obtain ⟨h1, h2⟩ := List.append_inj h (by rw [uncompressed_length hP, uncompressed_length hQ])
      refine ⟨coords_inj ?_, h2⟩
      have hp := p_lt
      have a1 := coords_lt P _ _ hP
      have a2 := coords_lt Q _ _ hQ
      unfold uncompressed at h1
      rw [hP, hQ] at h1
      obtain ⟨e1, e2⟩ := List.append_inj (List.tail_eq_of_cons_eq h1) (by rw [beBytes_length, beBytes_length])
      have e1' := congrArg fromBytes e1
      have e2' := congrArg fromBytes e2
      rw [fromBytes_beBytes (by omega), fromBytes_beBytes (by omega)] at e1' e2'
      rw [hP, hQ, Prod.ext e1' e2']

/-- Lists of points followed by two strings of the same length -/
theorem flatMap_uncompressed_inj {l l' : List Pt} {a b : List UInt8} (hl : a.length = b.length)
    (h : l.flatMap uncompressed ++ a = l'.flatMap uncompressed ++ b) : l = l' ∧ a = b := by
  have hpos : ∀ P : Pt, 0 < (uncompressed P).length := by
    intro P
    unfold uncompressed
    split <;> simp
  induction l generalizing l' with
  | nil =>
    obtain _ | ⟨Q, l'⟩ := l'
    · exact ⟨rfl, h⟩
    · have := congrArg List.length h
      simp only [List.flatMap_cons, List.flatMap_nil, List.nil_append, List.length_append] at this
      have := hpos Q
      omega
  | cons P l ih =>
    obtain _ | ⟨Q, l'⟩ := l'
    · have := congrArg List.length h
      simp only [List.flatMap_cons, List.flatMap_nil, List.nil_append, List.length_append] at this
      have := hpos P
      omega
    · simp only [List.flatMap_cons, List.append_assoc] at h
      obtain ⟨rfl, h2⟩ := uncompressed_append_inj h
      obtain ⟨rfl, rfl⟩ := ih h2
      exact ⟨rfl, rfl⟩

end

section
variable {H : List UInt8 → List UInt8} (hH : ∀ m, (H m).length = 32)
include hH

theorem eq_or_collide {m m' : List UInt8} (h : fromBytes (H m) = fromBytes (H m')) :
    m = m' ∨ Collide H m m' := by
  by_cases e : m = m'
  · exact .inl e
  · exact .inr ⟨e, fromBytes_inj (by rw [hH, hH]) h⟩

theorem ints_inj {l l' : List ℤ} (h : ints H l = ints H l') :
    intBytes l = intBytes l' ∨ Collide H (intBytes l) (intBytes l') := eq_or_collide hH h

omit hH in
/-- Numbers can be told apart in the concatenation of their bytes if they have the same lengths. -/
theorem intBytes_inj : ∀ {l l' : List ℤ}, l.map (fun n => (toBytes n).length) = l'.map (fun n => (toBytes n).length) →
    intBytes l = intBytes l' → l.map Int.natAbs = l'.map Int.natAbs
  | [], l', hl, _ => by
    obtain rfl : l' = [] := by simpa using hl.symm
    rfl
  | n :: l, [], hl, _ => by simp at hl
  | n :: l, n' :: l', hl, h => by
    simp only [List.map_cons, List.cons.injEq] at hl
    simp only [intBytes, List.flatMap_cons] at h
    obtain ⟨h1, h2⟩ := List.append_inj h hl.1
    have := congrArg fromBytes h1
    rw [fromBytes_toBytes, fromBytes_toBytes] at this
    rw [List.map_cons, List.map_cons, this, intBytes_inj hl.2 h2]

theorem com_ser_inj [EC] {P Q : Pt} {b b' : ℤ} (h : com H (ser P) b = com H (ser Q) b') :
    (P = Q ∧ b.natAbs = b'.natAbs) ∨ Collide H (intBytes [ser P, b]) (intBytes [ser Q, b']) := by
  unfold com at h
  rw [Int.natCast_inj] at h
  refine (ints_inj hH h).imp (fun h => ?_) id
  simp only [intBytes, List.flatMap_cons, List.flatMap_nil, List.append_nil, toBytes_ser] at h
  obtain ⟨h1, h2⟩ := compressed_append_inj h
  refine ⟨h1, ?_⟩
  have := congrArg fromBytes h2
  rwa [fromBytes_toBytes, fromBytes_toBytes] at this

theorem ptsInt_inj [EC] {l l' : List Pt} (h : ptsInt H l = ptsInt H l') :
    l = l' ∨ Collide H (ptBytes l) (ptBytes l') := by
  unfold ptsInt at h
  rw [Int.natCast_inj] at h
  refine (eq_or_collide hH h).imp (fun h => ?_) id
  exact (flatMap_uncompressed_inj (a := []) (b := []) rfl (by simpa using h)).1

theorem com_ptsInt_inj [EC] {l l' : List Pt} {b b' : ℤ}
    (h : com H (ptsInt H l) b = com H (ptsInt H l') b') :
    (l = l' ∧ b.natAbs = b'.natAbs) ∨ Collide H (ptBytes l) (ptBytes l') ∨
      Collide H (intBytes [ptsInt H l, b]) (intBytes [ptsInt H l', b']) ∨
      ProperPrefix (ptsInt H l) (ptsInt H l') := by
  unfold com at h
  rw [Int.natCast_inj] at h
  rcases ints_inj hH h with h | h
  swap
  · exact .inr (.inr (.inl h))
  simp only [intBytes, List.flatMap_cons, List.flatMap_nil, List.append_nil] at h
  by_cases e : toBytes (ptsInt H l) = toBytes (ptsInt H l')
  · have e' : ptsInt H l = ptsInt H l' := by
      have := congrArg fromBytes e
      rw [fromBytes_toBytes, fromBytes_toBytes] at this
      unfold ptsInt at this ⊢
      simpa using this
    rcases ptsInt_inj hH e' with h' | h'
    · refine .inl ⟨h', ?_⟩
      rw [e'] at h
      have := congrArg fromBytes (List.append_cancel_left h)
      rwa [fromBytes_toBytes, fromBytes_toBytes] at this
    · exact .inr (.inl h')
  · refine .inr (.inr (.inr ⟨e, ?_⟩))
    exact List.prefix_or_prefix_of_prefix (l₃ := toBytes (ptsInt H l) ++ toBytes b) ⟨_, rfl⟩ ⟨_, h.symm⟩

omit hH in
theorem firstOf_eq {α : Type} {f : ℕ → Option α} : ∀ {fuel i : ℕ},
    (∃ j, j < fuel ∧ ∃ a, f (i + j) = some a ∧ firstOf f fuel i = some a) ∨
      (∀ j < fuel, f (i + j) = none) ∧ firstOf f fuel i = none
  | 0, i => .inr ⟨fun j hj => absurd hj (by omega), rfl⟩
  | fuel + 1, i => by
    cases h : f i with
    | some a => exact .inl ⟨0, by omega, a, h, by rw [firstOf, h]; rfl⟩
    | none =>
      have hf : firstOf f (fuel + 1) i = firstOf f fuel (i + 1) := by rw [firstOf, h]; rfl
      rcases firstOf_eq (f := f) (fuel := fuel) (i := i + 1) with ⟨j, hj, a, h1, h2⟩ | ⟨h1, h2⟩
      · exact .inl ⟨j + 1, by omega, a, by rw [show i + (j + 1) = i + 1 + j by omega]; exact h1, by rw [hf, h2]⟩
      · refine .inr ⟨fun j hj => ?_, by rw [hf, h2]⟩
        cases j with
        | zero => exact h
        | succ j =>
          have := h1 j (by omega)
          rwa [show i + (j + 1) = i + 1 + j by omega]

omit hH in
/-- The challenge is the digest of the points and some counter, unless no counter will do. -/
theorem pts_eq [EC] (l : List Pt) : NoScalar H l ∨
    ∃ i < 2 ^ 32, fromBytes (H (ptBytes l ++ beBytes 4 i)) < q ∧
      pts H l = (fromBytes (H (ptBytes l ++ beBytes 4 i)) : Sc) := by
  unfold pts
  rcases firstOf_eq (f := fun i =>
      let d := fromBytes (H (l.flatMap uncompressed ++ beBytes 4 i))
      if d < q then some (d : Sc) else none) (fuel := 2 ^ 32) (i := 0) with ⟨j, hj, a, h1, h2⟩ | ⟨h1, -⟩
  · right
    rw [h2]
    dsimp only at h1
    rw [Nat.zero_add] at h1
    split at h1
    · rename_i hlt
      exact ⟨j, hj, hlt, (Option.some.inj h1).symm⟩
    · cases h1
  · left
    intro j hj
    have := h1 j hj
    dsimp only at this
    rw [Nat.zero_add] at this
    split at this
    · cases this
    · rename_i hlt; exact Nat.not_lt.1 hlt

theorem pts_inj [EC] {l l' : List Pt} (h : pts H l = pts H l') :
    l = l' ∨ (∃ i i', Collide H (ptBytes l ++ beBytes 4 i) (ptBytes l' ++ beBytes 4 i')) ∨
      NoScalar H l ∨ NoScalar H l' := by
  rcases pts_eq (H := H) l with hn | ⟨i, -, hlt, e⟩
  · exact .inr (.inr (.inl hn))
  rcases pts_eq (H := H) l' with hn | ⟨i', -, hlt', e'⟩
  · exact .inr (.inr (.inr hn))
  rw [e, e'] at h
  have := (ZMod.natCast_eq_natCast_iff' _ _ _).1 h
  rw [Nat.mod_eq_of_lt hlt, Nat.mod_eq_of_lt hlt'] at this
  rcases eq_or_collide hH this with h | h
  · exact .inl (flatMap_uncompressed_inj (by rw [beBytes_length, beBytes_length]) h).1
  · exact .inr (.inl ⟨i, i', h⟩)

end

/-- Bytes can move from one number to the next without changing what is hashed. -/
theorem toBytes_shift {c : ℕ} (b : ℕ) (hc : 0 < c) :
    toBytes ((c * 256 ^ (toBytes b).length + b : ℕ) : ℤ) = toBytes c ++ toBytes b := by
  have hl : (toBytes (c : ℤ)).length ≠ 0 := by
    rw [ne_eq, List.length_eq_zero_iff]; exact toBytes_ne_nil _
  obtain ⟨k, hk⟩ := Nat.exists_eq_succ_of_ne_zero hl
  refine toBytes_eq (k := k + (toBytes (b : ℤ)).length) ?_ ?_ (.inr ?_)
  · rw [List.length_append, hk]; omega
  · rw [fromBytes_append, fromBytes_toBytes, fromBytes_toBytes]; rfl
  · rw [Int.natAbs_natCast, pow_add]
    refine le_trans (Nat.mul_le_mul_right _ ?_) (Nat.le_add_right _ _)
    rcases Nat.eq_zero_or_pos k with rfl | hk0
    · rw [pow_zero]; exact hc
    · by_contra hlt
      have := (toBytes_length_le (n := (c : ℤ)) hk0).2 (by rw [Int.natAbs_natCast]; omega)
      omega

end Digest
end Verif
