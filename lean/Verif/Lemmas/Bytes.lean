import Mathlib.Data.Nat.Digits.Lemmas
import Verif.Ext.Bytes

/-! # Lemmas on bytes -/

namespace Verif

theorem fromBytes_append (a b : List UInt8) :
    fromBytes (a ++ b) = fromBytes a * 256 ^ b.length + fromBytes b := by
  unfold fromBytes
  rw [List.reverse_append, List.map_append, Nat.ofDigits_append, List.length_map, List.length_reverse]
  ring

theorem fromBytes_nil : fromBytes [] = 0 := rfl

theorem fromBytes_cons (a : UInt8) (b : List UInt8) :
    fromBytes (a :: b) = a.toNat * 256 ^ b.length + fromBytes b := by
  have := fromBytes_append [a] b
  simpa [fromBytes, Nat.ofDigits] using this

theorem fromBytes_replicate_zero (k : ℕ) : fromBytes (List.replicate k 0) = 0 := by
  induction k with
  | zero => rfl
  | succ k ih => rw [List.replicate_succ, fromBytes_cons, ih]; simp

theorem fromBytes_lt (bs : List UInt8) : fromBytes bs < 256 ^ bs.length := by
  induction bs with
  | nil => simp [fromBytes_nil]
  | cons a b ih =>
    rw [fromBytes_cons, List.length_cons, pow_succ]
    have := UInt8.toNat_lt a
    have h1 : (a.toNat + 1) * 256 ^ b.length ≤ 256 * 256 ^ b.length :=
      Nat.mul_le_mul_right _ (by omega)
    rw [add_mul] at h1
    omega

/-- Strings of one length with the same value are the same. -/
theorem fromBytes_inj {a b : List UInt8} (hl : a.length = b.length) (h : fromBytes a = fromBytes b) :
    a = b := by
  induction a generalizing b with
  | nil => exact (List.length_eq_zero_iff.1 hl.symm).symm
  | cons x a ih =>
    obtain ⟨y, b, rfl⟩ := List.exists_cons_of_length_eq_add_one hl.symm
    rw [fromBytes_cons, fromBytes_cons] at h
    have hl' : a.length = b.length := by simpa using hl
    rw [hl'] at h
    have h1 := fromBytes_lt a
    have h2 := fromBytes_lt b
    rw [hl'] at h1
    have hx : x.toNat = y.toNat := by
      have e1 : (x.toNat * 256 ^ b.length + fromBytes a) / 256 ^ b.length = x.toNat := by
        rw [mul_comm, Nat.mul_add_div (by positivity), Nat.div_eq_of_lt h1, add_zero]
      have e2 : (y.toNat * 256 ^ b.length + fromBytes b) / 256 ^ b.length = y.toNat := by
        rw [mul_comm, Nat.mul_add_div (by positivity), Nat.div_eq_of_lt h2, add_zero]
      rw [← e1, h, e2]
    rw [hx] at h
    rw [UInt8.toNat_inj.1 hx, ih hl' (by omega)]

theorem fromBytes_toBytes (n : ℤ) : fromBytes (toBytes n) = n.natAbs := by
  unfold toBytes
  split_ifs with h
  · subst h; rfl
  · unfold fromBytes
    rw [← List.map_reverse, List.reverse_reverse, List.map_map]
    rw [List.map_congr_left (g := id)]
    · rw [List.map_id, Nat.ofDigits_digits]
    · intro d hd
      exact UInt8.toNat_ofNat_of_lt' (Nat.digits_lt_base (by decide) hd)

theorem toBytes_length_le {n : ℤ} {k : ℕ} (hk : 1 ≤ k) :
    (toBytes n).length ≤ k ↔ n.natAbs < 256 ^ k := by
  unfold toBytes
  split_ifs with h
  · subst h
    simp only [List.length_cons, List.length_nil, Int.natAbs_zero]
    exact ⟨fun _ => by positivity, fun _ => hk⟩
  · rw [List.length_map, List.length_reverse, Nat.digits_length_le_iff (by decide)]

theorem toBytes_inj {m n : ℤ} (h : toBytes m = toBytes n) : m.natAbs = n.natAbs := by
  rw [← fromBytes_toBytes, h, fromBytes_toBytes]

theorem pad32_toBytes {ε : Type} {n : ℤ} (h : n.natAbs < 2 ^ 256) :
    ∃ bs : List UInt8, (pad32 (toBytes n) : Res ε (List UInt8)) = .ok bs ∧ bs.length = 32 ∧
      fromBytes bs = n.natAbs := by
  have hl : (toBytes n).length ≤ 32 := by
    rw [toBytes_length_le (by decide)]
    exact h
  refine ⟨_, if_pos hl, ?_, ?_⟩
  · rw [List.length_append, List.length_replicate]; omega
  · rw [fromBytes_append, fromBytes_replicate_zero, zero_mul, zero_add, fromBytes_toBytes]

theorem pad32_eq_ok {ε : Type} {bs out : List UInt8}
    (h : (pad32 bs : Res ε (List UInt8)) = .ok out) :
    out.length = 32 ∧ fromBytes out = fromBytes bs := by
  unfold pad32 at h
  split_ifs at h with hl
  injection h with h
  subst h
  exact ⟨by rw [List.length_append, List.length_replicate]; omega, by
    rw [fromBytes_append, fromBytes_replicate_zero, zero_mul, zero_add]⟩

theorem beBytes_length (k n : ℕ) : (beBytes k n).length = k := by
  induction k generalizing n with
  | zero => rfl
  | succ k ih => rw [beBytes, List.length_append, ih]; rfl

theorem fromBytes_beBytes {k n : ℕ} (h : n < 256 ^ k) : fromBytes (beBytes k n) = n := by
  induction k generalizing n with
  | zero =>
    have : n = 0 := by simpa using h
    subst this; rfl
  | succ k ih =>
    have hl : n / 256 < 256 ^ k := by
      rw [Nat.div_lt_iff_lt_mul (by decide)]
      rwa [pow_succ] at h
    rw [beBytes, fromBytes_append, ih hl, fromBytes_cons, fromBytes_nil,
      UInt8.toNat_ofNat_of_lt' (Nat.mod_lt _ (by decide))]
    simp only [List.length_cons, List.length_nil, pow_one, pow_zero, mul_one, zero_add, add_zero]
    have : UInt8.size = 256 := rfl
    rw [this]
    omega

theorem pad32_panic {ε : Type} {n : ℤ} :
    (pad32 (toBytes n) : Res ε (List UInt8)) = .panic ↔ 2 ^ 256 ≤ n.natAbs := by
  have := toBytes_length_le (n := n) (k := 32) (by decide)
  unfold pad32
  split_ifs with hl
  · simp only [false_iff, not_le]
    exact this.1 hl
  · simp only [true_iff]
    exact not_lt.1 (mt this.2 hl)

end Verif
