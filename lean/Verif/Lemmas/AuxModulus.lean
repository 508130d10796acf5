import Verif.Model.GG20.Keygen
import Mathlib.FieldTheory.Finite.Basic
import Mathlib.Data.Nat.Totient
import Mathlib.Data.ZMod.Units

/-! Helper lemmas on the auxiliary modulus and its generators. -/

namespace Verif.GG20

theorem euler_pq {p q : ℕ} (hp : p.Prime) (hq : q.Prime) (hne : p ≠ q) {h : ℤ}
    (hg : Int.gcd h (p * q) = 1) : h ^ ((p - 1) * (q - 1)) ≡ 1 [ZMOD (p * q : ℤ)] := by
  have ht : Nat.totient (p * q) = (p - 1) * (q - 1) := by
    rw [Nat.totient_mul ((Nat.coprime_primes hp hq).2 hne), Nat.totient_prime hp,
      Nat.totient_prime hq]
  have hu : IsUnit ((h : ℤ) : ZMod (p * q)) := by
    rw [ZMod.coe_int_isUnit_iff_isCoprime, Int.isCoprime_iff_gcd_eq_one, Int.gcd_comm]
    simpa using hg
  have := ZMod.pow_totient hu.unit
  have h2 : ((h : ZMod (p * q))) ^ ((p - 1) * (q - 1)) = 1 := by
    rw [← ht]
    rw [← Units.val_eq_one, Units.val_pow_eq_pow_val, IsUnit.unit_spec] at this
    exact this
  have h3 : (((h ^ ((p - 1) * (q - 1)) : ℤ)) : ZMod (p * q)) = ((1 : ℤ) : ZMod (p * q)) := by
    push_cast; exact h2
  have := (ZMod.intCast_eq_intCast_iff _ _ _).1 h3
  simpa using this

/-- Everything `generate_h1_h2_N_tilde` promises. -/
theorem generate_spec {p q : ℕ} (hp : p.Prime) (hq : q.Prime) (hne : p ≠ q) {h1 xhi : ℤ}
    (hg : Int.gcd h1 (p * q) = 1) (hx0 : 0 ≤ xhi)
    (hx1 : xhi < ((p : ℤ) - 1) * ((q : ℤ) - 1))
    {aux : ℤ × ℤ × ℤ × ℤ × ℤ} (h : generate_h1_h2_N_tilde p q h1 xhi = some aux) :
    aux.1 = p * q ∧ aux.2.1 = h1 ∧ Int.gcd aux.2.2.1 aux.1 = 1 ∧
      ∃ a b : ℕ, aux.2.2.2.1 = a ∧ aux.2.2.2.2 = b ∧
        aux.2.2.1 = h1 ^ xhi.toNat % aux.1 ∧
        h1 ^ a * aux.2.2.1 ≡ 1 [ZMOD aux.1] ∧ aux.2.2.1 ^ b * h1 ≡ 1 [ZMOD aux.1] := by
  unfold generate_h1_h2_N_tilde at h
  simp only [Option.bind_eq_bind, Option.bind_eq_some_iff, Option.some.injEq] at h
  obtain ⟨xinv, hxinv, h2, hh2, rfl⟩ := h
  have hp1 := hp.two_le
  have hq1 := hq.two_le
  have hN : ((p : ℤ) * q) ≠ 0 := by positivity
  rw [modPow_nonneg hN hx0, Option.some.injEq] at hh2
  have hphi : (((p - 1) * (q - 1) : ℕ) : ℤ) = ((p : ℤ) - 1) * ((q : ℤ) - 1) := by
    push_cast [Nat.cast_sub hp.one_le, Nat.cast_sub hq.one_le]; ring
  have hphipos : (0 : ℤ) < ((p : ℤ) - 1) * ((q : ℤ) - 1) := by
    apply mul_pos <;> [skip; skip] <;> omega
  have hinv := modInv_eq_some hxinv
  have hinv0 : 0 ≤ xinv ∧ xinv < ((p : ℤ) - 1) * ((q : ℤ) - 1) := by
    unfold modInv at hxinv
    split at hxinv
    · cases hxinv
      exact ⟨Int.emod_nonneg _ hphipos.ne', Int.emod_lt_of_pos _ hphipos⟩
    · cases hxinv
  have heuler := euler_pq hp hq hne hg
  have hm2 : h2 ≡ h1 ^ xhi.toNat [ZMOD (p * q : ℤ)] := by
    rw [← hh2]; exact Int.mod_modEq _ _
  have hab : h1 ^ (((p : ℤ) - 1) * ((q : ℤ) - 1) - xhi).toNat * h2 ≡ 1 [ZMOD (p * q : ℤ)] := by
    refine (Int.ModEq.mul_left _ hm2).trans ?_
    rw [← pow_add]
    have : (((p : ℤ) - 1) * ((q : ℤ) - 1) - xhi).toNat + xhi.toNat = (p - 1) * (q - 1) := by
      rw [← hphi] at hx1 ⊢
      omega
    rw [this]; exact heuler
  refine ⟨rfl, rfl, ?_, (((p : ℤ) - 1) * ((q : ℤ) - 1) - xhi).toNat,
    (((p : ℤ) - 1) * ((q : ℤ) - 1) - xinv).toNat, ?_, ?_, hh2.symm, hab, ?_⟩
  · -- h2 is invertible
    have h4 : IsCoprime h2 ((p : ℤ) * q) := by
      obtain ⟨c, hc⟩ := (Int.modEq_iff_dvd.1 hab)
      exact ⟨h1 ^ (((p : ℤ) - 1) * ((q : ℤ) - 1) - xhi).toNat, c, by linarith⟩
    exact Int.isCoprime_iff_gcd_eq_one.1 h4
  · simp only; omega
  · simp only; omega
  · simp only
    have e1 : h2 ^ (((p : ℤ) - 1) * ((q : ℤ) - 1) - xinv).toNat * h1 ≡
        (h1 ^ xhi.toNat) ^ (((p : ℤ) - 1) * ((q : ℤ) - 1) - xinv).toNat * h1
          [ZMOD (p * q : ℤ)] := (hm2.pow _).mul_right _
    refine e1.trans ?_
    rw [← pow_mul, ← pow_succ]
    obtain ⟨c, hc⟩ := Int.modEq_iff_dvd.1 hinv
    -- exponent is a multiple of φ
    have : ∃ m : ℕ, xhi.toNat * (((p : ℤ) - 1) * ((q : ℤ) - 1) - xinv).toNat + 1 =
        ((p - 1) * (q - 1)) * m := by
      refine ⟨(xhi + c).toNat, ?_⟩
      have hA : ((((p : ℤ) - 1) * ((q : ℤ) - 1) - xinv).toNat : ℤ) =
        ((p : ℤ) - 1) * ((q : ℤ) - 1) - xinv := by omega
      have hB : (xhi.toNat : ℤ) = xhi := by omega
      set phi : ℤ := ((p : ℤ) - 1) * ((q : ℤ) - 1) with hphid
      have key : xhi * (phi - xinv) + 1 = phi * (xhi + c) := by linarith
      have hpos : 0 ≤ xhi + c := by
        by_contra hneg
        have h5 : phi * (xhi + c) < 0 := mul_neg_of_pos_of_neg hphipos (by omega)
        have h6 : 0 ≤ xhi * (phi - xinv) := mul_nonneg hx0 (by omega)
        omega
      have hC : (((xhi + c).toNat : ℕ) : ℤ) = xhi + c := by omega
      have : ((xhi.toNat * (phi - xinv).toNat + 1 : ℕ) : ℤ) =
          (((p - 1) * (q - 1) * (xhi + c).toNat : ℕ) : ℤ) := by
        rw [Nat.cast_add, Nat.cast_mul, Nat.cast_one, hA, hB, Nat.cast_mul, hphi, hC]
        exact key
      exact_mod_cast this
    obtain ⟨m, hm⟩ := this
    rw [hm, pow_mul]
    simpa using heuler.pow m

end Verif.GG20
