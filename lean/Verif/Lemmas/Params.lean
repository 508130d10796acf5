import Verif.Spec.ParamLeak
import Verif.Base.BadParams
import Verif.Lemmas.ZkPaillier
import Verif.Lemmas.RangeProofs
import Verif.Lemmas.PdlSlack
import Verif.Model.Mta
import Mathlib.GroupTheory.OrderOfElement

/-!
# Key correctness proofs for moduli with many factors, logarithm proofs for parameters without logarithms
-/

namespace Verif

open Spec

/-! ### Products of many primes -/

theorem prod_dvd_of_primes {z : ℤ} : ∀ {ps : List ℕ}, (∀ p ∈ ps, p.Prime) → ps.Nodup → (∀ p ∈ ps, (p : ℤ) ∣ z) →
    ((ps.prod : ℕ) : ℤ) ∣ z
  | [], _, _, _ => by simp
  | p :: ps, hp, hnd, hd => by
    rw [List.nodup_cons] at hnd
    rw [List.prod_cons, Nat.cast_mul]
    have hco : Nat.Coprime p ps.prod := by
      refine Nat.coprime_list_prod_right_iff.2 fun s hs => ?_
      refine (Nat.coprime_primes (hp p (by simp)) (hp s (by simp [hs]))).2 fun h => ?_
      exact hnd.1 (h ▸ hs)
    exact (Nat.isCoprime_iff_coprime.2 hco).mul_dvd (hd p (by simp))
      (prod_dvd_of_primes (fun s hs => hp s (by simp [hs])) hnd.2 fun s hs => hd s (by simp [hs]))

/-- Whoever knows the factors of a product of any number of distinct primes above 6370 can make a proof that
verifies. -/
theorem ZkPaillier.NiCorrectKeyProof.of_primes (digest : List ℤ → ℕ) {ps : List ℕ} (hp : ∀ p ∈ ps, p.Prime)
    (hl : ∀ p ∈ ps, 6370 < p) (hnd : ps.Nodup) (hco : Nat.Coprime ps.prod (ps.map (· - 1)).prod) :
    ∃ pf : NiCorrectKeyProof, pf.verify digest ps.prod = some true := by
  have hn : 0 < ps.prod := List.prod_pos fun p h => (hp p h).pos
  have hphi : 0 < (ps.map (· - 1)).prod := by
    refine List.prod_pos fun s hs => ?_
    obtain ⟨p, h, rfl⟩ := List.mem_map.1 hs
    have := hl p h
    omega
  have hg : Int.gcd (ps.prod : ℤ) ((ps.map (· - 1)).prod : ℕ) = 1 := by
    rw [Int.gcd_natCast_natCast]; exact hco
  obtain ⟨d, hd⟩ := Option.isSome_iff_exists.1 (modInv_isSome.2 hg)
  have hr := modInv_range (by exact_mod_cast hphi) hd
  have hinv : d.toNat * ps.prod ≡ 1 [MOD (ps.map (· - 1)).prod] := by
    have h := modInv_eq_some hd
    rw [← Int.natCast_modEq_iff]
    push_cast
    rw [Int.toNat_of_nonneg hr.1, mul_comm]
    exact_mod_cast h
  have hroot : ∀ z : ℤ, (z ^ d.toNat) ^ ps.prod ≡ z [ZMOD (ps.prod : ℕ)] := by
    intro z
    rw [Int.modEq_iff_dvd]
    refine prod_dvd_of_primes hp hnd fun p h => Int.modEq_iff_dvd.1 ?_
    refine pow_pow_inv (hp p h) (by have := hl p h; omega) (hinv.of_dvd ?_) z
    exact List.dvd_prod (List.mem_map.2 ⟨p, h, rfl⟩)
  refine ⟨⟨(List.range M2).map fun i => (rho digest ps.prod i : ℤ) ^ d.toNat⟩, ?_⟩
  unfold verify
  rw [if_neg (by simp [hn.ne'])]
  simp only [Option.some.injEq, Bool.and_eq_true, List.all_eq_true, List.mem_range, decide_eq_true_eq]
  constructor
  · intro i hi
    rw [List.getD_eq_getElem?_getD, List.getElem?_map, List.getElem?_range hi, Option.map_some, Option.getD_some,
      (hroot _).eq, Int.emod_eq_of_lt (by positivity)]
    exact_mod_cast Nat.mod_lt _ hn
  · rw [small_factors]
    intro s hs hle hdv
    obtain ⟨p, h, hsp⟩ := (Prime.dvd_prod_iff hs.prime).1 hdv
    have := (Nat.prime_dvd_prime_iff_eq hs (hp p h)).1 hsp
    have := hl p h
    omega

/-! ### Logarithm proofs -/

/-- If the product of the bases has order `L` and the challenge is a multiple of `L`, the proof verifies although
`g` need not be a power of `ni`. -/
theorem ZkPaillier.CompositeDLogProof.forged (digest : List ℤ → ℕ) (st : DLogStatement) {L r : ℕ} {x : ℤ}
    (hN : 2 ^ 128 < st.N) (hg : Int.gcd st.g st.N = 1) (hni : Int.gcd st.ni st.N = 1) (hx : x = st.g ^ r % st.N)
    (hL : (st.g * st.ni) ^ L ≡ 1 [ZMOD st.N]) (hd : L ∣ challenge digest st x) :
    (⟨x, ((r + challenge digest st x : ℕ) : ℤ)⟩ : CompositeDLogProof).verify digest st = some true := by
  have hpos : 0 < st.N := lt_trans (by norm_num) hN
  unfold verify
  rw [if_pos ⟨hN, hg, hni⟩]
  dsimp only
  generalize challenge digest st x = e at hd ⊢
  rw [modPow_natCast _ hpos.ne', modPow_natCast _ hpos.ne']
  simp only [Option.bind_some, Option.bind_eq_bind, Option.some.injEq, decide_eq_true_eq]
  rw [hx]
  refine (mod_mul_mod_eq_iff ⟨Int.emod_nonneg _ hpos.ne', Int.emod_lt_of_pos _ hpos⟩).2 ?_
  obtain ⟨k, rfl⟩ := hd
  have h2 : st.g ^ (r + L * k) * st.ni ^ (L * k) ≡ st.g ^ r [ZMOD st.N] := by
    have := (hL.pow k).mul_left (st.g ^ r)
    rw [one_pow, mul_one, ← pow_mul, mul_pow, ← mul_assoc, ← pow_add] at this
    exact this
  refine ((Int.mod_modEq _ _).trans h2.symm).trans ?_
  exact ((Int.mod_modEq _ _).mul (Int.mod_modEq _ _)).symm

variable {digest : List ℤ → ℕ} in
/-- The equation that an accepted logarithm proof satisfies -/
theorem ZkPaillier.CompositeDLogProof.accepted_units {pf : CompositeDLogProof} {st : DLogStatement}
    (h : pf.verify digest st = some true) :
    ∃ M : ℕ, 0 < M ∧ st.N = M ∧ ∃ u v : (ZMod M)ˣ, (st.g : ZMod M) = u ∧ (st.ni : ZMod M) = v ∧
      (pf.x : ZMod M) = ↑(u ^ pf.y * v ^ ((challenge digest st pf.x : ℕ) : ℤ)) := by
  unfold verify at h
  split at h
  · rename_i hc
    obtain ⟨M, hM, hstN, u, v, hu, hv⟩ :=
      (DLogStatement.Usable.mk (lt_trans (by norm_num) hc.1) hc.2.1 hc.2.2).units
    refine ⟨M, hM, hstN, u, v, hu, hv, ?_⟩
    obtain ⟨a, ha, ha2⟩ := modPow_unit hM hv (challenge digest st pf.x)
    obtain ⟨b, hb, hb2⟩ := modPow_unit hM hu pf.y
    rw [hstN, ha, hb] at h
    simp only [Option.bind_eq_bind, Option.bind_some, Option.some.injEq, decide_eq_true_eq] at h
    rw [Units.val_mul, ← ha2, ← hb2]
    have := congrArg (Int.cast (R := ZMod M)) h
    rw [this, cast_emod, Int.cast_mul]
  · cases h

/-! ### The leak -/

theorem paramResidue_eq {st : DLogStatement} {P E L : ℕ} (h : ParamsLeak st P E L) {z : ℤ} {a : ℕ}
    (hz : z ^ E ≡ (st.g ^ E) ^ a [ZMOD P]) : paramResidue st P E L z = some (a % L) := by
  have : Fact P.Prime := ⟨h.p_prime⟩
  have : Fact L.Prime := ⟨h.l_prime⟩
  set w : ZMod P := ((st.g ^ E : ℤ) : ZMod P) with hw
  have ho : orderOf w = L := by
    refine orderOf_eq_prime ?_ ?_
    · have := cast_of_modEq h.g_pow
      push_cast at this
      rw [hw]; push_cast; exact this
    · intro hone
      exact h.g_ne (modEq_of_cast (by rw [← hw, hone]; simp))
  have hiff : ∀ i : ℕ, z ^ E % P = (st.g ^ E) ^ i % P ↔ w ^ a = w ^ i := by
    intro i
    have h1 : (z ^ E % P = (st.g ^ E) ^ i % P) ↔ z ^ E ≡ (st.g ^ E) ^ i [ZMOD P] := Iff.rfl
    rw [h1, ← ZMod.intCast_eq_intCast_iff]
    have h2 := cast_of_modEq hz
    rw [h2]
    push_cast
    rw [hw]
    push_cast
    rfl
  unfold paramResidue
  have hlt : a % L < L := Nat.mod_lt _ h.l_prime.pos
  rw [List.find?_range_eq_some]
  refine ⟨?_, List.mem_range.2 hlt, ?_⟩
  · rw [decide_eq_true_eq, hiff, ← ho, pow_mod_orderOf]
  · intro j hj
    rw [Bool.not_eq_true', decide_eq_false_iff_not, hiff]
    intro he
    rw [← pow_mod_orderOf, ho] at he
    have := pow_injOn_Iio_orderOf (x := w) (by rw [ho]; exact hlt) (by rw [ho]; exact hj.trans hlt) he
    omega

/-- A commitment `z = h1^a h2^b` discloses `a` modulo `L`. -/
theorem paramResidue_units {st : DLogStatement} {P E L M : ℕ} (h : ParamsLeak st P E L) (hM : st.N = M)
    {u1 u2 : (ZMod M)ˣ} (h1 : (st.g : ZMod M) = u1) (h2 : (st.ni : ZMod M) = u2) {z b : ℤ} {a : ℕ}
    (hz : (z : ZMod M) = ↑(u1 ^ a) * ↑(u2 ^ b)) : paramResidue st P E L z = some (a % L) := by
  have hd : P ∣ M := by have := h.p_dvd; rw [hM] at this; exact_mod_cast this
  refine paramResidue_eq h (modEq_of_cast ?_)
  set f := ZMod.castHom hd (ZMod P) with hf
  have hint : ∀ t : ℤ, f (t : ZMod M) = (t : ZMod P) := fun t => map_intCast f t
  have e1 : (Units.map f.toMonoidHom u1 : ZMod P) = (st.g : ZMod P) := by
    rw [← hint, h1]; rfl
  have e2 : Units.map f.toMonoidHom u2 ^ E = 1 := by
    ext
    have := cast_of_modEq h.ni_pow
    push_cast at this
    rw [Units.val_pow_eq_pow_val, Units.val_one, ← this, ← hint, h2]
    rfl
  have e3 : (z : ZMod P) = ((Units.map f.toMonoidHom u1 ^ a * Units.map f.toMonoidHom u2 ^ b : (ZMod P)ˣ) : ZMod P) := by
    rw [← hint, hz, map_mul, ← map_pow, ← map_zpow, Units.val_mul]
    rfl
  push_cast
  rw [e3, ← Units.val_pow_eq_pow_val, mul_pow, ← zpow_natCast (_ ^ b), ← zpow_mul, mul_comm b, zpow_mul,
    zpow_natCast, e2, one_zpow, mul_one, ← e1, ← Units.val_pow_eq_pow_val, ← Units.val_pow_eq_pow_val, ← pow_mul,
    ← pow_mul, mul_comm]

end Verif
