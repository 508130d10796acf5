import Verif.Model.PdlSlack
import Verif.Spec.RangeProofs
import Verif.Lemmas.RangeProofs

/-! Lemmas on the PDL proof with slack. -/

namespace Verif

open EC Crypto

/-- `commitment_unknown_order` in the unit group. -/
theorem cuo_units {M : ℕ} (hM : 0 < M) {h1 h2 : ℤ} {u1 u2 : (ZMod M)ˣ} (e1 : (h1 : ZMod M) = u1)
    (e2 : (h2 : ZMod M) = u2) (x r : ℤ) :
    ∃ y, commitmentUnknownOrder h1 h2 M x r = some y ∧ (y : ZMod M) = ↑(u1 ^ x * u2 ^ r) ∧
      0 ≤ y ∧ y < M := by
  have hMz : (0 : ℤ) < M := by exact_mod_cast hM
  obtain ⟨a, ha, ha2⟩ := modPow_unit hM e1 x
  have hb : ∃ b, cuoPow h2 M r = some b ∧ (b : ZMod M) = ↑(u2 ^ r) := by
    unfold cuoPow
    by_cases hr : r < 0
    · rw [if_pos hr]
      obtain ⟨i, hi, hi2⟩ := modInv_unit e2
      obtain ⟨b, hb, hb2⟩ := modPow_unit hM hi2 (-r)
      refine ⟨b, by rw [hi]; exact hb, ?_⟩
      rw [hb2]; congr 1; simp
    · rw [if_neg hr]
      obtain ⟨b, hb, hb2⟩ := modPow_unit hM e2 r
      exact ⟨b, hb, hb2⟩
  obtain ⟨b, hb, hb2⟩ := hb
  refine ⟨a * b % M, ?_, ?_, Int.emod_nonneg _ hMz.ne', Int.emod_lt_of_pos _ hMz⟩
  · unfold commitmentUnknownOrder; rw [ha, hb]; rfl
  · rw [cast_emod]; push_cast; rw [ha2, hb2]

/-- `commitment_unknown_order` with a unit first base and a non-negative second exponent. -/
theorem cuo_unit_nat {M : ℕ} (hM : 0 < M) {h1 h2 : ℤ} {u1 : (ZMod M)ˣ} (e1 : (h1 : ZMod M) = u1)
    (x : ℤ) (r : ℕ) :
    ∃ y, commitmentUnknownOrder h1 h2 M x r = some y ∧
      (y : ZMod M) = ↑(u1 ^ x) * (h2 : ZMod M) ^ r ∧ 0 ≤ y ∧ y < M := by
  have hMz : (0 : ℤ) < M := by exact_mod_cast hM
  obtain ⟨a, ha, ha2⟩ := modPow_unit hM e1 x
  obtain ⟨b, hb⟩ := modPow_nat hM h2 r
  refine ⟨a * b % M, ?_, ?_, Int.emod_nonneg _ hMz.ne', Int.emod_lt_of_pos _ hMz⟩
  · unfold commitmentUnknownOrder cuoPow; rw [ha, if_neg (by omega), hb]; rfl
  · rw [cast_emod]; push_cast; rw [ha2, modPow_nat_cast hb]

/-- `commitment_unknown_order` with non-negative exponents. -/
theorem cuo_nat {M : ℕ} (hM : 0 < M) {h1 h2 : ℤ} (x r : ℕ) :
    ∃ y, commitmentUnknownOrder h1 h2 M x r = some y ∧
      (y : ZMod M) = (h1 : ZMod M) ^ x * (h2 : ZMod M) ^ r ∧ 0 ≤ y ∧ y < M := by
  have hMz : (0 : ℤ) < M := by exact_mod_cast hM
  obtain ⟨a, ha⟩ := modPow_nat hM h1 x
  obtain ⟨b, hb⟩ := modPow_nat hM h2 r
  refine ⟨a * b % M, ?_, ?_, Int.emod_nonneg _ hMz.ne', Int.emod_lt_of_pos _ hMz⟩
  · unfold commitmentUnknownOrder cuoPow; rw [ha, if_neg (by omega), hb]; rfl
  · rw [cast_emod]; push_cast; rw [modPow_nat_cast ha, modPow_nat_cast hb]

/-- `commitment_unknown_order(a, h2, M, 1, -e)` for a natural number `e`. -/
theorem cuo_div {M : ℕ} (hM : 0 < M) {a h2 : ℤ} {u2 : (ZMod M)ˣ} (e2 : (h2 : ZMod M) = u2) (e : ℕ) :
    ∃ y, commitmentUnknownOrder a h2 M 1 (-(e : ℤ)) = some y ∧
      (y : ZMod M) * (h2 : ZMod M) ^ e = a ∧ 0 ≤ y ∧ y < M := by
  have hMz : (0 : ℤ) < M := by exact_mod_cast hM
  obtain ⟨x, hx⟩ := modPow_nat hM a 1
  have hb : ∃ b, cuoPow h2 M (-(e : ℤ)) = some b ∧ (b : ZMod M) = ↑((u2 ^ e)⁻¹) := by
    unfold cuoPow
    by_cases hr : -(e : ℤ) < 0
    · rw [if_pos hr]
      obtain ⟨i, hi, hi2⟩ := modInv_unit e2
      obtain ⟨b, hb, hb2⟩ := modPow_unit hM hi2 (- -(e : ℤ))
      refine ⟨b, by rw [hi]; exact hb, ?_⟩
      rw [hb2]; congr 1; simp
    · have he : e = 0 := by omega
      subst he
      rw [if_neg hr]
      obtain ⟨b, hb⟩ := modPow_nat hM h2 0
      refine ⟨b, by simpa using hb, ?_⟩
      rw [modPow_nat_cast hb]; simp
  obtain ⟨b, hb, hb2⟩ := hb
  refine ⟨x * b % M, ?_, ?_, Int.emod_nonneg _ hMz.ne', Int.emod_lt_of_pos _ hMz⟩
  · unfold commitmentUnknownOrder
    push_cast at hx
    rw [hx, hb]; rfl
  · rw [cast_emod]; push_cast; rw [hb2, modPow_nat_cast hx, e2, pow_one, mul_assoc,
      ← Units.val_pow_eq_pow_val, Units.inv_mul, mul_one]

/-- Conversely: when the division succeeds it is a division by a unit. -/
theorem cuo_div_some {M : ℕ} (hM : 0 < M) {a h2 y : ℤ} {e : ℕ}
    (h : commitmentUnknownOrder a h2 M 1 (-(e : ℤ)) = some y) :
    (y : ZMod M) * (h2 : ZMod M) ^ e = a ∧ (e ≠ 0 → ∃ u2 : (ZMod M)ˣ, (h2 : ZMod M) = u2) := by
  by_cases he : e = 0
  · subst he
    have := h
    unfold commitmentUnknownOrder at this
    obtain ⟨z, hz, hz2, -⟩ := cuo_nat hM (h1 := a) (h2 := h2) 1 0
    push_cast at hz
    rw [show -((0 : ℕ) : ℤ) = 0 by simp] at h
    rw [hz, Option.some.injEq] at h
    subst h
    exact ⟨by rw [hz2]; simp, by simp⟩
  · have hu : ∃ u2 : (ZMod M)ˣ, (h2 : ZMod M) = u2 := by
      unfold commitmentUnknownOrder cuoPow at h
      rw [if_pos (by omega)] at h
      simp only [Option.bind_eq_bind, Option.bind_eq_some_iff] at h
      obtain ⟨-, -, -, ⟨i, hi, -⟩, -⟩ := h
      obtain ⟨u, hu, -⟩ := modInv_some_unit hi
      exact ⟨u, hu⟩
    obtain ⟨u2, hu2⟩ := hu
    obtain ⟨y', hy', hy2, -⟩ := cuo_div hM (a := a) hu2 e
    rw [h, Option.some.injEq] at hy'
    subst hy'
    exact ⟨hy2, fun _ => ⟨u2, hu2⟩⟩

/-- `n + 1` is a unit modulo `n²` and its powers are `1 + x n`. -/
theorem n_add_one_unit {n : ℕ} : ∃ u : (ZMod (n * n))ˣ, (((n : ℤ) + 1 : ℤ) : ZMod (n * n)) = u ∧
    ∀ x : ℤ, ((u ^ x : (ZMod (n * n))ˣ) : ZMod (n * n)) = 1 + (x : ZMod (n * n)) * n := by
  have h2 := cast_n_sq n
  refine ⟨⟨1 + n, 1 - n, by linear_combination -h2, by linear_combination -h2⟩, ?_, ?_⟩
  · push_cast; ring
  · intro x
    obtain ⟨k, rfl | rfl⟩ := Int.eq_nat_or_neg x
    · have := one_add_mul_pow (n := n) 1 k
      simp only [one_mul, mul_one] at this
      rw [zpow_natCast, Units.val_pow_eq_pow_val]
      simpa using this
    · have := one_add_mul_pow (n := n) (-1) k
      rw [zpow_neg, zpow_natCast, ← inv_pow, Units.val_pow_eq_pow_val]
      simp only [Units.inv_mk]
      rw [show (1 : ZMod (n * n)) - n = 1 + (-1) * n by ring, this]
      push_cast; ring

variable [Crypto]

/-- What the verifier computes when the inverses exist. -/
theorem pdl_verify_of_units {pf : PDLwSlackProof} {st : PDLwSlackStatement} {M : ℕ} (hM : 0 < M)
    (hst : st.N_tilde = M) (hN : 0 < st.ek) {v1 v2 vz : (ZMod M)ˣ} (h1 : (st.h1 : ZMod M) = v1)
    (h2 : (st.h2 : ZMod M) = v2) (hz : (pf.z : ZMod M) = vz) {vc : (ZMod (st.ek * st.ek))ˣ}
    (hc : (st.ciphertext : ZMod (st.ek * st.ek)) = vc) :
    ∃ u2 u3 : ℤ, (u2 : ZMod (st.ek * st.ek)) * (st.ciphertext : ZMod (st.ek * st.ek)) ^
          (pdlChallenge st pf.z pf.u1 pf.u2 pf.u3).toNat =
          (1 + (pf.s1 : ZMod (st.ek * st.ek)) * st.ek) * (pf.s2 : ZMod (st.ek * st.ek)) ^ st.ek ∧
        0 ≤ u2 ∧ u2 < st.ek * st.ek ∧
        (u3 : ZMod M) * (pf.z : ZMod M) ^ (pdlChallenge st pf.z pf.u1 pf.u2 pf.u3).toNat =
          ↑(v1 ^ pf.s1 * v2 ^ pf.s3) ∧ 0 ≤ u3 ∧ u3 < M ∧
        pf.verify st = some (decide (pf.u1 = (pf.s1 : Sc) • st.G -
          ((pdlChallenge st pf.z pf.u1 pf.u2 pf.u3 : ℤ) : Sc) • st.Q) &&
            decide (pf.u2 = u2) && decide (pf.u3 = u3)) := by
  have hNN : 0 < st.ek * st.ek := Nat.mul_pos hN hN
  obtain ⟨vn, hvn, hvn2⟩ := n_add_one_unit (n := st.ek)
  set e := pdlChallenge st pf.z pf.u1 pf.u2 pf.u3 with he
  have hen : (e.toNat : ℤ) = e := Int.toNat_of_nonneg (Int.natCast_nonneg _)
  obtain ⟨t2, ht2, ht2c, -⟩ := cuo_unit_nat hNN (h2 := pf.s2) hvn pf.s1 st.ek
  obtain ⟨u2, hu2, hu2c, hu2r⟩ := cuo_div hNN (a := t2) hc e.toNat
  obtain ⟨t3, ht3, ht3c, -⟩ := cuo_units hM h1 h2 pf.s1 pf.s3
  obtain ⟨u3, hu3, hu3c, hu3r⟩ := cuo_div hM (a := t3) hz e.toNat
  refine ⟨u2, u3, ?_, hu2r.1, by exact_mod_cast hu2r.2, ?_, hu3r.1, hu3r.2, ?_⟩
  · rw [hu2c, ht2c, hvn2]
  · rw [hu3c, ht3c]
  · unfold PDLwSlackProof.verify
    push_cast at ht2 hu2
    rw [hen] at hu2 hu3
    rw [hst]
    simp only [← he, ht2, hu2, ht3, hu3, Option.bind_eq_bind, Option.bind_some]
    have : (pf.s1 : Sc) • st.G + (((q : ℤ) - e : ℤ) : Sc) • st.Q =
        (pf.s1 : Sc) • st.G - (e : Sc) • st.Q := by
      have h0 : (((q : ℤ) - e : ℤ) : Sc) = -(e : Sc) := by push_cast; simp
      rw [h0, neg_smul, sub_eq_add_neg]
    rw [this]

theorem pdlChallenge_nonneg (st : PDLwSlackStatement) (z : ℤ) (u1 : Pt) (u2 u3 : ℤ) :
    0 ≤ pdlChallenge st z u1 u2 u3 := Int.natCast_nonneg _

/-- Honest proofs verify. -/
theorem pdl_complete {w : PDLwSlackWitness} {st : PDLwSlackStatement} {rnd : PdlRand}
    (hpos : 0 < st.N_tilde) (hg1 : Int.gcd st.h1 st.N_tilde = 1) (hg2 : Int.gcd st.h2 st.N_tilde = 1)
    (hN : 0 < st.ek) (hQ : st.Q = w.x • st.G) (hr : Int.gcd w.r st.ek = 1)
    (hc : Paillier.IsEnc st.ek st.ciphertext w.x.val w.r) :
    ∃ pf, PDLwSlackProof.prove w st rnd = some pf ∧ pf.verify st = some true := by
  have hNN : 0 < st.ek * st.ek := Nat.mul_pos hN hN
  obtain ⟨M, hM, hstN, v1, v2, h1, h2⟩ :=
    (DLogStatement.Usable.mk (st := ⟨st.N_tilde, st.h1, st.h2⟩) hpos hg1 hg2).units
  simp only at hstN h1 h2
  obtain ⟨vn, hvn, hvn2⟩ := n_add_one_unit (n := st.ek)
  obtain ⟨vc, hvc⟩ := unit_of_gcd (M := st.ek * st.ek) (b := st.ciphertext)
    (by push_cast; exact Paillier.gcd_mul_self.2 (hc.coprime hr))
  obtain ⟨z, hz, hzc, -⟩ := cuo_units hM h1 h2 w.x.val rnd.rho
  obtain ⟨u2, hu2, hu2c, hu2r⟩ := cuo_unit_nat hNN (h2 := rnd.beta) hvn rnd.alpha st.ek
  obtain ⟨u3, hu3, hu3c, hu3r⟩ := cuo_units hM h1 h2 rnd.alpha rnd.gamma
  set u1 : Pt := (rnd.alpha : Sc) • st.G with hu1
  set e := pdlChallenge st z u1 u2 u3 with he
  have he0 : 0 ≤ e := pdlChallenge_nonneg ..
  have hen : (e.toNat : ℤ) = e := Int.toNat_of_nonneg he0
  obtain ⟨s2, hs2, hs2c, -⟩ := cuo_nat hN (h1 := w.r) (h2 := rnd.beta) e.toNat 1
  rw [hen] at hs2
  set pf : PDLwSlackProof :=
    { z := z
      u1 := u1
      u2 := u2
      u3 := u3
      s1 := e * w.x.val + rnd.alpha
      s2 := s2
      s3 := e * rnd.rho + rnd.gamma } with hpf
  refine ⟨pf, ?_, ?_⟩
  · unfold PDLwSlackProof.prove
    push_cast at hu2 hs2
    rw [hstN]
    simp only [hz, hu2, hu3, ← hu1, ← he, hs2, Option.bind_eq_bind, Option.bind_some]
    rfl
  · have hzz : (pf.z : ZMod M) = ↑(v1 ^ (w.x.val : ℤ) * v2 ^ rnd.rho) := hzc
    obtain ⟨y2, y3, e2, r2, r2', e3, r3, r3', hver⟩ :=
      pdl_verify_of_units (pf := pf) hM hstN hN h1 h2 hzz hvc
    have hee : pdlChallenge st pf.z pf.u1 pf.u2 pf.u3 = e := rfl
    rw [hee] at e2 e3 hver
    have hy3 : pf.u3 = y3 := by
      refine eq_of_cast (M := M) ?_ hu3r ⟨r3, r3'⟩
      have hzu : IsUnit ((pf.z : ZMod M) ^ e.toNat) := by rw [hzz]; exact (Units.isUnit _).pow _
      rw [← hzu.mul_left_inj, e3]
      show (u3 : ZMod M) * _ = _
      rw [hu3c, hzz, ← Units.val_pow_eq_pow_val, ← Units.val_mul]
      congr 1
      rw [← commit_group v1 v2 e w.x.val rnd.rho rnd.alpha rnd.gamma, ← zpow_natCast, hen,
        inv_mul_cancel_right]
    have hy2 : pf.u2 = y2 := by
      refine eq_of_cast (M := st.ek * st.ek) ?_ hu2r (by push_cast; exact ⟨r2, r2'⟩)
      have hcu : IsUnit ((st.ciphertext : ZMod (st.ek * st.ek)) ^ e.toNat) := by
        rw [hvc]; exact (Units.isUnit _).pow _
      rw [← hcu.mul_left_inj, e2]
      show (u2 : ZMod (st.ek * st.ek)) * _ = _
      have hcz : (st.ciphertext : ZMod (st.ek * st.ek)) =
          (1 + (w.x.val : ZMod (st.ek * st.ek)) * st.ek) * (w.r : ZMod (st.ek * st.ek)) ^ st.ek := by
        have := cast_of_modEq (M := st.ek * st.ek) (by push_cast; exact hc)
        push_cast at this; exact this
      have hs2m : s2 ≡ w.r ^ e.toNat * rnd.beta [ZMOD st.ek] := by
        apply modEq_of_cast; rw [hs2c]; push_cast; ring
      have hes : ((e * w.x.val + rnd.alpha : ℤ) : ZMod (st.ek * st.ek)) =
          (e.toNat : ZMod (st.ek * st.ek)) * (w.x.val : ZMod (st.ek * st.ek)) + rnd.alpha := by
        rw [← hen]; push_cast; rw [Int.toNat_natCast]
      show _ = (1 + ((e * w.x.val + rnd.alpha : ℤ) : ZMod (st.ek * st.ek)) * st.ek) *
        (s2 : ZMod (st.ek * st.ek)) ^ st.ek
      rw [hu2c, hvn2, pow_cast_of_modEq hs2m, hcz, mul_pow, one_add_mul_pow, hes]
      push_cast
      rw [mul_pow, ← pow_mul, ← pow_mul, mul_comm e.toNat st.ek]
      linear_combination ((e.toNat : ZMod (st.ek * st.ek)) * (w.x.val : ZMod (st.ek * st.ek)) *
        rnd.alpha * (rnd.beta : ZMod (st.ek * st.ek)) ^ st.ek *
        (w.r : ZMod (st.ek * st.ek)) ^ (st.ek * e.toNat)) * cast_n_sq st.ek
    rw [hver, decide_eq_true hy2, decide_eq_true hy3, decide_eq_true]
    · rfl
    · show u1 = ((e * w.x.val + rnd.alpha : ℤ) : Sc) • st.G - (e : Sc) • st.Q
      rw [hQ, hu1, ← mul_smul, ← sub_smul]; push_cast; simp

/-- What acceptance means. -/
theorem pdl_accepted {pf : PDLwSlackProof} {st : PDLwSlackStatement} {M : ℕ} (hM : 0 < M)
    (hst : st.N_tilde = M) (hN : 0 < st.ek) {v1 v2 : (ZMod M)ˣ} (h1 : (st.h1 : ZMod M) = v1)
    (h2 : (st.h2 : ZMod M) = v2) (h : pf.verify st = some true) :
    Spec.PdlTranscript M st.ek v1 v2 st.G st.Q (st.ciphertext : ZMod (st.ek * st.ek))
      (pf.z : ZMod M) pf.u1 (pf.u2 : ZMod (st.ek * st.ek)) (pf.u3 : ZMod M)
      (hashInts [ser st.G, ser st.Q, st.ciphertext, pf.z, ser pf.u1, pf.u2, pf.u3])
      pf.s1 pf.s2 pf.s3 := by
  have hNN : 0 < st.ek * st.ek := Nat.mul_pos hN hN
  obtain ⟨vn, hvn, hvn2⟩ := n_add_one_unit (n := st.ek)
  unfold PDLwSlackProof.verify pdlChallenge at h
  set e := hashInts [ser st.G, ser st.Q, st.ciphertext, pf.z, ser pf.u1, pf.u2, pf.u3] with he
  simp only [Option.bind_eq_bind, Option.bind_eq_some_iff, Option.some.injEq, Bool.and_eq_true,
    decide_eq_true_eq] at h
  obtain ⟨t2, ht2, u2, hu2, t3, ht3, u3, hu3, ⟨e1, rfl⟩, rfl⟩ := h
  rw [hst] at ht3 hu3
  have ht2' : commitmentUnknownOrder ((st.ek : ℤ) + 1) pf.s2 ((st.ek * st.ek : ℕ) : ℤ) pf.s1 st.ek =
    some t2 := by push_cast; exact ht2
  have hu2' : commitmentUnknownOrder t2 st.ciphertext ((st.ek * st.ek : ℕ) : ℤ) 1 (-(e : ℤ)) =
    some pf.u2 := by push_cast; exact hu2
  obtain ⟨t2', ht, htc, -⟩ := cuo_unit_nat hNN (h2 := pf.s2) hvn pf.s1 st.ek
  rw [ht2', Option.some.injEq] at ht
  subst ht
  obtain ⟨t3', ht', htc', -⟩ := cuo_units hM h1 h2 pf.s1 pf.s3
  rw [ht3, Option.some.injEq] at ht'
  subst ht'
  refine ⟨?_, ?_, ?_⟩
  · have h0 : (((q : ℤ) - (e : ℤ) : ℤ) : Sc) = -(e : Sc) := by push_cast; simp
    rw [h0, neg_smul] at e1
    rw [e1]; abel
  · rw [(cuo_div_some hNN hu2').1, htc, hvn2]
  · rw [(cuo_div_some hM hu3).1, htc']

/-- A value `z` that is not invertible makes the verifier panic. -/
theorem pdl_panics {pf : PDLwSlackProof} {st : PDLwSlackStatement} (hpos : 0 < st.N_tilde)
    (hz : Int.gcd pf.z st.N_tilde ≠ 1)
    (he : hashInts [ser st.G, ser st.Q, st.ciphertext, pf.z, ser pf.u1, pf.u2, pf.u3] ≠ 0) :
    pf.verify st = none := by
  rcases h : pf.verify st with _ | b
  · rfl
  · unfold PDLwSlackProof.verify pdlChallenge at h
    simp only [Option.bind_eq_bind, Option.bind_eq_some_iff] at h
    obtain ⟨t2, -, u2, -, t3, -, u3, hu3, -⟩ := h
    obtain ⟨M, hM⟩ := Int.eq_ofNat_of_zero_le hpos.le
    rw [hM] at hu3 hz hpos
    obtain ⟨u, hu⟩ := (cuo_div_some (by exact_mod_cast hpos) hu3).2 he
    exact absurd (gcd_of_unit hu) hz

/-- The forged proof: `s2 = 0` makes the ciphertext equation hold for `u2 = 0`, whatever the Paillier key. -/
theorem pdl_forge_all {x : Sc} {st : PDLwSlackStatement} {alpha gamma rho : ℤ}
    (hpos : 0 < st.N_tilde) (hg1 : Int.gcd st.h1 st.N_tilde = 1) (hg2 : Int.gcd st.h2 st.N_tilde = 1)
    (hQ : st.Q = x • st.G) :
    ∃ pf : PDLwSlackProof, pf.u1 = (alpha : Sc) • st.G ∧ pf.s2 = 0 ∧ pf.u2 = 0 ∧
      ∀ ek : ℕ, 0 < ek → Int.gcd st.ciphertext ek = 1 → pf.verify { st with ek := ek } = some true := by
  obtain ⟨M, hM, hstN, v1, v2, h1, h2⟩ :=
    (DLogStatement.Usable.mk (st := ⟨st.N_tilde, st.h1, st.h2⟩) hpos hg1 hg2).units
  simp only at hstN h1 h2
  obtain ⟨z, hz, hzc, -⟩ := cuo_units hM h1 h2 x.val rho
  obtain ⟨u3, hu3, hu3c, hu3r⟩ := cuo_units hM h1 h2 alpha gamma
  set u1 : Pt := (alpha : Sc) • st.G with hu1
  set e := pdlChallenge st z u1 0 u3 with he
  have he0 : 0 ≤ e := pdlChallenge_nonneg ..
  have hen : (e.toNat : ℤ) = e := Int.toNat_of_nonneg he0
  set pf : PDLwSlackProof :=
    { z := z
      u1 := u1
      u2 := 0
      u3 := u3
      s1 := e * x.val + alpha
      s2 := 0
      s3 := e * rho + gamma } with hpf
  refine ⟨pf, rfl, rfl, rfl, ?_⟩
  intro ek hN hc
  have hNN : 0 < ek * ek := Nat.mul_pos hN hN
  obtain ⟨vc, hvc⟩ := unit_of_gcd (M := ek * ek) (b := st.ciphertext)
    (by push_cast; exact Paillier.gcd_mul_self.2 hc)
  have hzz : (pf.z : ZMod M) = ↑(v1 ^ (x.val : ℤ) * v2 ^ rho) := hzc
  obtain ⟨y2, y3, e2, r2, r2', e3, r3, r3', hver⟩ :=
    pdl_verify_of_units (pf := pf) (st := { st with ek := ek }) hM hstN hN h1 h2 hzz hvc
  have hee : pdlChallenge { st with ek := ek } pf.z pf.u1 pf.u2 pf.u3 = e := rfl
  rw [hee] at e2 e3 hver
  have hy3 : pf.u3 = y3 := by
    refine eq_of_cast (M := M) ?_ hu3r ⟨r3, r3'⟩
    have hzu : IsUnit ((pf.z : ZMod M) ^ e.toNat) := by rw [hzz]; exact (Units.isUnit _).pow _
    rw [← hzu.mul_left_inj, e3]
    show (u3 : ZMod M) * _ = _
    rw [hu3c, hzz, ← Units.val_pow_eq_pow_val, ← Units.val_mul]
    congr 1
    rw [← commit_group v1 v2 e x.val rho alpha gamma, ← zpow_natCast, hen, inv_mul_cancel_right]
  have hy2 : pf.u2 = y2 := by
    have hnn : (0 : ℤ) < ek * ek := by positivity
    refine eq_of_cast (M := ek * ek) ?_ ⟨le_refl _, by push_cast; exact hnn⟩
      (by push_cast; exact ⟨r2, r2'⟩)
    have hcu : IsUnit ((st.ciphertext : ZMod (ek * ek)) ^ e.toNat) := by
      rw [hvc]; exact (Units.isUnit _).pow _
    rw [← hcu.mul_left_inj, e2]
    simp [hpf, hN.ne']
  rw [hver, decide_eq_true hy2, decide_eq_true hy3, decide_eq_true]
  · rfl
  · show u1 = ((e * x.val + alpha : ℤ) : Sc) • st.G - (e : Sc) • st.Q
    rw [hQ, hu1, ← mul_smul, ← sub_smul]; push_cast; simp

theorem pdl_forge {x : Sc} {st : PDLwSlackStatement} {alpha gamma rho : ℤ}
    (hpos : 0 < st.N_tilde) (hg1 : Int.gcd st.h1 st.N_tilde = 1) (hg2 : Int.gcd st.h2 st.N_tilde = 1)
    (hN : 0 < st.ek) (hQ : st.Q = x • st.G) (hc : Int.gcd st.ciphertext st.ek = 1) :
    ∃ pf : PDLwSlackProof, pf.u1 = (alpha : Sc) • st.G ∧ pf.s2 = 0 ∧ pf.u2 = 0 ∧
      pf.verify st = some true :=
  let ⟨pf, h1, h2, h3, h⟩ := pdl_forge_all (gamma := gamma) (rho := rho) hpos hg1 hg2 hQ
  ⟨pf, h1, h2, h3, h st.ek hN hc⟩

end Verif
