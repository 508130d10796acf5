import Verif.Model.GG18.Signature
import Verif.Model.Lindell17.Verify
import Verif.Spec.Ecdsa

/-! Helper lemmas about verification and signature output. -/

namespace Verif

open EC Spec

variable [EC]

theorem scInvert_of_ne {s : Sc} (h : s ≠ 0) : scInvert s = some s⁻¹ := by simp [scInvert, h]
@[simp] theorem scInvert_zero : scInvert (0 : Sc) = none := by simp [scInvert]

@[simp] theorem scOfCoord_eq (x : ℕ) : scOfCoord x = (x : Sc) := by
  simp [scOfCoord]

/-- The point computed during verification. -/
def vpoint (Y : Pt) (m : ℤ) (r s : Sc) : Pt := ((m : Sc) / s) • G + (r / s) • Y

theorem ecdsaEq_iff {Y : Pt} {m : ℤ} {r s : Sc} :
    EcdsaEq Y m r s ↔ s ≠ 0 ∧ ∃ x, xc (vpoint Y m r s) = some x ∧ (x : Sc) = r := by
  unfold EcdsaEq vpoint
  constructor
  · rintro ⟨hs, x, y, hc, hx⟩
    exact ⟨hs, x, by simp [xc, hc], hx⟩
  · rintro ⟨hs, x, hc, hx⟩
    refine ⟨hs, ?_⟩
    simp only [xc, Option.map_eq_some_iff] at hc
    obtain ⟨⟨a, b⟩, hab, rfl⟩ := hc
    exact ⟨a, b, hab, hx⟩

theorem vpoint_neg (Y : Pt) (m : ℤ) (r s : Sc) : vpoint Y m r (-s) = -vpoint Y m r s := by
  unfold vpoint
  rw [div_neg, div_neg, neg_smul, neg_smul, neg_add]

theorem ecdsaEq_neg {Y : Pt} {m : ℤ} {r s : Sc} : EcdsaEq Y m r (-s) ↔ EcdsaEq Y m r s := by
  rw [ecdsaEq_iff, ecdsaEq_iff, vpoint_neg, xc_neg, neg_ne_zero]

theorem gg20_verify_eq (sig : GG20.SignatureRecid) (Y : Pt) (m : ℤ) :
    GG20.verify sig Y m =
      if sig.s = 0 then .panic else
        match xc (vpoint Y m sig.r sig.s) with
        | none => .panic
        | some x => if sig.r = (x : Sc) then .ok () else .err .InvalidSig := by
  unfold GG20.verify
  by_cases h : sig.s = 0
  · simp [h]
  · simp only [scInvert_of_ne h, Res.ofOption_some, Res.bind_ok, h, if_false, vpoint,
      div_eq_mul_inv]
    cases xc (((m : Sc) * sig.s⁻¹) • G + (sig.r * sig.s⁻¹) • Y) <;> simp

theorem gg18_verify_eq (sig : GG18.SignatureRecid) (Y : Pt) (m : ℤ) :
    GG18.verify sig Y m =
      if sig.s = 0 then .err .InvalidSig else
        match xc (vpoint Y m sig.r sig.s) with
        | none => .err .InvalidSig
        | some x => if sig.r = (x : Sc) then .ok () else .err .InvalidSig := by
  unfold GG18.verify
  by_cases h : sig.s = 0
  · simp [h, GG18.okOrInvalidSig]
  · simp only [scInvert_of_ne h, GG18.okOrInvalidSig, Res.bind_ok, h, if_false, vpoint,
      div_eq_mul_inv]
    cases xc (((m : Sc) * sig.s⁻¹) • G + (sig.r * sig.s⁻¹) • Y) <;> simp

theorem castMod (m : ℤ) : ((m % (q : ℤ) : ℤ) : Sc) = (m : Sc) := by
  simp

theorem l17_verify_eq (sig : Lindell17.Signature) (Y : Pt) (m : ℤ) :
    Lindell17.verify sig Y m =
      if (sig.s : Sc) = 0 then .panic else
        match xc (vpoint Y m (sig.r : Sc) (sig.s : Sc)) with
        | none => .panic
        | some x => if sig.r.natAbs = x ∧ sig.s < (q : ℤ) - sig.s then .ok ()
            else .err .InvalidSig := by
  unfold Lindell17.verify
  by_cases h : (sig.s : Sc) = 0
  · simp [h]
  · have hp : ((sig.s : Sc)⁻¹ • ((m % (q : ℤ) : ℤ) : Sc) • G + (sig.s : Sc)⁻¹ • (sig.r : Sc) • Y)
        = vpoint Y m (sig.r : Sc) (sig.s : Sc) := by
      unfold vpoint
      rw [castMod, ← mul_smul, ← mul_smul, div_eq_mul_inv, div_eq_mul_inv, mul_comm (m : Sc),
        mul_comm (sig.r : Sc)]
    simp only [scInvert_of_ne h, Res.ofOption_some, Res.bind_ok, h, if_false, hp]
    cases xc (vpoint Y m (sig.r : Sc) (sig.s : Sc)) <;> simp

theorem cc_verify_eq (sig : Lindell17.Signature) (Y : Pt) (m : ℤ) :
    CCLST19.verify sig Y m =
      if (sig.s : Sc) = 0 then .err .InvalidSig else
        match xc (vpoint Y m (sig.r : Sc) (sig.s : Sc)) with
        | none => .panic
        | some x => if sig.r.natAbs = x ∧ sig.s < (q : ℤ) - sig.s then .ok ()
            else .err .InvalidSig := by
  unfold CCLST19.verify
  by_cases h : (sig.s : Sc) = 0
  · simp [h]
  · have hp : ((sig.s : Sc)⁻¹ • ((m % (q : ℤ) : ℤ) : Sc) • G + (sig.s : Sc)⁻¹ • (sig.r : Sc) • Y)
        = vpoint Y m (sig.r : Sc) (sig.s : Sc) := by
      unfold vpoint
      rw [castMod, ← mul_smul, ← mul_smul, div_eq_mul_inv, div_eq_mul_inv, mul_comm (m : Sc),
        mul_comm (sig.r : Sc)]
    simp only [scInvert_of_ne h, Res.bind_ok, h, if_false, hp]
    cases xc (vpoint Y m (sig.r : Sc) (sig.s : Sc)) <;> simp

/-- The s-normalisation of `output_signature`. -/
def normS (s : Sc) : Sc :=
  if (s.val : ℤ) > (q : ℤ) - s.val then (((q : ℤ) - s.val : ℤ) : Sc) else s

theorem normS_cases (s : Sc) : normS s = s ∨ normS s = -s := by
  unfold normS
  split
  · right; simp
  · left; rfl

theorem neg_val_of_ne {s : Sc} (h : s ≠ 0) : (-s).val = q - s.val := by
  rw [ZMod.neg_val]; simp [h]

theorem normS_low (s : Sc) : LowS (normS s) := by
  unfold LowS normS
  have hq := q_odd
  have hlt := ZMod.val_lt s
  split
  · rename_i h
    have hs : s ≠ 0 := by
      rintro rfl
      have := q_pos
      simp at h
      omega
    have : (((q : ℤ) - s.val : ℤ) : Sc) = -s := by simp
    rw [this, neg_val_of_ne hs]
    omega
  · omega

theorem ecdsaEq_normS {Y : Pt} {m : ℤ} {r s : Sc} :
    EcdsaEq Y m r (normS s) ↔ EcdsaEq Y m r s := by
  rcases normS_cases s with h | h <;> rw [h]
  exact ecdsaEq_neg

/-- recid computed by `output_signature` -/
def recidOf (s : Sc) (y : ℕ) : ℕ :=
  if (s.val : ℤ) > (q : ℤ) - s.val then (if y % q % 2 = 1 then 1 else 0) ^^^ 1
  else (if y % q % 2 = 1 then 1 else 0)

theorem gg20_verify_ok_iff (sig : GG20.SignatureRecid) (Y : Pt) (m : ℤ) :
    GG20.verify sig Y m = .ok () ↔ EcdsaEq Y m sig.r sig.s := by
  rw [gg20_verify_eq, ecdsaEq_iff]
  by_cases h : sig.s = 0
  · simp [h]
  · cases hx : xc (vpoint Y m sig.r sig.s) with
    | none => simp [h]
    | some x =>
      by_cases h2 : sig.r = (x : Sc)
      · simp [h, ← h2]
      · simp [h, h2, Ne.symm h2]

theorem gg18_verify_ok_iff (sig : GG18.SignatureRecid) (Y : Pt) (m : ℤ) :
    GG18.verify sig Y m = .ok () ↔ EcdsaEq Y m sig.r sig.s := by
  rw [gg18_verify_eq, ecdsaEq_iff]
  by_cases h : sig.s = 0
  · simp [h]
  · cases hx : xc (vpoint Y m sig.r sig.s) with
    | none => simp [h]
    | some x =>
      by_cases h2 : sig.r = (x : Sc)
      · simp [h, ← h2]
      · simp [h, h2, Ne.symm h2]

theorem foldl_add_eq (l : List Sc) (a : Sc) : l.foldl (fun acc x => acc + x) a = a + l.sum := by
  induction l generalizing a with
  | nil => simp
  | cons b l ih => simp only [List.foldl_cons, List.sum_cons, ih]; ring

/-- Complete description of GG20 `output_signature` for a finite nonce point. -/
theorem gg20_output_eq (self : GG20.LocalSignature) (s_vec : List Sc) {x y : ℕ}
    (hR : coords self.R = some (x, y)) :
    self.output_signature s_vec =
      (Res.isOk (GG20.verify ⟨(x : Sc), normS (self.s_i + s_vec.sum),
          recidOf (self.s_i + s_vec.sum) y⟩ self.y self.m) >>= fun ver =>
        if ver then Res.ok ⟨(x : Sc), normS (self.s_i + s_vec.sum),
          recidOf (self.s_i + s_vec.sum) y⟩ else Res.err Error.InvalidSig) := by
  unfold GG20.LocalSignature.output_signature
  have hx : xc self.R = some x := by simp [xc, hR]
  have hy : yc self.R = some y := by simp [yc, hR]
  simp only [hx, hy, Res.ofOption_some, Res.bind_ok, foldl_add_eq, scOfCoord_eq, normS, recidOf]
  split <;> rfl

theorem gg20_output_none (self : GG20.LocalSignature) (s_vec : List Sc)
    (hR : self.R = 0) : self.output_signature s_vec = .panic := by
  unfold GG20.LocalSignature.output_signature
  have hx : xc self.R = none := by rw [xc_eq_none, hR]
  simp only [hx, Res.ofOption_none, Res.bind_panic]

theorem gg18_output_eq (self : GG18.LocalSignature) (s_vec : List Sc) {x y : ℕ}
    (hR : coords self.R = some (x, y)) :
    self.output_signature s_vec =
      (Res.isOk (GG18.verify ⟨(x : Sc), normS (self.s_i + s_vec.sum),
          recidOf (self.s_i + s_vec.sum) y⟩ self.y self.m) >>= fun ver =>
        if ver then Res.ok ⟨(x : Sc), normS (self.s_i + s_vec.sum),
          recidOf (self.s_i + s_vec.sum) y⟩ else Res.err Error.InvalidSig) := by
  unfold GG18.LocalSignature.output_signature
  have hx : xc self.R = some x := by simp [xc, hR]
  have hy : yc self.R = some y := by simp [yc, hR]
  simp only [hx, hy, GG18.okOrInvalidSig, Res.bind_ok, scOfCoord_eq, normS, recidOf]
  split <;> rfl

theorem gg18_output_none (self : GG18.LocalSignature) (s_vec : List Sc)
    (hR : self.R = 0) : self.output_signature s_vec = .err .InvalidSig := by
  unfold GG18.LocalSignature.output_signature
  have hx : xc self.R = none := by rw [xc_eq_none, hR]
  simp only [hx, GG18.okOrInvalidSig, Res.bind_err]

omit [EC] in
theorem isOk_eq_ok_true {ε ε' α : Type} {r : Res ε α} :
    (Res.isOk r : Res ε' Bool) = .ok true ↔ ∃ a, r = .ok a := by
  cases r <;> simp [Res.isOk]

/-- `output_signature` succeeds exactly on signatures satisfying the ECDSA equation. -/
theorem gg20_output_ok_iff (self : GG20.LocalSignature) (s_vec : List Sc) {x y : ℕ}
    (hR : coords self.R = some (x, y)) (sig : GG20.SignatureRecid) :
    self.output_signature s_vec = .ok sig ↔
      EcdsaEq self.y self.m (x : Sc) (self.s_i + s_vec.sum) ∧
      sig = ⟨(x : Sc), normS (self.s_i + s_vec.sum), recidOf (self.s_i + s_vec.sum) y⟩ := by
  rw [gg20_output_eq self s_vec hR, Res.bind_eq_ok]
  constructor
  · rintro ⟨b, hb, h⟩
    cases b
    · simp at h
    · rw [isOk_eq_ok_true] at hb
      obtain ⟨u, hu⟩ := hb
      have := (gg20_verify_ok_iff _ _ _).1 hu
      simp only at this
      rw [ecdsaEq_normS] at this
      simp only [if_true, Res.ok.injEq] at h
      exact ⟨this, h.symm⟩
  · rintro ⟨h, rfl⟩
    refine ⟨true, ?_, by simp⟩
    rw [isOk_eq_ok_true]
    exact ⟨(), (gg20_verify_ok_iff _ _ _).2 (by simpa using ecdsaEq_normS.2 h)⟩

theorem gg18_output_ok_iff (self : GG18.LocalSignature) (s_vec : List Sc) {x y : ℕ}
    (hR : coords self.R = some (x, y)) (sig : GG18.SignatureRecid) :
    self.output_signature s_vec = .ok sig ↔
      EcdsaEq self.y self.m (x : Sc) (self.s_i + s_vec.sum) ∧
      sig = ⟨(x : Sc), normS (self.s_i + s_vec.sum), recidOf (self.s_i + s_vec.sum) y⟩ := by
  rw [gg18_output_eq self s_vec hR, Res.bind_eq_ok]
  constructor
  · rintro ⟨b, hb, h⟩
    cases b
    · simp at h
    · rw [isOk_eq_ok_true] at hb
      obtain ⟨u, hu⟩ := hb
      have := (gg18_verify_ok_iff _ _ _).1 hu
      simp only at this
      rw [ecdsaEq_normS] at this
      simp only [if_true, Res.ok.injEq] at h
      exact ⟨this, h.symm⟩
  · rintro ⟨h, rfl⟩
    refine ⟨true, ?_, by simp⟩
    rw [isOk_eq_ok_true]
    exact ⟨(), (gg18_verify_ok_iff _ _ _).2 (by simpa using ecdsaEq_normS.2 h)⟩

/-- Signing equation: `s R = m G + r Y` gives the ECDSA equation. -/
theorem vpoint_of_sign {Y R : Pt} {m : ℤ} {r s : Sc} (hs : s ≠ 0)
    (h : s • R = (m : Sc) • G + r • Y) : vpoint Y m r s = R := by
  unfold vpoint
  rw [div_eq_inv_mul, div_eq_inv_mul, mul_smul, mul_smul, ← smul_add, ← h, ← mul_smul,
    inv_mul_cancel₀ hs, one_smul]

end Verif
