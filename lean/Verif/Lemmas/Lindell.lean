import Verif.Model.Lindell17.Sign
import Verif.Lemmas.Signature
import Verif.Lemmas.Paillier
import Verif.Lemmas.PdlSlack
import Verif.Lemmas.Mta

/-! Helper lemmas about the Lindell17 model. -/

namespace Verif.Lindell17

open EC Crypto Spec

section
variable [EC]

/-- `min(s, q - s)` is the low representative of `± s`. -/
theorem min_eq_normS (s : Sc) : min (s.val : ℤ) ((q : ℤ) - s.val) = (normS s).val := by
  unfold normS
  by_cases h : (s.val : ℤ) > (q : ℤ) - s.val
  · have hs : s ≠ 0 := by
      rintro rfl
      have := q_pos
      simp at h
      omega
    rw [if_pos h, min_eq_right h.le]
    have : (((q : ℤ) - s.val : ℤ) : Sc) = -s := by simp
    rw [this, neg_val_of_ne hs]
    have := ZMod.val_lt s
    omega
  · rw [if_neg h, min_eq_left (by omega)]

theorem val_cast (s : Sc) : ((s.val : ℤ) : Sc) = s := by simp

theorem modInv_sc {k : Sc} (hk : k ≠ 0) :
    ∃ i : ℤ, modInv (k.val : ℤ) (q : ℤ) = some i ∧ (i : Sc) = k⁻¹ ∧ 0 ≤ i ∧ i < q := by
  have hg : Int.gcd (k.val : ℤ) (q : ℤ) = 1 := by
    rw [Int.gcd_natCast_natCast]
    refine Nat.Coprime.symm ((Nat.Prime.coprime_iff_not_dvd q_prime.out).2 ?_)
    intro hd
    have := ZMod.val_lt k
    rcases Nat.eq_zero_or_pos k.val with h0 | h0
    · exact hk ((ZMod.val_eq_zero k).1 h0)
    · have := Nat.le_of_dvd h0 hd
      omega
  obtain ⟨i, hi⟩ := Option.isSome_iff_exists.1 (modInv_isSome.2 hg)
  refine ⟨i, hi, ?_, modInv_range (by exact_mod_cast q_pos) hi⟩
  have h1 := modInv_eq_some hi
  have h2 : (((k.val : ℤ) * i : ℤ) : Sc) = ((1 : ℤ) : Sc) :=
    (ZMod.intCast_eq_intCast_iff _ _ _).2 h1
  rw [Int.cast_mul, val_cast, Int.cast_one] at h2
  exact eq_inv_of_mul_eq_one_right h2

theorem modInv_sc_zero : modInv ((0 : Sc).val : ℤ) (q : ℤ) = none := by
  rw [modInv_eq_none]
  have := q_one_lt
  simp [ZMod.val_zero]
  omega

/-- An integer reduced modulo `q` is the representative of its class. -/
theorem emod_eq_val (a : ℤ) : a % (q : ℤ) = ((a : Sc).val : ℤ) := (ZMod.val_intCast a).symm

end

variable [Crypto]

/-- The two summands of party two's plaintext: `(m / k2) mod q` and `(r x2 / k2) mod q`. -/
def uPart (k2 : Sc) (m : ℤ) : ℕ := (k2⁻¹ * (m : Sc)).val
def vPart (k2 x2 : Sc) (x : ℕ) : ℕ := (k2⁻¹ * ((x : Sc) * x2)).val

/-- Party two's partial signature encrypts `rho q + u + v X` if the encrypted share encrypts `X`. -/
theorem partial_spec {ek : ℕ} {c : ℤ} {s2 : Party2Private} {e2 : EcKeyPair} {R1 : Pt} {m rho r : ℤ}
    {x : ℕ} (hx : xc (e2.secret_share • R1) = some x) (hk : e2.secret_share ≠ 0) {X rX : ℤ}
    (hc : Paillier.IsEnc ek c X rX) :
    ∃ c3, PartialSig.compute ek c s2 e2 R1 m rho r = .ok c3 ∧
      Paillier.IsEnc ek c3
        (vPart e2.secret_share s2.x2 x * X + (rho * q + uPart e2.secret_share m))
        (rX ^ vPart e2.secret_share s2.x2 x * r) := by
  obtain ⟨i, hi, hic, -⟩ := modInv_sc hk
  refine ⟨_, by
    unfold PartialSig.compute
    dsimp only
    rw [hx, hi]
    rfl, ?_⟩
  have hu : i * m % (q : ℤ) = (uPart e2.secret_share m : ℤ) := by
    rw [emod_eq_val, Int.cast_mul, hic]; rfl
  have hv : (i * ((x : ℤ) % q * s2.x2.val % q) % (q : ℤ)).toNat = vPart e2.secret_share s2.x2 x := by
    rw [emod_eq_val, Int.toNat_natCast]
    unfold vPart
    congr 1
    rw [Int.cast_mul, hic, castMod, Int.cast_mul, castMod, val_cast, Int.cast_natCast]
  rw [hu, hv]
  exact (hc.mul _).add (Paillier.isEnc_encrypt ek _ _)

/-- What party one outputs, given the plaintext. -/
theorem compute_spec {s1 : Party1Private} {c3 : ℤ} {e1 : EcKeyPair} {R2 : Pt} {x : ℕ} {pt : ℤ}
    (hx : xc (e1.secret_share • R2) = some x) (hk : e1.secret_share ≠ 0)
    (hd : Paillier.decrypt s1.paillier_priv c3 = some pt) :
    Signature.compute s1 c3 e1 R2 =
      .ok ⟨(normS ((pt : Sc) * e1.secret_share⁻¹)).val, (x : ℤ) % q⟩ := by
  unfold Signature.compute
  dsimp only
  rw [hx, scInvert_of_ne hk, hd]
  show Res.ok _ = _
  rw [min_eq_normS]

theorem compute_with_recid_spec {s1 : Party1Private} {c3 : ℤ} {e1 : EcKeyPair} {R2 : Pt} {x y : ℕ}
    {pt : ℤ} (hx : coords (e1.secret_share • R2) = some (x, y)) (hk : e1.secret_share ≠ 0)
    (hd : Paillier.decrypt s1.paillier_priv c3 = some pt) :
    Signature.compute_with_recid s1 c3 e1 R2 =
      .ok ⟨(normS ((pt : Sc) * e1.secret_share⁻¹)).val, (x : ℤ) % q,
        recidOf ((pt : Sc) * e1.secret_share⁻¹) y⟩ := by
  have h1 : xc (e1.secret_share • R2) = some x := by simp [xc, hx]
  have h2 : yc (e1.secret_share • R2) = some y := by simp [yc, hx]
  unfold Signature.compute_with_recid
  dsimp only
  rw [h1, h2, scInvert_of_ne hk, hd]
  show Res.ok _ = _
  rw [min_eq_normS]
  congr 2
  have : (decide ((y : ℤ) % q % 2 = 1)) = decide (y % q % 2 = 1) := by
    rw [decide_eq_decide]; norm_cast
  rw [this]
  unfold recidOf
  simp only [decide_eq_true_eq]

/-- The plaintext of an honest partial signature, reduced modulo `q` and divided by `k1`. -/
theorem honest_s {k1 k2 x1 x2 : Sc} {m rho : ℤ} {x : ℕ} :
    (((vPart k2 x2 x * (x1.val : ℤ) + (rho * q + uPart k2 m) : ℤ) : Sc)) * k1⁻¹ =
      (k1 * k2)⁻¹ * ((m : Sc) + (x : Sc) * (x1 * x2)) := by
  unfold uPart vPart
  push_cast
  simp only [ZMod.natCast_val, ZMod.cast_id', id_eq, CharP.cast_eq_zero, mul_zero, zero_add]
  rw [mul_inv]
  ring

theorem honest_lt {k2 x1 x2 : Sc} {m rho : ℤ} {x n : ℕ} (h0 : 0 ≤ rho) (h1 : rho < (q : ℤ) ^ 2)
    (hn : (q : ℤ) ^ 3 + (q : ℤ) ^ 2 ≤ n) :
    0 ≤ (vPart k2 x2 x * (x1.val : ℤ) + (rho * q + uPart k2 m) : ℤ) ∧
      (vPart k2 x2 x * (x1.val : ℤ) + (rho * q + uPart k2 m) : ℤ) < n := by
  have hu : (uPart k2 m : ℤ) < q := by exact_mod_cast ZMod.val_lt (k2⁻¹ * (m : Sc))
  have hv : (vPart k2 x2 x : ℤ) < q := by exact_mod_cast ZMod.val_lt (k2⁻¹ * ((x : Sc) * x2))
  have hx : (x1.val : ℤ) < q := by exact_mod_cast ZMod.val_lt x1
  have hq : (0 : ℤ) < q := by exact_mod_cast q_pos
  have hu0 : (0 : ℤ) ≤ uPart k2 m := Int.natCast_nonneg _
  have hv0 : (0 : ℤ) ≤ vPart k2 x2 x := Int.natCast_nonneg _
  have hx0 : (0 : ℤ) ≤ x1.val := Int.natCast_nonneg _
  refine ⟨by positivity, ?_⟩
  have e1 : (vPart k2 x2 x : ℤ) * x1.val ≤ (q - 1) * (q - 1) :=
    mul_le_mul (by omega) (by omega) hx0 (by omega)
  have e2 : rho * q ≤ ((q : ℤ) ^ 2 - 1) * q := mul_le_mul_of_nonneg_right (by omega) hq.le
  nlinarith

omit [Crypto] in
/-- Multiplying an encryption of `X` by `(2 v + q) / 2` modulo `n`, when `X` is even. -/
theorem parity_even {Q v X u : ℕ} {n half : ℕ} {rho : ℤ} (hQ : 3 ≤ Q) (hn : n = 2 * half + 1)
    (hv : v < Q) (hX : X < Q) (hu : u < Q) (h0 : 0 ≤ rho) (h1 : rho < (Q : ℤ) ^ 2)
    (hbig : 4 * ((Q : ℤ) ^ 3 + (Q : ℤ) ^ 2) ≤ n) {a : ℕ} (hXa : X = 2 * a) :
    ((((2 * v + Q) * (half + 1) : ℕ) : ℤ) * (X : ℤ) + (rho * Q + u)) % n =
      (2 * v + Q : ℕ) * a + (rho * Q + u) := by
  have e : (((2 * v + Q) * (half + 1) : ℕ) : ℤ) * (X : ℤ) + (rho * Q + u) =
      ((2 * v + Q : ℕ) * a + (rho * Q + u)) + (n : ℤ) * ((2 * v + Q : ℕ) * a) := by
    rw [hXa, hn]; push_cast; ring
  rw [e, Int.add_mul_emod_self_left]
  have hQ' : (3 : ℤ) ≤ Q := by exact_mod_cast hQ
  have hr0 : 0 ≤ rho * Q := mul_nonneg h0 (by omega)
  have hr : rho * Q ≤ ((Q : ℤ) ^ 2 - 1) * Q := mul_le_mul_of_nonneg_right (by omega) (by omega)
  have hw : ((2 * v + Q : ℕ) : ℤ) * a ≤ 3 * Q * Q :=
    mul_le_mul (by push_cast; omega) (by omega) (Int.natCast_nonneg _) (by omega)
  refine Int.emod_eq_of_lt (by positivity) ?_
  have h3 : (0 : ℤ) < (Q : ℤ) ^ 3 := by positivity
  have h2 : (Q : ℤ) * Q = (Q : ℤ) ^ 2 := by ring
  have h4 : ((Q : ℤ) ^ 2 - 1) * Q = (Q : ℤ) ^ 3 - Q := by ring
  have h5 : (3 : ℤ) * Q * Q = 3 * (Q : ℤ) ^ 2 := by ring
  have h6 : (0 : ℤ) < (Q : ℤ) ^ 2 := by positivity
  rw [h4] at hr
  rw [h5] at hw
  linarith [show (u : ℤ) < Q by exact_mod_cast hu]

omit [Crypto] in
/-- The same when `X` is odd. -/
theorem parity_odd {Q v X u : ℕ} {n half : ℕ} {rho : ℤ} (hQ : 3 ≤ Q) (hodd : Q % 2 = 1)
    (hn : n = 2 * half + 1)
    (hv : v < Q) (hX : X < Q) (hu : u < Q) (h0 : 0 ≤ rho) (h1 : rho < (Q : ℤ) ^ 2)
    (hbig : 4 * ((Q : ℤ) ^ 3 + (Q : ℤ) ^ 2) ≤ n) {a : ℕ} (hXa : X = 2 * a + 1) :
    2 * (((((2 * v + Q) * (half + 1) : ℕ) : ℤ) * (X : ℤ) + (rho * Q + u)) % n) =
      (2 * v + Q : ℕ) * X + 2 * (rho * Q + u) + n := by
  obtain ⟨b, hb⟩ : ∃ b, 2 * v + Q = 2 * b + 1 := ⟨(2 * v + Q) / 2, by omega⟩
  have hb' : 2 * (b : ℤ) ≤ 3 * Q := by omega
  have hw : ((2 * v + Q : ℕ) : ℤ) * a ≤ 3 * Q * Q :=
    mul_le_mul (by push_cast; omega) (by omega) (Int.natCast_nonneg _) (by omega)
  rw [hb] at hw ⊢
  have e : (((2 * b + 1) * (half + 1) : ℕ) : ℤ) * (X : ℤ) + (rho * Q + u) =
      ((2 * b + 1 : ℕ) * a + b + half + 1 + (rho * Q + u)) + (n : ℤ) * ((2 * b + 1 : ℕ) * a + b) := by
    rw [hXa, hn]; push_cast; ring
  have hQ' : (3 : ℤ) ≤ Q := by exact_mod_cast hQ
  have hr0 : 0 ≤ rho * Q := mul_nonneg h0 (by omega)
  have hr : rho * Q ≤ ((Q : ℤ) ^ 2 - 1) * Q := mul_le_mul_of_nonneg_right (by omega) (by omega)
  rw [e, Int.add_mul_emod_self_left, Int.emod_eq_of_lt]
  · rw [hXa, hn]; push_cast; ring
  · positivity
  have h3 : 3 * (Q : ℤ) ^ 2 ≤ (Q : ℤ) ^ 3 := by
    have : (Q : ℤ) ^ 3 = Q * (Q : ℤ) ^ 2 := by ring
    rw [this]
    exact mul_le_mul_of_nonneg_right hQ' (by positivity)
  have h2 : 3 * (Q : ℤ) ≤ (Q : ℤ) ^ 2 := by
    have : (Q : ℤ) ^ 2 = Q * (Q : ℤ) := by ring
    rw [this]
    exact mul_le_mul_of_nonneg_right hQ' (by positivity)
  have h4 : ((Q : ℤ) ^ 2 - 1) * Q = (Q : ℤ) ^ 3 - Q := by ring
  have h5 : (3 : ℤ) * Q * Q = 3 * (Q : ℤ) ^ 2 := by ring
  rw [h4] at hr
  rw [h5] at hw
  have hn2 : (n : ℤ) = 2 * half + 1 := by rw [hn]; push_cast; ring
  linarith [show (u : ℤ) < Q by exact_mod_cast hu]

/-- Equal low representatives mean equal up to sign. -/
theorem normS_eq_cases {s t : Sc} (h : normS s = normS t) : s = t ∨ s = -t := by
  rcases normS_cases s with e | e <;> rcases normS_cases t with e' | e' <;> rw [e, e'] at h
  · exact Or.inl h
  · exact Or.inr h
  · exact Or.inr (by rw [← h, neg_neg])
  · exact Or.inl (neg_injective h)

end Verif.Lindell17
