import Verif.Spec.PdlCheat
import Verif.Lemmas.Hiding
import Verif.Props.Pdl
import Verif.Props.TwoParty
import Mathlib.NumberTheory.Basic
import Mathlib.Data.Int.Interval

/-!
# Cheating provers of the interactive PDL proof (C126)
-/

namespace Verif.Props

open EC Crypto RangeNi Spec

section
variable [Crypto] [RangeNi]

omit [RangeNi] in
/-- The ciphertext sent to the prover depends only on the integer `a m + b` and on the residue of `rx ^ a r`. -/
theorem pdl_tag_eq {st : Pdl.Statement} {m rx : ℤ} (hn : 0 < st.ek)
    (hc : Paillier.IsEnc st.ek st.ciphertext m rx) {a a' : Sc} {b b' bl bl' r r' : ℤ} (hb : 0 ≤ b) (hb' : 0 ≤ b')
    (hm : a.val * m + b = a'.val * m + b') (hr : rx ^ a.val * r ≡ rx ^ a'.val * r' [ZMOD st.ek]) :
    (Pdl.verifierMessage1 st a b bl r).1.c_tag = (Pdl.verifierMessage1 st a' b' bl' r').1.c_tag := by
  have key : ∀ (a : Sc) (b bl r : ℤ), 0 ≤ b →
      (Pdl.verifierMessage1 st a b bl r).1.c_tag =
        ((1 + (a.val * m + b) * st.ek) * (rx ^ a.val * r) ^ st.ek) % (st.ek * st.ek) := by
    intro a b bl r hb
    have henc : Paillier.IsEnc st.ek (Pdl.verifierMessage1 st a b bl r).1.c_tag (a.val * m + b)
        (rx ^ a.val * r) := (hc.mul a.val).add (Paillier.isEnc_encrypt st.ek b r)
    have hpos : (0 : ℤ) < (st.ek : ℤ) * st.ek := by positivity
    have hmul : 0 ≤ Paillier.mul st.ek st.ciphertext a.val := Int.emod_nonneg _ hpos.ne'
    rw [← henc.eq]
    symm
    refine Int.emod_eq_of_lt ?_ ?_
    · show 0 ≤ Paillier.add st.ek (Paillier.mul st.ek st.ciphertext a.val) (Paillier.encrypt st.ek b r)
      unfold Paillier.add
      rw [rem_of_nonneg (mul_nonneg hmul (Paillier.encrypt_range hn hb).1)]
      exact Int.emod_nonneg _ hpos.ne'
    · show Paillier.add st.ek (Paillier.mul st.ek st.ciphertext a.val) (Paillier.encrypt st.ek b r) < _
      unfold Paillier.add
      rw [rem_of_nonneg (mul_nonneg hmul (Paillier.encrypt_range hn hb).1)]
      exact Int.emod_lt_of_pos _ hpos
  rw [key a b bl r hb, key a' b' bl' r' hb', hm]
  refine Int.ModEq.mul_left _ ?_
  have := dvd_sub_pow_of_dvd_sub (R := ℤ) (p := st.ek) hr.symm.dvd 1
  rw [Int.modEq_iff_dvd]
  rw [pow_one] at this
  have h2 : ((st.ek : ℤ) * st.ek) = (st.ek : ℤ) ^ (1 + 1) := by ring
  rw [h2]
  exact (dvd_sub_comm).1 this

theorem convinces_opens {P : PdlProver} {st : Pdl.Statement} {bl : ℤ} {a : Sc} {b r : ℤ}
    (h : P.Convinces st bl a b r) :
    let t := (Pdl.verifierMessage1 st a b bl r).1.c_tag
    let d := P.second t ⟨a.val, b, bl⟩
    (P.first t).c_hat = hashCom (ser d.q_hat) d.blindness ∧ d.q_hat = a • st.Q + (b : Sc) • st.G := by
  obtain ⟨m2, h1, h2⟩ := h
  obtain ⟨-, rfl⟩ := C34_challenge_opened_iff.1 h1
  exact C34_finalize_iff.1 h2

/-- **C126 (partial).** Let the ciphertext of the statement be an encryption of the integer `m` (any integer
congruent to the plaintext will do), and let `x`, the discrete logarithm of `Q` to the base `G`, not be `m`
modulo `q`.  Whatever the prover does, it convinces the verifier with a chance of at most
`1 / (q - 1) + |m| / q²`, unless it opens one of its commitments in two ways. -/
theorem C126_cheating_chance_partial (P : PdlProver) {st : Pdl.Statement} (hn : 0 < st.ek) {x : Sc}
    (hG : st.G ≠ 0) (hQ : st.Q = x • st.G) {m rx : ℤ} (hrx : Int.gcd rx st.ek = 1)
    (hc : Paillier.IsEnc st.ek st.ciphertext m rx) (hx : (m : Sc) ≠ x) (bl : ℤ) :
    (∃ t d d', (P.first t).c_hat = hashCom (ser (P.second t d).q_hat) (P.second t d).blindness ∧
      (P.first t).c_hat = hashCom (ser (P.second t d').q_hat) (P.second t d').blindness ∧
      (P.second t d).q_hat ≠ (P.second t d').q_hat) ∨
    chance (fun ω : PdlChallenge st.ek =>
      P.Convinces st bl ω.1.1 ω.2.1.1 ((ω.2.2 : ZMod st.ek).val : ℤ)) ≤ 1 / ((q : ℚ) - 1) + |m| / (q : ℚ) ^ 2 := by
  by_cases hcol : ∃ t d d', (P.first t).c_hat = hashCom (ser (P.second t d).q_hat) (P.second t d).blindness ∧
      (P.first t).c_hat = hashCom (ser (P.second t d').q_hat) (P.second t d').blindness ∧
      (P.second t d).q_hat ≠ (P.second t d').q_hat
  · exact Or.inl hcol
  refine Or.inr ?_
  have hnz : NeZero st.ek := ⟨hn.ne'⟩
  obtain ⟨u, hu⟩ : IsUnit ((rx : ℤ) : ZMod st.ek) := by
    rw [ZMod.coe_int_isUnit_iff_isCoprime, Int.isCoprime_iff_gcd_eq_one, Int.gcd_comm]
    exact hrx
  have hq1 := q_one_lt
  set lo : ℤ := min 0 (((q : ℤ) - 1) * m) with hlo
  set hi : ℤ := max 0 (((q : ℤ) - 1) * m) + (q : ℤ) ^ 2 with hhi
  have hsize : hi - lo = ((q : ℤ) - 1) * |m| + (q : ℤ) ^ 2 := by
    rw [hlo, hhi]
    rcases le_total 0 m with h | h
    · have : 0 ≤ ((q : ℤ) - 1) * m := mul_nonneg (by omega) h
      rw [min_eq_left this, max_eq_right this, abs_of_nonneg h]; ring
    · have : ((q : ℤ) - 1) * m ≤ 0 := mul_nonpos_of_nonneg_of_nonpos (by omega) h
      rw [min_eq_right this, max_eq_left this, abs_of_nonpos h]; ring
  have hmem : ∀ ω : PdlChallenge st.ek, (ω.1.1.val : ℤ) * m + (ω.2.1.1 : ℤ) ∈ Set.Ico lo hi := by
    rintro ⟨⟨a, ha⟩, ⟨b, hb⟩, r⟩
    have ha1 : (a.val : ℤ) ≤ (q : ℤ) - 1 := by
      have := ZMod.val_lt a
      omega
    have hb1 : (b : ℤ) < (q : ℤ) ^ 2 := by exact_mod_cast hb
    have ha0 : (0 : ℤ) ≤ a.val := by positivity
    have h1 : lo ≤ (a.val : ℤ) * m := by
      rcases le_total 0 m with h | h
      · exact (min_le_left _ _).trans (mul_nonneg ha0 h)
      · exact (min_le_right _ _).trans (mul_le_mul_of_nonpos_right ha1 h)
    have h2 : (a.val : ℤ) * m ≤ max 0 (((q : ℤ) - 1) * m) := by
      rcases le_total 0 m with h | h
      · exact le_max_of_le_right (mul_le_mul_of_nonneg_right ha1 h)
      · exact le_max_of_le_left (mul_nonpos_of_nonneg_of_nonpos ha0 h)
    constructor
    · show lo ≤ (a.val : ℤ) * m + (b : ℤ)
      omega
    · show (a.val : ℤ) * m + (b : ℤ) < hi
      omega
  let g : {ω : PdlChallenge st.ek // P.Convinces st bl ω.1.1 ω.2.1.1 ((ω.2.2 : ZMod st.ek).val : ℤ)} →
      Set.Ico lo hi × (ZMod st.ek)ˣ := fun ω => (⟨_, hmem ω.1⟩, u ^ ω.1.1.1.val * ω.1.2.2)
  have hinj : Function.Injective g := by
    rintro ⟨⟨⟨a, ha⟩, ⟨b, hb⟩, r⟩, hω⟩ ⟨⟨⟨a', ha'⟩, ⟨b', hb'⟩, r'⟩, hω'⟩ he
    have e1 : (a.val : ℤ) * m + (b : ℤ) = (a'.val : ℤ) * m + (b' : ℤ) :=
      congrArg Subtype.val (congrArg Prod.fst he)
    have e2 : u ^ a.val * r = u ^ a'.val * r' := congrArg Prod.snd he
    have e3 : rx ^ a.val * ((r : ZMod st.ek).val : ℤ) ≡ rx ^ a'.val * ((r' : ZMod st.ek).val : ℤ) [ZMOD st.ek] := by
      rw [← ZMod.intCast_eq_intCast_iff]
      push_cast
      rw [ZMod.natCast_zmod_val, ZMod.natCast_zmod_val, ← hu]
      exact congrArg Units.val e2
    have ht := pdl_tag_eq (bl := bl) (bl' := bl) hn hc (by positivity) (by positivity) e1 e3
    have o1 := convinces_opens hω
    have o2 := convinces_opens hω'
    simp only at o1 o2
    rw [← ht] at o2
    have hq : (P.second (Pdl.verifierMessage1 st a b bl ((r : ZMod st.ek).val : ℤ)).1.c_tag ⟨a.val, b, bl⟩).q_hat =
        (P.second (Pdl.verifierMessage1 st a b bl ((r : ZMod st.ek).val : ℤ)).1.c_tag ⟨a'.val, b', bl⟩).q_hat := by
      by_contra hne
      exact hcol ⟨_, _, _, o1.1, o2.1, hne⟩
    have e4 : a • st.Q + ((b : ℤ) : Sc) • st.G = a' • st.Q + ((b' : ℤ) : Sc) • st.G :=
      o1.2.symm.trans (hq.trans o2.2)
    rw [hQ, ← mul_smul, ← mul_smul, ← add_smul, ← add_smul] at e4
    have e5 : a * x + ((b : ℤ) : Sc) = a' * x + ((b' : ℤ) : Sc) := by
      rw [← sub_eq_zero, ← sub_smul] at e4
      rcases smul_eq_zero_iff.1 e4 with h | h
      · exact sub_eq_zero.1 h
      · exact absurd h hG
    have e6 : a * (m : Sc) + ((b : ℤ) : Sc) = a' * (m : Sc) + ((b' : ℤ) : Sc) := by
      have := congrArg (fun z : ℤ => (z : Sc)) e1
      push_cast at this ⊢
      rwa [ZMod.natCast_zmod_val, ZMod.natCast_zmod_val] at this
    have e7 : (a - a') * ((m : Sc) - x) = 0 := by linear_combination e6 - e5
    have haa : a = a' := by
      rcases mul_eq_zero.1 e7 with h | h
      · exact sub_eq_zero.1 h
      · exact absurd (sub_eq_zero.1 h) hx
    subst haa
    have hbb : b = b' := by
      have : (b : ℤ) = b' := by linarith
      exact_mod_cast this
    subst hbb
    have hrr : r = r' := mul_left_cancel e2
    subst hrr
    rfl
  have hfin : Finite (Set.Ico lo hi) := (Set.finite_Ico lo hi).to_subtype
  have hcard := Nat.card_le_card_of_injective g hinj
  have hlohi : 0 ≤ hi - lo := by
    rw [hsize]
    exact add_nonneg (mul_nonneg (by omega) (abs_nonneg m)) (by positivity)
  have hIco : (Nat.card (Set.Ico lo hi) : ℚ) = ((q : ℚ) - 1) * |(m : ℚ)| + (q : ℚ) ^ 2 := by
    rw [Nat.card_eq_fintype_card, Fintype.card_ofFinset, Int.card_Ico]
    have : (((hi - lo).toNat : ℤ) : ℚ) = ((hi - lo : ℤ) : ℚ) := by rw [Int.toNat_of_nonneg hlohi]
    rw [hsize] at this
    push_cast at this
    rw [← this, hsize]
  have hsc : (Nat.card {a : Sc // a ≠ 0} : ℚ) = (q : ℚ) - 1 := by
    have h := Fintype.card_subtype_compl (fun a : Sc => a = 0)
    rw [Fintype.card_subtype_eq, ZMod.card] at h
    rw [Nat.card_eq_fintype_card, h, Nat.cast_sub hq1.le]
    simp
  have hφ : 0 < (Nat.card (ZMod st.ek)ˣ : ℚ) := by exact_mod_cast Nat.card_pos
  have hqq : (1 : ℚ) < q := by exact_mod_cast hq1
  have hΩ : (Nat.card (PdlChallenge st.ek) : ℚ) = ((q : ℚ) - 1) * ((q : ℚ) ^ 2 * Nat.card (ZMod st.ek)ˣ) := by
    unfold PdlChallenge
    rw [Nat.card_prod, Nat.card_prod, Nat.card_fin]
    push_cast
    rw [hsc]
  have hA : (Nat.card {ω : PdlChallenge st.ek // P.Convinces st bl ω.1.1 ω.2.1.1
      ((ω.2.2 : ZMod st.ek).val : ℤ)} : ℚ) ≤
      (((q : ℚ) - 1) * |(m : ℚ)| + (q : ℚ) ^ 2) * Nat.card (ZMod st.ek)ˣ := by
    rw [← hIco, ← Nat.cast_mul, ← Nat.card_prod]
    exact_mod_cast hcard
  unfold chance
  rw [hΩ]
  refine (div_le_div_of_nonneg_right hA (by positivity)).trans (le_of_eq ?_)
  have h1 : (q : ℚ) - 1 ≠ 0 := by linarith
  push_cast
  field_simp
  ring

/-- The prover that knows the decryption key and reads decrypted values of `q²` and more as negative numbers.
Its range proof is `rp`. -/
def centredProver (dk : DecKey) (G' : Pt) (rp : RPProof) : PdlProver where
  first := fun t =>
    let alpha := (Paillier.decrypt dk t).getD 0
    ⟨hashCom (ser ((((if alpha < (q : ℤ) ^ 2 then alpha else alpha - dk.n) : ℤ) : Sc) • G')) 0, rp⟩
  second := fun t _ =>
    let alpha := (Paillier.decrypt dk t).getD 0
    ⟨(((if alpha < (q : ℤ) ^ 2 then alpha else alpha - dk.n) : ℤ) : Sc) • G', 0⟩

/-- **C126 fails** for large plaintexts.  The ciphertext holds `n - d`, which is not the discrete logarithm
of `Q` modulo `q` (that is `-d`).  The verifier does not look at the range of the range proof, and the prover
always convinces it. -/
theorem C126_large_plaintext_convinces {dk : DecKey} (hv : dk.Valid) {st : Pdl.Statement} (hek : st.ek = dk.n)
    (hG : st.G ≠ 0) {d rx : ℤ} (hd : 0 < d) (hN : (q : ℤ) ^ 2 + q * d ≤ dk.n) (hq : ((dk.n : ℤ) : Sc) ≠ 0)
    (hrx : Int.gcd rx dk.n = 1) (hc : st.ciphertext = Paillier.encrypt st.ek (dk.n - d) rx)
    (hQ : st.Q = (-(d : Sc)) • st.G) :
    ∃ m : ℤ, Paillier.decrypt dk st.ciphertext = some m ∧ st.Q ≠ (m : Sc) • st.G ∧
      ∃ P : PdlProver, ∀ (bl : ℤ) (a : Sc) (b r : ℤ), 0 ≤ b → b < (q : ℤ) ^ 2 → Int.gcd r dk.n = 1 →
        P.Convinces st bl a b r := by
  have hq1 : (1 : ℤ) < q := by exact_mod_cast q_one_lt
  have hn : 0 < dk.n := by
    have : (0 : ℤ) < dk.n := by nlinarith
    exact_mod_cast this
  have hdn : d < dk.n := by nlinarith
  have hc' : Paillier.IsEnc dk.n st.ciphertext (dk.n - d) rx := by
    rw [hc, hek]; exact Paillier.isEnc_encrypt _ _ _
  refine ⟨dk.n - d, ?_, ?_, ?_⟩
  · rw [Paillier.decrypt_spec hv hc' hrx, Int.emod_eq_of_lt (by omega) (by omega)]
  · intro h
    rw [hQ, ← sub_eq_zero, ← sub_smul] at h
    rcases smul_eq_zero_iff.1 h with h | h
    · refine hq ?_
      push_cast at h ⊢
      linear_combination -h
    · exact hG h
  · obtain ⟨coins, hrp⟩ := rp_complete dk.n (3 * (dk.n - d)) (dk.n - d) rx hn hrx (by omega) le_rfl
    refine ⟨centredProver dk st.G (rpProve dk.n (3 * (dk.n - d)) (Paillier.encrypt dk.n (dk.n - d) rx)
      (dk.n - d) rx coins), ?_⟩
    intro bl a b r hb0 hb1 hr
    have henc : Paillier.IsEnc dk.n (Pdl.verifierMessage1 st a b bl r).1.c_tag (a.val * (dk.n - d) + b)
        (rx ^ a.val * r) := by
      rw [← hek] at hc' ⊢
      exact (hc'.mul a.val).add (Paillier.isEnc_encrypt st.ek b r)
    have hdec := Paillier.decrypt_spec hv henc (gcd_pow_mul _ hrx hr)
    have ha0 : (0 : ℤ) ≤ a.val := by positivity
    have ha1 : (a.val : ℤ) ≤ q := by exact_mod_cast (ZMod.val_lt a).le
    have had : (a.val : ℤ) * d ≤ q * d := mul_le_mul_of_nonneg_right ha1 hd.le
    have had0 : 0 ≤ (a.val : ℤ) * d := mul_nonneg ha0 hd.le
    have hmod : ((a.val : ℤ) * (dk.n - d) + b) % dk.n = (b - a.val * d) % dk.n := by
      have : (a.val : ℤ) * (dk.n - d) + b = (b - a.val * d) + dk.n * a.val := by ring
      rw [this, Int.add_mul_emod_self_left]
    have hα : (if (b - a.val * d) % dk.n < (q : ℤ) ^ 2 then (b - a.val * d) % dk.n
        else (b - a.val * d) % dk.n - dk.n) = b - a.val * d := by
      rcases le_or_gt 0 (b - a.val * d) with h | h
      · rw [Int.emod_eq_of_lt h (by nlinarith), if_pos (by omega)]
      · have e : (b - (a.val : ℤ) * d) % dk.n = b - a.val * d + dk.n := by
          rw [← Int.add_emod_right, Int.emod_eq_of_lt (by omega) (by omega)]
        rw [e, if_neg (by omega)]
        ring
    have hpt : (((b - a.val * d : ℤ)) : Sc) • st.G = a • st.Q + (b : Sc) • st.G := by
      rw [hQ, ← mul_smul, ← add_smul]
      congr 1
      push_cast
      rw [ZMod.natCast_zmod_val]
      ring
    refine ⟨⟨a.val, b, bl⟩, ?_, ?_⟩
    · simp only [centredProver, Pdl.verifierMessage2, hc, hek, hrp]
      rfl
    · refine C34_finalize_iff.2 ?_
      simp only [centredProver, hdec, Option.getD_some, hmod, hα]
      exact ⟨trivial, hpt⟩

end
section
attribute [local instance] Toy.crypto RangeNi.trivial

/-- The discrete logarithm is 9 and the ciphertext holds 10. -/
def toyPdlTen : Pdl.Statement := ⟨Paillier.encrypt toyKey.n 10 5, toyKey.n, (9 : ZMod 31), (1 : ZMod 31)⟩

example (P : PdlProver) := C126_cheating_chance_partial P
  (st := toyPdlTen) (x := (9 : ZMod 31)) (m := 10) (rx := 5)
  (by decide) (by decide) (by decide) (by decide) (Paillier.isEnc_encrypt toyKey.n 10 5) (by decide) 3

/-- The prover above opens its commitment in one way only, so the second case is the one that holds. -/
example : chance (fun ω : PdlChallenge toyKey.n => (centredProver toyKey (1 : ZMod 31) true).Convinces
    toyPdlTen 3 ω.1.1 ω.2.1.1
      ((ω.2.2 : ZMod toyKey.n).val : ℤ)) ≤ 1 / 30 + 10 / 961 := by
  rcases C126_cheating_chance_partial (centredProver toyKey (1 : ZMod 31) true)
    (st := toyPdlTen) (x := (9 : ZMod 31)) (m := 10) (rx := 5)
    (by decide) (by decide) (by decide) (by decide) (Paillier.isEnc_encrypt toyKey.n 10 5) (by decide) 3 with h | h
  · obtain ⟨t, d, d', -, -, h⟩ := h
    exact absurd rfl h
  · refine h.trans (le_of_eq ?_)
    show 1 / (((31 : ℕ) : ℚ) - 1) + ((|(10 : ℤ)| : ℤ) : ℚ) / ((31 : ℕ) : ℚ) ^ 2 = _
    norm_num

/-- The ciphertext of `2021 - 9`, which is 28 modulo 31, and `Q = -9 G`. -/
example := C126_large_plaintext_convinces (dk := toyKey) toyKey_valid
  (st := ⟨Paillier.encrypt toyKey.n (toyKey.n - 9) 5, toyKey.n, (-9 : ZMod 31), (1 : ZMod 31)⟩) (d := 9) (rx := 5)
  rfl (by decide) (by decide) (by decide) (by decide) (by decide) rfl (by decide)

end

end Verif.Props
