import Verif.Props.Sign
import Verif.Props.SignSM
import Verif.Props.MixedThresholds

/-!
# Signers whose shares do not make up the key (C123)
-/

namespace Verif.Props

open EC Crypto Spec GG20 GG20.Sign Polynomial

section
variable [Crypto] {n : ℕ} {Y : Pt} {x : ℕ → Sc} {dk : ℕ → DecKey} {sts : List DLogStatement} {s_l : List ℕ}
  {key : ℕ → LocalKey} {rnd : ℕ → SignRandomness}

theorem signShare_sum_eq (hnd : s_l.Nodup) : ∑ k ∈ Finset.range s_l.length, signShare x s_l k =
    ∑ i ∈ s_l.toFinset, lagrangeCoeff s_l.toFinset i * x i := by
  rw [← sum_map_range_eq, List.sum_toFinset _ hnd]
  congr 1
  refine List.ext_getElem (by simp) fun i h1 h2 => ?_
  have hi : i < s_l.length := by simpa using h1
  simp [signShare, hi]

/-- **C123.** Signers that follow the protocol with the shares `x i` of the parties listed in `s_l`, however
many they are: if interpolation of these shares gives the key to the public key `Y`, the offline stage ends
at every signer with a presignature for `Y`; otherwise every signer, one by one, gets the same error in the
last round, which says that the signature would not verify and names nobody, and no signer gets a
presignature. -/
theorem C123_ends (h : HonestSigners n Y x dk sts s_l key rnd) :
    ∃ ends, offlineEnds s_l key rnd = .ok ends ∧ ends.length = s_l.length ∧
      ((∑ i ∈ s_l.toFinset, lagrangeCoeff s_l.toFinset i * x i) • G = Y →
        ∀ e ∈ ends, ∃ c, e = .ok c ∧ c.public_key = Y) ∧
      ((∑ i ∈ s_l.toFinset, lagrangeCoeff s_l.toFinset i * x i) • G ≠ Y →
        ∀ e ∈ ends, e = .err (.Round6CheckSig .Phase6Error)) := by
  refine ⟨_, offlineEnds_eq h, by simp, fun hY e he => ?_, fun hY e he => ?_⟩
  · obtain ⟨k, -, rfl⟩ := List.mem_map.1 he
    rw [if_pos (by rw [signShare_sum_eq h.nodup, hY])]
    exact ⟨_, rfl, rfl⟩
  · obtain ⟨k, -, rfl⟩ := List.mem_map.1 he
    exact if_neg (by rw [signShare_sum_eq h.nodup]; exact hY)

/-- **C123**, one signer too few: `t ≥ 2` holders of a key whose shares lie on a polynomial of degree `t`
are accepted by `OfflineStage::new`, run the whole protocol, and each gets the error of the last round. -/
theorem C123_one_too_few {t : ℕ} {f : Sc[X]} (hf : OnPolynomial t n x f) (hc : f.coeff t ≠ 0)
    (h : HonestSigners n (f.eval 0 • G) x dk sts s_l key rnd) (hn : ∀ k < s_l.length, (key k).n = n)
    (ht : 2 ≤ t) (hlen : s_l.length = t) :
    (∀ i, 1 ≤ i → i ≤ s_l.length → ∃ s, Sign.new i s_l (key (i - 1)) = .ok s) ∧
    offlineEnds s_l key rnd = .ok (List.replicate t (.err (.Round6CheckSig .Phase6Error))) := by
  have hcard : s_l.toFinset.card = t := by rw [List.toFinset_card_of_nodup h.nodup, hlen]
  have hS : ∀ i ∈ s_l.toFinset, 1 ≤ i ∧ i ≤ n := fun i hi => h.members i (by simpa using hi)
  constructor
  · intro i i1 i2
    rw [C37_new_accepts_partial]
    have hle : s_l.length ≤ n := by
      have := Finset.card_le_card (s := s_l.toFinset) (t := Finset.Icc 1 n) fun i hi => by
        have := hS i hi
        rw [Finset.mem_Icc]; exact this
      rw [hcard, Nat.card_Icc] at this
      omega
    have := h.n_u16
    exact ⟨⟨by omega, by omega⟩, ⟨i1, i2⟩, by rw [hn (i - 1) (by omega)]; exact h.members, h.nodup⟩
  · have hne : (∑ i ∈ s_l.toFinset, lagrangeCoeff s_l.toFinset i * x i) • (G : Pt) ≠ f.eval 0 • G := by
      rw [Ne, smul_G_inj, Finset.sum_congr rfl fun i hi => by rw [hf.2 i (hS i hi).1 (hS i hi).2]]
      exact too_few_shares h.n_lt hf.1 hc (by omega) _ hS hcard
    obtain ⟨ends, h1, h2, -, h3⟩ := C123_ends h
    rw [h1, List.eq_replicate_iff.2 ⟨h2.trans hlen, h3 hne⟩]

end

/-! ### Examples -/

section Examples
attribute [local instance] Toy.crypto

/-- Shares of the secret 5 on the parabola `5 + 7 X + X²`. -/
def parX (i : ℕ) : ZMod 31 := 5 + 7 * i + i ^ 2

theorem parX_poly : OnPolynomial 2 3 parX (C (5 : ZMod 31) + C (7 : ZMod 31) * X + X ^ 2) := by
  constructor
  · refine lt_of_le_of_lt (degree_add_le _ _) (max_lt (lt_of_le_of_lt (degree_add_le _ _) (max_lt ?_ ?_)) ?_)
    · exact lt_of_le_of_lt degree_C_le (by norm_num)
    · exact lt_of_le_of_lt (degree_C_mul_X_le _) (by norm_num)
    · exact lt_of_le_of_lt (degree_X_pow_le 2) (by norm_num)
  · intro i _ _
    simp only [eval_add, eval_mul, eval_C, eval_X, eval_pow]
    rfl

/-- The key of party `i`. -/
def parLocal (i : ℕ) : LocalKey :=
  { toyLocal i with
    pk_vec := (List.range 3).map (fun j => parX (j + 1) • (1 : ZMod 31))
    keys_linear := ⟨(5 : ZMod 31), parX i⟩, vss_scheme := ⟨2, 3, []⟩, t := 2 }

theorem parHonest : HonestSigners 3 ((5 : ZMod 31) • (G : Pt)) parX (fun _ => toyKey)
    [toySt, toySt, toySt] [3, 1] (fun k => parLocal ([3, 1].getD k 0)) toySign :=
  { n_lt := by decide, n_u16 := by decide, nodup := by decide, members := by decide
    holds := by
      intro k hk
      have hb : ∀ k < [3, 1].length, 1 ≤ [3, 1].getD k 0 ∧ [3, 1].getD k 0 ≤ 3 := by decide
      exact ⟨(hb k hk).1, (hb k hk).2, rfl, rfl, rfl, rfl, rfl, rfl, rfl⟩
    aux := ⟨rfl, by decide⟩
    dk_valid := fun _ _ _ => toyKey_valid
    sample := fun k hk => toySample (fun _ _ => by decide) (by decide) _ hk
    k_sum := by decide
    gamma_sum := by decide }

/-- Signers 3 and 1 of a 3-of-3 key. -/
example : offlineEnds [3, 1] (fun k => parLocal ([3, 1].getD k 0)) toySign =
    .ok [.err (.Round6CheckSig .Phase6Error), .err (.Round6CheckSig .Phase6Error)] := by
  have h0 : (C (5 : ZMod 31) + C (7 : ZMod 31) * X + X ^ 2).eval 0 = 5 := by simp
  exact (C123_one_too_few parX_poly (by simp) (by rw [h0]; exact parHonest)
    (fun _ _ => rfl) le_rfl rfl).2

/-- Signers 3 and 1 of a 2-of-3 key: the shares make up the key. -/
example : (∑ i ∈ [3, 1].toFinset, lagrangeCoeff [3, 1].toFinset i * toyX i) • (G : Pt) =
    (5 : ZMod 31) • (G : Pt) := by
  have := toyX_poly.reconstructs (by decide) [3, 1].toFinset (by decide) (by decide)
  have h0 : (C (5 : ZMod 31) + C (7 : ZMod 31) * X).eval 0 = 5 := by simp
  rw [this]
  exact congrArg (· • (G : Pt)) h0

end Examples
end Verif.Props
