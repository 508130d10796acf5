import Verif.Spec.Leak
import Verif.Lemmas.Mta
import Verif.Props.Mta

/-! Lemmas for C89: Alice's search finds the residue. -/

namespace Verif.Spec

open EC Crypto

variable [Crypto]

theorem residueOf_eq {dk : DecKey} {L : ℕ} {m : MessageB} {b : Sc} {alpha beta_tag u : ℤ}
    (hL : 2 * L ≤ q) (hqn : ¬ q ∣ dk.n) (hd : Paillier.decrypt dk m.c = some alpha)
    (hB : m.b_proof.pk = b • G) (hB' : m.beta_tag_proof.pk = (beta_tag : Sc) • G)
    (hu : -(L : ℤ) ≤ u) (hu' : u < L) (h : L * (alpha - beta_tag) - b.val = dk.n * u) :
    residueOf dk L m = some (b.val % L) := by
  have key : ∀ v : ℤ, ((L : Sc) • ((alpha : Sc) • (G : Pt) - (beta_tag : Sc) • G) - b • G =
      ((dk.n * v : ℤ) : Sc) • G) ↔ (q : ℤ) ∣ u - v := by
    intro v
    rw [← sub_smul, ← mul_smul, ← sub_smul, smul_G_inj]
    have h2 : (L : Sc) * ((alpha : Sc) - (beta_tag : Sc)) - b = ((dk.n * u : ℤ) : Sc) := by
      rw [← h]; push_cast; rw [ZMod.natCast_val, ZMod.cast_id', id]
    rw [h2, ZMod.intCast_eq_intCast_iff_dvd_sub, ← mul_sub]
    have hp : Prime (q : ℤ) := Nat.prime_iff_prime_int.1 EC.q_prime.out
    rw [hp.dvd_mul]
    constructor
    · rintro (h | h)
      · exact absurd (Int.natCast_dvd_natCast.1 h) hqn
      · rw [← neg_sub]; exact (dvd_neg).2 h
    · intro h; right; rw [← neg_sub]; exact (dvd_neg).2 h
  have huniq : ∀ v : ℤ, -(L : ℤ) ≤ v → v < L → (q : ℤ) ∣ u - v → v = u := by
    intro v h1 h2 h3
    have : (2 * L : ℤ) ≤ q := by exact_mod_cast hL
    have := Int.eq_zero_of_abs_lt_dvd h3 (by rw [abs_lt]; constructor <;> linarith)
    omega
  unfold residueOf
  rw [hd, Option.bind_some, hB, hB']
  have hf : (List.range (2 * L)).find? (fun (i : ℕ) => decide ((L : Sc) • ((alpha : Sc) • (G : Pt) -
      (beta_tag : Sc) • G) - b • G = ((dk.n * ((i : ℤ) - L) : ℤ) : Sc) • G)) = some (u + L).toNat := by
    rw [List.find?_range_eq_some]
    have e : (((u + L).toNat : ℤ) - L) = u := by omega
    refine ⟨?_, by simp; omega, fun j hj => ?_⟩
    · simp only [e, decide_eq_true_eq]
      exact (key u).2 (by simp)
    · simp only [Bool.not_eq_true', decide_eq_false_iff_not, key]
      intro hdv
      have := huniq ((j : ℤ) - L) (by omega) (by omega) hdv
      omega
  rw [hf, Option.map_some]
  have e : (((u + L).toNat : ℤ) - L) = u := by omega
  rw [e, ← h]
  have : (-(L * (alpha - beta_tag) - b.val) : ℤ) % L = ((b.val % L : ℕ) : ℤ) := by
    rw [show (-(L * (alpha - beta_tag) - b.val) : ℤ) = b.val + L * (beta_tag - alpha) by ring,
      Int.add_mul_emod_self_left]
    rfl
  rw [this, Int.toNat_natCast]

/-- The response to an encryption of the inverse of `L` discloses the secret modulo `L`. -/
theorem residueOf_response {dk : DecKey} (hv : dk.Valid) {L : ℕ} (hL0 : 0 < L) (hL : 2 * L ≤ q)
    (hq : q ≤ dk.n) (hqn : ¬ q ∣ dk.n) {a ra : ℤ} (ha : a * L ≡ 1 [ZMOD dk.n]) {b : Sc} {m_a : MessageA}
    {r beta_tag : ℤ} (hra : Int.gcd ra dk.n = 1) (hr : Int.gcd r dk.n = 1) (hbt : 0 ≤ beta_tag)
    (hbt2 : beta_tag < dk.n) (hc : Paillier.IsEnc dk.n m_a.c a ra) {sts : List DLogStatement} {t_b t_beta : Sc}
    {out : MessageB × Sc} (hb : MessageB.b b dk.n m_a r beta_tag sts t_b t_beta = .ok out) :
    residueOf dk L out.1 = some (b.val % L) := by
  have hn : (0 : ℤ) < dk.n := by exact_mod_cast Nat.mul_pos hv.p_prime.pos hv.q_prime.pos
  have hd := Paillier.decrypt_spec hv (MessageB.isEnc_b hb hc) (gcd_pow_mul _ hra hr)
  obtain ⟨-, -, hout⟩ := MessageB.b_ok_iff.1 hb
  have e1 : out.1.b_proof.pk = b • G := by rw [hout]; exact DLogProof.prove_pk ..
  have e2 : out.1.beta_tag_proof.pk = (beta_tag : Sc) • G := by rw [hout]; exact DLogProof.prove_pk ..
  have hbn : (b.val : ℤ) < dk.n := by
    have : b.val < q := ZMod.val_lt b
    exact_mod_cast this.trans_le hq
  set x : ℤ := (b.val * a) % dk.n with hx
  have hx0 : 0 ≤ x := Int.emod_nonneg _ hn.ne'
  have hxn : x < dk.n := Int.emod_lt_of_pos _ hn
  have hxL : x * L ≡ b.val [ZMOD dk.n] := by
    have h1 : x ≡ b.val * a [ZMOD dk.n] := Int.mod_modEq _ _
    have h2 := (h1.mul_right L).trans (show (b.val * a * L : ℤ) ≡ b.val * 1 [ZMOD dk.n] by
      rw [mul_assoc]; exact ha.mul_left _)
    rwa [mul_one] at h2
  obtain ⟨t, ht⟩ := hxL.symm.dvd
  have hs : (b.val * a + beta_tag) % dk.n = (x + beta_tag) % dk.n := by rw [hx, Int.emod_add_emod]
  obtain ⟨w, hw, hw0, hw1⟩ : ∃ w : ℤ, (b.val * a + beta_tag) % dk.n = x + beta_tag - dk.n * w ∧ 0 ≤ w ∧ w ≤ 1 := by
    rw [hs]
    by_cases hlt : x + beta_tag < dk.n
    · exact ⟨0, by rw [Int.emod_eq_of_lt (by omega) hlt]; ring, by omega, by omega⟩
    · refine ⟨1, ?_, by omega, by omega⟩
      rw [← Int.sub_emod_right, Int.emod_eq_of_lt (by omega) (by omega)]; ring
  have ht0 : 0 ≤ t := by
    by_contra hneg
    have : dk.n * t ≤ dk.n * (-1) := mul_le_mul_of_nonneg_left (by omega) hn.le
    have : 0 ≤ x * L := mul_nonneg hx0 (Int.natCast_nonneg _)
    omega
  have htL : t < L := by
    by_contra hge
    have h1 : dk.n * (L : ℤ) ≤ dk.n * t := mul_le_mul_of_nonneg_left (by omega) hn.le
    have h2 : x * L < dk.n * L := mul_lt_mul_of_pos_right hxn (by exact_mod_cast hL0)
    have := Int.natCast_nonneg b.val
    omega
  rw [hw] at hd
  have hwL : 0 ≤ L * w ∧ L * w ≤ L := by
    have : w = 0 ∨ w = 1 := by omega
    rcases this with rfl | rfl <;> simp
  exact residueOf_eq hL hqn hd e1 e2 (u := t - L * w) (by omega) (by omega)
    (by linear_combination ht)

/-- The forged first message is answered. -/
theorem forged_answered {N : ℕ} (hN : 0 < N) {a : ℤ} {sts : List DLogStatement} (hst : ∀ st ∈ sts, 1 < st.N)
    (b : Sc) (r beta_tag : ℤ) (t_b t_beta : Sc) :
    ∃ out, MessageB.b b N (forgedMessageA N a sts.length) r beta_tag sts t_b t_beta = .ok out := by
  refine ⟨_, MessageB.b_ok_iff.2 ⟨by simp [forgedMessageA], ?_, rfl⟩⟩
  rintro ⟨pf, st⟩ hx
  have h1 := (List.of_mem_zip hx).1
  have h2 := (List.of_mem_zip hx).2
  rw [forgedMessageA, List.mem_replicate] at h1
  obtain ⟨-, rfl⟩ := h1
  exact Props.alice_constant_proof (hst _ h2) hN
    ((Paillier.isEnc_encrypt N a 1).coprime (by simp))

theorem recover_eq {dk : DecKey} {Ls : List ℕ} {co : Ls.Pairwise (Function.onFun Nat.Coprime id)} {m : ℕ → MessageB}
    {b : Sc} (hpos : ∀ L ∈ Ls, 0 < L) (hprod : q ≤ Ls.prod)
    (hm : ∀ L ∈ Ls, residueOf dk L (m L) = some (b.val % L)) : recover dk Ls co m = b.val := by
  unfold recover
  have h1 := Nat.chineseRemainderOfList_lt_prod (fun L => (residueOf dk L (m L)).getD 0) id Ls co
    (fun L hL => (hpos L hL).ne')
  have h2 := Nat.chineseRemainderOfList_modEq_unique (fun L => (residueOf dk L (m L)).getD 0) id Ls co (z := b.val)
    (fun L hL => by rw [hm L hL, Option.getD_some]; exact (Nat.mod_modEq _ _).symm)
  rw [List.map_id] at h1 h2
  exact (h2.eq_of_lt_of_lt ((ZMod.val_lt b).trans_le hprod) h1).symm

end Verif.Spec
