import Verif.Spec.MessageSecrecy
import Verif.Props.TwoParty
import Verif.Lemmas.SignSecrecy
import Verif.Lemmas.ZeroKnowledge
import Mathlib.NumberTheory.Multiplicity

/-!
# C74, C89: what a partial signature and an MtA response disclose

Distributions over the sender's samples.
-/

namespace Verif.Props

open EC Crypto Spec

/-- Only the residue of the randomness modulo the key matters. -/
theorem encrypt_rem (n : ℕ) (m : ℤ) {r r' : ℤ} (h : r ≡ r' [ZMOD n]) :
    Paillier.encrypt n m r = Paillier.encrypt n m r' := by
  have h1 : (n : ℤ) ∣ r - r' := h.symm.dvd
  have h2 : (n * n : ℤ) ∣ r ^ n - r' ^ n := by
    rw [← Commute.geom_sum₂_mul (Commute.all r r') n]
    exact mul_dvd_mul (dvd_geom_sum₂_self h1) h1
  have h3 : r ^ n % (n * n : ℤ) = r' ^ n % (n * n : ℤ) := (Int.modEq_iff_dvd.2 h2).symm
  unfold Paillier.encrypt
  dsimp only
  rw [h3]

section
variable [Crypto]

open Lindell17

theorem mem_scalars (x : Sc) : x ∈ scalars := by
  unfold scalars
  exact @Finset.mem_univ _ _ x

/-- **C74** (honestly encrypted share): let `s` be the signature value for the nonce point `R = k1 k2 G`.  Over party
two's samples its partial signature is within `1 / q` of a ciphertext computed from party one's nonce `k1` and `s`. -/
theorem C74_within_partial {n : ℕ} (hn : 0 < n) (x1 x2 k1 k2 s : Sc) (hk2 : k2 ≠ 0) {m rk : ℤ}
    (hrk : Int.gcd rk n = 1) {x : ℕ} (hx : xc (k2 • k1 • (G : Pt)) = some x)
    (hs : s • k2 • k1 • (G : Pt) = (m : Sc) • (G : Pt) + (x : Sc) • (x1 * x2) • (G : Pt)) :
    Within 1 q (partialSamples n)
      (fun ω => PartialSig.compute n (Paillier.encrypt n x1.val rk) ⟨x2⟩ ⟨k2 • G, k2⟩ (k1 • G) m ω.1 ω.2)
      (fun ω => .ok (partialSim n k1 s ω)) := by
  obtain ⟨d, hd, v, hv⟩ := C74_simulated_partial hn x1 x2 k2 hk2 (k1 • (G : Pt)) m rk hx
  have hq : (0 : ℤ) < q := by exact_mod_cast q_pos
  have hN : (0 : ℤ) < n := by exact_mod_cast hn
  have hval : k2⁻¹ * ((m : Sc) + (x : Sc) * (x1 * x2)) = k1 * s := by
    rw [← mul_smul, ← mul_smul, ← mul_smul, ← add_smul, smul_G_inj] at hs
    rw [← hs]
    field_simp
  rw [hval] at hv
  obtain ⟨ur, hur⟩ := unit_of_gcd hrk
  have hre : ((rk ^ v % n : ℤ) : ZMod n) = (ur ^ v : (ZMod n)ˣ) := by
    rw [ZMod.intCast_mod]; push_cast; rw [hur]
  have hre0 : 0 ≤ rk ^ v % n := Int.emod_nonneg _ hN.ne'
  refine within_of_map (fun ω => (d + ω.1, rem ((rk ^ v % n) * ω.2) n)) ?_ ?_ ?_
  · rintro ⟨α, β⟩ h ⟨α', β'⟩ h' heq
    simp only [partialSamples, Finset.mem_product, mem_below] at h h'
    simp only [Prod.mk.injEq] at heq ⊢
    exact ⟨by omega, mul_rem_inj hre h.2 h'.2 heq.2⟩
  · rintro ⟨α, β⟩ h
    simp only [partialSamples, Finset.mem_product, mem_below] at h
    dsimp only
    rw [hv α β h.1.1, add_comm α, partialSim]
    dsimp only
    rw [encrypt_rem n _ (r := rk ^ v * β) (r' := rem (rk ^ v % n * β) n)]
    rw [rem, Int.tmod_eq_emod_of_nonneg (mul_nonneg hre0 h.2.1)]
    exact ((Int.mod_modEq _ _).trans ((Int.mod_modEq _ _).mul_right _)).symm
  · have r1 : Rare 1 q (below ((q : ℤ) ^ 2)) (fun α => (q : ℤ) ^ 2 ≤ α + q) :=
      rare_top (by positivity) (by positivity) (by push_cast; apply le_of_eq; ring)
    refine Rare.mono r1.fst ?_
    rintro ⟨α, β⟩ h hout
    simp only [partialSamples, Finset.mem_product] at h hout ⊢
    by_contra hc
    refine hout ⟨?_, mem_below.2 (rem_range hn (mul_nonneg hre0 (mem_below.1 h.2).1))⟩
    by_contra hn'
    exact hc (not_mem_below h.1 (by positivity) (by exact_mod_cast hd.le) hn')

/-- **C89** (the whole answer, for a plaintext `a` of Alice that is small against her modulus): for given challenges of
the two proofs the answer is computable from `a` and the point of Bob's secret, up to an advantage of about `a q / N`.
The range proofs are meant to keep `a` small; as they do not (C30), the answer can disclose more, see
`C89_residue_leaks`. -/
theorem C89_within_partial {n : ℕ} (hn : 0 < n) {a ra : ℤ} (ha : 0 ≤ a) (hra : Int.gcd ra n = 1)
    {m_a : MessageA} (hc : Paillier.IsEnc n m_a.c a ra) {sts : List DLogStatement}
    (hacc : m_a.range_proofs.length = sts.length ∧
      ∀ y ∈ m_a.range_proofs.zip sts, y.1.verify m_a.c n y.2 = some true)
    {num den : ℕ} (hsmall : den * (a * q) ≤ num * n) (b e1 e2 : Sc) :
    Within num den (mtaSamples n) (mtaAnswer b n m_a sts e1 e2) (fun ω => .ok (mtaSim n a (b • G) e1 e2 ω)) := by
  have hN : (0 : ℤ) < n := by exact_mod_cast hn
  have hb0 : (0 : ℤ) ≤ b.val := Int.natCast_nonneg _
  have hb1 : (b.val : ℤ) ≤ q := by exact_mod_cast (ZMod.val_lt b).le
  have hbv : ((b.val : ℕ) : Sc) = b := by simp
  obtain ⟨ur, hur⟩ := unit_of_gcd hra
  have hre : ((ra ^ b.val % n : ℤ) : ZMod n) = (ur ^ b.val : (ZMod n)ˣ) := by
    rw [ZMod.intCast_mod]; push_cast; rw [hur]
  have hre0 : 0 ≤ ra ^ b.val % n := Int.emod_nonneg _ hN.ne'
  refine within_of_map (fun ω => (b.val * a + ω.1, rem ((ra ^ b.val % n) * ω.2.1) n, ω.2.2.1 - e1 * b,
    ω.2.2.2 - e2 * (ω.1 : Sc))) ?_ ?_ ?_
  · rintro ⟨β, r, t1, t2⟩ h ⟨β', r', t1', t2'⟩ h' heq
    simp only [mtaSamples, Finset.mem_product, mem_below] at h h'
    simp only [Prod.mk.injEq] at heq ⊢
    obtain ⟨g1, g2, g3, g4⟩ := heq
    have g1' : β = β' := by omega
    subst g1'
    exact ⟨rfl, mul_rem_inj hre h.2.1 h'.2.1 g2, sub_left_inj.1 g3, sub_left_inj.1 g4⟩
  · rintro ⟨β, r, t1, t2⟩ h
    simp only [mtaSamples, Finset.mem_product, mem_below] at h
    dsimp only [mtaAnswer]
    rw [GG20.Sign.MessageB.b_ok_reply.2 ⟨hacc, rfl⟩, Res.bind_ok]
    have hE : Paillier.IsEnc n (GG20.Sign.reply n m_a.c b r β t1 t2).c (b.val * a + β) (ra ^ b.val * r) :=
      (hc.mul b.val).add (Paillier.isEnc_encrypt n β r)
    have hnn : (0 : ℤ) < (n : ℤ) * n := mul_pos hN hN
    have hbr := Paillier.encrypt_range (r := r) hn h.1.1
    have hpos : 0 ≤ b.val * a + β := add_nonneg (mul_nonneg hb0 ha) h.1.1
    have hcb : 0 ≤ (GG20.Sign.reply n m_a.c b r β t1 t2).c ∧ (GG20.Sign.reply n m_a.c b r β t1 t2).c < n * n := by
      have e1 : 0 ≤ Paillier.mul n m_a.c b.val := Int.emod_nonneg _ hnn.ne'
      show 0 ≤ Int.tmod _ ((n : ℤ) * n) ∧ Int.tmod _ ((n : ℤ) * n) < (n : ℤ) * n
      rw [Int.tmod_eq_emod_of_nonneg (mul_nonneg e1 hbr.1)]
      exact ⟨Int.emod_nonneg _ hnn.ne', Int.emod_lt_of_pos _ hnn⟩
    have hcc : (GG20.Sign.reply n m_a.c b r β t1 t2).c =
        Paillier.encrypt n (b.val * a + β) (rem (ra ^ b.val % n * r) n) := by
      have hr := Paillier.encrypt_range (r := ra ^ b.val * r) hn hpos
      rw [hE.unique (Paillier.isEnc_encrypt _ _ _) hcb.1 hcb.2 hr.1 hr.2]
      refine encrypt_rem n _ ?_
      rw [rem, Int.tmod_eq_emod_of_nonneg (mul_nonneg hre0 h.2.1.1)]
      exact ((Int.mod_modEq _ _).trans ((Int.mod_modEq _ _).mul_right _)).symm
    have hP : ((b.val * a + β : ℤ) : Sc) • (G : Pt) - (a : Sc) • b • (G : Pt) = (β : Sc) • G := by
      rw [← mul_smul, ← sub_smul]
      congr 1
      push_cast
      rw [hbv]
      ring
    dsimp only [mtaSim]
    rw [hP, ← hcc]
    simp only [dlogAnswer, dlogSim, ← mul_smul, ← add_smul, sub_add_cancel]
  · have r1 : Rare num den (below (n : ℤ)) (fun β => (n : ℤ) ≤ β + a * q) :=
      rare_top (by positivity) (by positivity) hsmall
    refine Rare.mono r1.fst ?_
    rintro ⟨β, r, t1, t2⟩ h hout
    simp only [mtaSamples, Finset.mem_product] at h hout ⊢
    by_contra hc
    refine hout ⟨?_, mem_below.2 (rem_range hn (mul_nonneg hre0 (mem_below.1 h.2.1).1)), mem_scalars _, mem_scalars _⟩
    by_contra hn'
    refine hc (not_mem_below h.1 (mul_nonneg hb0 ha) ?_ hn')
    rw [mul_comm]
    exact mul_le_mul_of_nonneg_left hb1 ha

/-- The answer that is sent is the one for the challenges of its own proofs. -/
theorem C89_answer {b : Sc} {n : ℕ} {m_a : MessageA} {sts : List DLogStatement} {r beta_tag : ℤ} {t_b t_beta : Sc}
    {m : MessageB} {beta : Sc} (h : MessageB.b b n m_a r beta_tag sts t_b t_beta = .ok (m, beta)) :
    mtaAnswer b n m_a sts (DLogProof.challenge (t_b • G) (b • G))
      (DLogProof.challenge (t_beta • G) ((beta_tag : Sc) • G)) (beta_tag, r, t_b, t_beta) = .ok m := by
  unfold mtaAnswer
  dsimp only
  rw [h, Res.bind_ok]
  have := (GG20.Sign.MessageB.b_ok_reply.1 h).2
  rw [(Prod.mk.inj this).1]
  rfl

end

/-! ### Examples -/

section
attribute [local instance] Toy.crypto
open Lindell17

/-- C74: key shares 9 and 5, nonces 3 and 5, message 10. -/
example : Within 1 q (partialSamples 2021)
    (fun ω => PartialSig.compute 2021 (Paillier.encrypt 2021 (9 : ZMod 31).val 5) ⟨(5 : ZMod 31)⟩
      ⟨(5 : ZMod 31) • (G : ZMod 31), (5 : ZMod 31)⟩ ((3 : ZMod 31) • (G : ZMod 31)) 10 ω.1 ω.2)
    (fun ω => .ok (partialSim 2021 (3 : ZMod 31) (1 : ZMod 31) ω)) :=
  C74_within_partial (by decide) (9 : ZMod 31) (5 : ZMod 31) (3 : ZMod 31) (5 : ZMod 31) (1 : ZMod 31) (by decide)
    (by decide) (x := 38) (by decide +kernel) (by decide +kernel)

/-- C89: Alice sends an encryption of 7 without range proofs, as in GG18. -/
example (b e1 e2 : ZMod 31) (c : ℤ) (hc : Paillier.IsEnc 2021 c 7 5) : Within 1 9 (mtaSamples 2021)
    (mtaAnswer b 2021 ⟨c, []⟩ [] e1 e2)
    (fun ω => .ok (mtaSim 2021 7 (b • (G : ZMod 31)) e1 e2 ω)) :=
  C89_within_partial (ra := 5) (by decide) (by decide) (by decide) hc
    ⟨rfl, by simp⟩ (by decide) b e1 e2

end
end Verif.Props
