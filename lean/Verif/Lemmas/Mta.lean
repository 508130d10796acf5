import Verif.Model.Mta
import Verif.Lemmas.RangeProofs

/-! Lemmas on the MtA exchange. -/

namespace Verif

open EC Crypto

variable [Crypto]

theorem allVerify_of_forall {c : ℤ} {N : ℕ} : ∀ {l : List (AliceProof × DLogStatement)},
    (∀ x ∈ l, x.1.verify c N x.2 = some true) → allVerify c N l = some true
  | [], _ => rfl
  | (pf, st) :: l, h => by
    unfold allVerify
    rw [h (pf, st) (by simp)]
    exact allVerify_of_forall fun x hx => h x (by simp [hx])

theorem allVerify_true {c : ℤ} {N : ℕ} : ∀ {l : List (AliceProof × DLogStatement)},
    allVerify c N l = some true → ∀ x ∈ l, x.1.verify c N x.2 = some true
  | [], _, x, hx => by simp at hx
  | (pf, st) :: l, h, x, hx => by
    unfold allVerify at h
    rcases hv : pf.verify c N st with _ | v
    · rw [hv] at h; cases h
    · rw [hv] at h
      cases v with
      | false => cases h
      | true =>
        rcases List.mem_cons.1 hx with rfl | hx
        · exact hv
        · exact allVerify_true h x hx

/-- An honest list of range proofs. -/
theorem aliceProofs_spec {a c r : ℤ} {N : ℕ} {rs : ℕ → AliceRand} (hN : 0 < N) (ha : 0 ≤ a)
    (hr : Int.gcd r N = 1) (hc : Paillier.IsEnc N c a r) :
    ∀ {sts : List DLogStatement} (k : ℕ), (∀ st ∈ sts, st.Usable) → (∀ i, 0 ≤ (rs i).alpha) →
      ∃ pfs, aliceProofs a c N r rs k sts = some pfs ∧ pfs.length = sts.length ∧
        ∀ x ∈ pfs.zip sts, x.1.verify c N x.2 = some (decide (x.1.s1 ≤ q3)) := by
  intro sts
  induction sts with
  | nil => intro k _ _; exact ⟨[], rfl, rfl, by simp⟩
  | cons st sts ih =>
    intro k hst hal
    obtain ⟨pf, hgen, -, hv⟩ := alice_complete (rnd := rs k) (hst st (by simp)) hN ha (hal k) hr hc
    obtain ⟨pfs, h1, h2, h3⟩ := ih (k + 1) (fun st h => hst st (by simp [h])) hal
    refine ⟨pf :: pfs, ?_, by simp [h2], ?_⟩
    · unfold aliceProofs; rw [hgen, h1]; rfl
    · intro x hx
      rw [List.zip_cons_cons, List.mem_cons] at hx
      rcases hx with rfl | hx
      · exact hv
      · exact h3 x hx

/-- What Bob sends when he answers. -/
theorem MessageB.b_ok_iff {b : Sc} {N : ℕ} {m_a : MessageA} {r beta_tag : ℤ}
    {sts : List DLogStatement} {t_b t_beta : Sc} {out : MessageB × Sc} :
    MessageB.b b N m_a r beta_tag sts t_b t_beta = .ok out ↔
      m_a.range_proofs.length = sts.length ∧
      (∀ x ∈ m_a.range_proofs.zip sts, x.1.verify m_a.c N x.2 = some true) ∧
      out = (⟨Paillier.add N (Paillier.mul N m_a.c b.val) (Paillier.encrypt N beta_tag r),
        DLogProof.prove b t_b, DLogProof.prove (beta_tag : Sc) t_beta⟩, 0 - (beta_tag : Sc)) := by
  unfold MessageB.b
  constructor
  · intro h
    split at h
    · cases h
    · rename_i hl
      split at h
      · cases h
      · cases h
      · rename_i hv
        cases h
        exact ⟨by omega, allVerify_true hv, rfl⟩
  · rintro ⟨h1, h2, rfl⟩
    rw [if_neg (by omega), allVerify_of_forall h2]

theorem MessageB.isEnc_b {b : Sc} {N : ℕ} {m_a : MessageA} {r beta_tag a ra : ℤ}
    {sts : List DLogStatement} {t_b t_beta : Sc} {out : MessageB × Sc}
    (h : MessageB.b b N m_a r beta_tag sts t_b t_beta = .ok out)
    (hc : Paillier.IsEnc N m_a.c a ra) :
    Paillier.IsEnc N out.1.c (b.val * a + beta_tag) (ra ^ b.val * r) := by
  obtain ⟨-, -, rfl⟩ := MessageB.b_ok_iff.1 h
  exact (hc.mul _).add (Paillier.isEnc_encrypt N beta_tag r)

theorem MessageB.verify_ok_iff {m : MessageB} {dk : DecKey} {a alpha : Sc} {share : ℤ} :
    m.verify_proofs_get_alpha dk a = .ok (alpha, share) ↔
      Paillier.decrypt dk m.c = some share ∧ alpha = (share : Sc) ∧ m.b_proof.verify = true ∧
        m.beta_tag_proof.verify = true ∧
        a • m.b_proof.pk + m.beta_tag_proof.pk = alpha • (G : Pt) := by
  unfold MessageB.verify_proofs_get_alpha
  rcases hd : Paillier.decrypt dk m.c with _ | x
  · simp
  · simp only [Option.some.injEq]
    by_cases hc : (m.b_proof.verify && m.beta_tag_proof.verify &&
        decide (a • m.b_proof.pk + m.beta_tag_proof.pk = ((x : ℤ) : Sc) • (G : Pt))) = true
    · rw [if_pos hc]
      simp only [Bool.and_eq_true, decide_eq_true_eq] at hc
      simp only [Res.ok.injEq, Prod.mk.injEq]
      constructor
      · rintro ⟨rfl, rfl⟩; exact ⟨rfl, rfl, hc.1.1, hc.1.2, hc.2⟩
      · rintro ⟨rfl, rfl, -⟩; exact ⟨rfl, rfl⟩
    · rw [if_neg hc]
      simp only [Bool.and_eq_true, decide_eq_true_eq] at hc
      constructor
      · intro h; cases h
      · rintro ⟨rfl, rfl, h1, h2, h3⟩; exact absurd ⟨⟨h1, h2⟩, h3⟩ hc

omit [Crypto] in
theorem gcd_pow_mul {r r' : ℤ} {n : ℤ} (k : ℕ) (h : Int.gcd r n = 1) (h' : Int.gcd r' n = 1) :
    Int.gcd (r ^ k * r') n = 1 := by
  rw [← Int.isCoprime_iff_gcd_eq_one] at *
  exact (h.pow_left).mul_left h'

/-- Alice's answer to an honest response: accepted exactly when reducing the plaintext modulo `N`
does not change it modulo `q`. -/
theorem mta_verify_honest {dk : DecKey} (hv : dk.Valid) {a b : Sc} {m_a : MessageA} {r ra beta_tag : ℤ}
    {sts : List DLogStatement} {t_b t_beta : Sc} {out : MessageB × Sc}
    (hra : Int.gcd ra dk.n = 1) (hr : Int.gcd r dk.n = 1)
    (hb : MessageB.b b dk.n m_a r beta_tag sts t_b t_beta = .ok out)
    (hc : Paillier.IsEnc dk.n m_a.c a.val ra) :
    let share : ℤ := (a.val * b.val + beta_tag) % dk.n
    out.1.verify_proofs_get_alpha dk a =
      if (share : Sc) = a * b + beta_tag then .ok (share, share) else .err .InvalidKey := by
  intro share
  have hd : Paillier.decrypt dk out.1.c = some share := by
    rw [Paillier.decrypt_spec hv (MessageB.isEnc_b hb hc) (gcd_pow_mul _ hra hr), mul_comm]
  obtain ⟨-, -, hout⟩ := MessageB.b_ok_iff.1 hb
  have e1 : out.1.b_proof = DLogProof.prove b t_b := by rw [hout]
  have e2 : out.1.beta_tag_proof = DLogProof.prove (beta_tag : Sc) t_beta := by rw [hout]
  unfold MessageB.verify_proofs_get_alpha
  rw [hd, e1, e2]
  simp only [DLogProof.verify_prove, DLogProof.prove_pk, Bool.true_and]
  have : (a • b • (G : Pt) + (beta_tag : Sc) • G = (share : Sc) • G) ↔
      (share : Sc) = a * b + beta_tag := by
    rw [← mul_smul, ← add_smul]
    constructor
    · intro h; exact (smul_G_inj.1 h).symm
    · intro h; rw [h]
  simp only [this, decide_eq_true_eq]

end Verif
