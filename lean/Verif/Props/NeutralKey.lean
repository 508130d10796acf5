import Verif.Props.TwoParty
import Verif.Props.Keygen
import Verif.Props.GG18

/-!
# C124: a completed key generation gives a public key other than the neutral point
-/

namespace Verif.Props

open EC Crypto Spec

section
variable [Crypto]

/-! ### What a neutral public key means -/

/-- **C124** (why it matters). Under the neutral public key everybody computes signatures for every message
that is not zero modulo `q`: for every `k ≠ 0` the pair of the x-coordinate of `k G` and the lower half of
`m / k` is accepted by GG18 and GG20, and by Lindell17 and CCLST19 if the x-coordinate is below `q`. -/
theorem C124_forgery {m : ℤ} (hm : (m : Sc) ≠ 0) {k : Sc} (hk : k ≠ 0) {x y : ℕ}
    (hc : coords (k • G) = some (x, y)) (recid : ℕ) :
    ∃ s : Sc, (s = m / k ∨ s = -(m / k)) ∧
      GG20.verify ⟨(x : Sc), s, recid⟩ 0 m = .ok () ∧ GG18.verify ⟨(x : Sc), s, recid⟩ 0 m = .ok () ∧
      (x < q → Lindell17.verify ⟨s.val, x⟩ 0 m = .ok () ∧ CCLST19.verify ⟨s.val, x⟩ 0 m = .ok ()) := by
  have hs : (m : Sc) / k ≠ 0 := div_ne_zero hm hk
  have he : EcdsaEq 0 m (x : Sc) ((m : Sc) / k) := by
    refine ⟨hs, x, y, ?_, rfl⟩
    rw [smul_zero, add_zero, div_div_cancel₀ hm, hc]
  have hn := ecdsaEq_normS.2 he
  refine ⟨normS ((m : Sc) / k), normS_cases _, (C01_gg20_verify _ _ _).1.2 hn, (C02_gg18_verify _ _ _).1 hn,
    fun hx => ?_⟩
  have hv : ((x : Sc).val : ℤ) = x := by rw [ZMod.val_natCast, Nat.mod_eq_of_lt hx]
  have hb : ∀ x' y', coords (((m : Sc) / normS ((m : Sc) / k)) • G +
      ((x : Sc) / normS ((m : Sc) / k)) • (0 : Pt)) = some (x', y') → x' < q := by
    intro x' y' h
    rw [smul_zero, add_zero] at h
    rcases normS_cases ((m : Sc) / k) with e | e
    · rw [e, div_div_cancel₀ hm, hc] at h
      cases h
      exact hx
    · rw [e, div_neg, div_div_cancel₀ hm, neg_smul, coords_neg _ _ _ hc] at h
      cases h
      exact hx
  rw [← hv]
  exact ⟨C05_l17_complete_partial _ _ _ _ hn (normS_low _) hb, C06_cclst_complete_partial _ _ _ _ hn (normS_low _) hb⟩

/-! ### GG20 and GG18: honest parties -/

/-- **C124** (GG20, honest parties). The public key is neutral exactly if the parties' summands add up to
zero; key generation then ends like any other. -/
theorem C124_gg20_partial {t n : ℕ} (ht : t < n) (hn : n < q) (rnd : ℕ → GG20.KeygenRandomness)
    (hon : ∀ k < n, GG20.Keygen.HonestRandomness t (rnd k)) :
    ∃ keys, GG20.Keygen.run t n rnd = .ok keys ∧ keys.length = n ∧
      ∀ key ∈ keys, key.public_key = 0 ↔ ∑ k ∈ Finset.range n, (rnd k).u = 0 := by
  obtain ⟨keys, d, x, _, _, h1, h2, rfl, -, h3⟩ := C10_honest_keygen ht hn rnd hon
  refine ⟨keys, h1, h2, fun key hk => ?_⟩
  obtain ⟨i, hi⟩ := List.mem_iff_getElem?.1 hk
  rw [(h3 i key hi).1, smul_G_eq_zero]

/-- **C124** (GG18, honest parties). -/
theorem C124_gg18_partial (A : Aead) {t n : ℕ} (ht : t < n) (hn : n < q) (rnd : ℕ → Demo.Keygen.Rand)
    (hon : ∀ i, 1 ≤ i → i ≤ n → Spec.GG18.HonestKeygenRand t (rnd i)) :
    ∃ files, Demo.Keygen.run A t n rnd = .ok files ∧ files.length = n ∧
      ∀ file ∈ files, file.shared_keys.y = 0 ↔ ∑ k ∈ Finset.range n, (rnd (k + 1)).u = 0 := by
  obtain ⟨files, d, x, h1, h2, rfl, -, h3⟩ := C16_honest_keygen A ht hn rnd hon
  refine ⟨files, h1, h2, fun file hf => ?_⟩
  obtain ⟨i, hi⟩ := List.mem_iff_getElem?.1 hf
  rw [(h3 i file hi).1, smul_G_eq_zero]

/-- **C124** (how often). Whatever the summands of the other parties are, exactly one of the `q` values of
party `i`'s summand makes them add up to zero. -/
theorem C124_one_in_q {n : ℕ} (i : Fin n) (u : Fin n → Sc) :
    (Finset.univ.filter fun a : Sc => ∑ k, Function.update u i a k = 0).card = 1 := by
  rw [Finset.card_eq_one]
  refine ⟨-∑ k ∈ Finset.univ \ {i}, u k, Finset.ext fun a => ?_⟩
  rw [Finset.mem_filter, Finset.mem_singleton, Finset.sum_update_of_mem (Finset.mem_univ i)]
  simp only [Finset.mem_univ, true_and]
  exact add_eq_zero_iff_eq_neg

/-! ### The two-party protocols -/

open Lindell17

/-- **C124 is violated by Lindell17 (party two).** A party two that announces the neutral point, with a
proof that it makes from the secret 0, passes party one's check, and party one computes the neutral public
key, whatever its share is. -/
theorem C124_party_two (x1 t1 t : Sc) (b1 b2 : ℤ) (k : PaillierKeyPair) :
    let o1 := create_commitments x1 t1 b1 b2
    let lie := party2_create 0 t
    verify_and_decommit o1.2.1 lie.1.d_log_proof = .ok ⟨o1.2.1⟩ ∧
    lie.1.public_share = 0 ∧ lie.1.d_log_proof.pk = 0 ∧
    compute_pubkey (Party1Private.set_private_key o1.2.2 k) lie.1.public_share = 0 :=
  ⟨if_pos (DLogProof.verify_prove 0 t), zero_smul _ _, zero_smul _ _, by
    show _ • ((0 : Sc) • (G : Pt)) = 0
    rw [zero_smul, smul_zero]⟩

/-- **C124 is violated by Lindell17 (party one).** A party one with the share 0 passes all of party two's
checks: the commitments, the proof of knowledge, the proof about the Paillier key and the one about the
encrypted share.  Party two computes the neutral public key. -/
theorem C124_party_one (x2 t1 t2 : Sc) (b1 b2 : ℤ) {r : ℤ} {dk : DecKey} (hv : dk.Valid)
    (hl : dk.Large) (hbits : 2047 ≤ bitLength dk.n) (hr : Int.gcd r dk.n = 1) {a : PdlSetup} (ha : GoodSetup a) :
    let lie := create_commitments 0 t1 b1 b2
    let k := PaillierKeyPair.generate dk lie.2.2 r
    verify_commitments_and_dlog_proof lie.1 ⟨lie.2.1⟩ = .ok () ∧
    PaillierPublic.verify_ni_proof_correct_key k.generate_ni_proof_correct_key k.ek = .ok () ∧
    (∃ st pf cd, PaillierKeyPair.pdl_proof (Party1Private.set_private_key lie.2.2 k) k a = some (st, pf, cd) ∧
      PaillierPublic.pdl_verify cd st pf ⟨k.ek, k.encrypted_share⟩ lie.2.1.public_share = .ok ()) ∧
    party2_compute_pubkey (party2_create x2 t2).2 lie.2.1.public_share = 0 := by
  have h1 := C53_keygen 0 x2 t1 t2 b1 b2 r dk
  have h2 := C53_share_proofs 0 t1 b1 b2 hv hl hbits hr ha
  refine ⟨h1.2.1, h2.1, h2.2, ?_⟩
  rw [h1.2.2.2, zero_mul, zero_smul]

/-- **C124** (Lindell17, honest parties). The public key is neutral exactly if one of the shares is zero. -/
theorem C124_lindell_partial (x1 x2 t1 t2 : Sc) (b1 b2 : ℤ) (k : PaillierKeyPair) :
    let o1 := create_commitments x1 t1 b1 b2
    let o2 := party2_create x2 t2
    (compute_pubkey (Party1Private.set_private_key o1.2.2 k) o2.1.public_share = 0 ↔ x1 = 0 ∨ x2 = 0) ∧
    (party2_compute_pubkey o2.2 o1.2.1.public_share = 0 ↔ x1 = 0 ∨ x2 = 0) := by
  have h : ∀ a b : Sc, a • b • (G : Pt) = 0 ↔ b = 0 ∨ a = 0 := fun a b => by
    rw [← mul_smul, smul_G_eq_zero, mul_eq_zero, or_comm]
  exact ⟨(h x1 x2).trans or_comm, h x2 x1⟩

variable [CL]

/-- **C124 is violated by CCLST19** in the same two ways. -/
theorem C124_cclst (x1 x2 t1 t2 t : Sc) (b1 b2 seed : ℤ) (rk re : ℕ) (h1 : CCLST19.HSMCL) :
    (let o1 := CCLST19.create_commitments x1 t1 b1 b2
     let lie := CCLST19.party2_create 0 t
     CCLST19.verify_and_decommit o1.2.1 lie.1.d_log_proof = .ok ⟨o1.2.1⟩ ∧
     CCLST19.compute_pubkey (CCLST19.Party1Private.set_private_key o1.2.2 h1) lie.1.public_share = 0) ∧
    (let lie := CCLST19.create_commitments 0 t1 b1 b2
     let h := CCLST19.HSMCL.generate lie.2.2 seed rk re
     CCLST19.verify_commitments_and_dlog_proof lie.1 ⟨lie.2.1⟩ = .ok () ∧
     CCLST19.Party2Public.verify_setup_and_zkcldl_proof h.2 seed lie.2.1.public_share =
       .ok ⟨h.1.cl_group, h.1.public_, h.1.encrypted_share⟩ ∧
     CCLST19.party2_compute_pubkey (CCLST19.party2_create x2 t2).2 lie.2.1.public_share = 0) := by
  constructor
  · refine ⟨if_pos (DLogProof.verify_prove 0 t), ?_⟩
    show _ • ((0 : Sc) • (G : Pt)) = 0
    rw [zero_smul, smul_zero]
  · have h := C57_keygen 0 x2 t1 t2 b1 b2 seed rk re
    refine ⟨h.2.2.1, h.2.2.2.1, ?_⟩
    rw [h.2.2.2.2.2]
    have : (CCLST19.create_commitments (0 : Sc) t1 b1 b2).2.2.secret_share = 0 := by
      show (((((0 : Sc).val : ℤ) / 3 : ℤ)) : Sc) = 0
      simp
    rw [this, zero_mul, zero_smul]

end

/-! ### Examples -/

section Examples
attribute [local instance] Toy.crypto

/-- A signature for message 10 under the neutral key, made from `k = 25`. -/
example : ∃ s : ZMod 31, GG20.verify ⟨((29 : ℕ) : ZMod 31), s, 0⟩ (0 : ZMod 31) 10 = .ok () ∧
    Lindell17.verify ⟨s.val, (29 : ℕ)⟩ (0 : ZMod 31) 10 = .ok () := by
  obtain ⟨s, -, h1, -, h2⟩ := C124_forgery (m := 10) (k := (25 : ZMod 31)) (by decide) (by decide)
    (x := 29) (y := 12) (by decide +kernel) 0
  exact ⟨s, h1, (h2 (by decide)).1⟩

/-- Two honest parties whose summands 2 and 29 add up to zero: both get the neutral key. -/
example : ∃ (rnd : ℕ → GG20.KeygenRandomness) (keys : List GG20.LocalKey), GG20.Keygen.run 1 2 rnd = .ok keys ∧
    keys.length = 2 ∧ ∀ key ∈ keys, key.public_key = 0 := by
  have hex := fun k : ℕ => honestRandomness_exists 1 (if k = 0 then (2 : ZMod 31) else 29) [(7 : ZMod 31)] rfl
  choose rnd hon hu _ using hex
  obtain ⟨keys, h1, h2, h3⟩ := C124_gg20_partial (t := 1) (n := 2) (by decide) (by decide) rnd fun k _ => hon k
  refine ⟨rnd, keys, h1, h2, fun key hk => (h3 key hk).2 ?_⟩
  rw [Finset.sum_congr rfl fun k _ => hu k]
  decide

attribute [local irreducible] bigP bigQ in
example (x2 t1 t2 : ZMod 31) := C124_party_one x2 t1 t2 3 5 (r := 1) (dk := ⟨bigP, bigQ⟩)
  ⟨bigP_prime, bigQ_prime, bigP_ne_bigQ, big_coprime⟩ big_large
  (by
    show 2047 ≤ (Int.natAbs ((bigP * bigQ : ℕ) : ℤ)).size
    rw [Int.natAbs_natCast, big_size]; norm_num)
  (by simp) toySetup_good

end Examples
end Verif.Props
