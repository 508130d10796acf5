import Verif.Lemmas.BadParams
import Verif.Lemmas.SignPanic
import Verif.Props.Keygen
import Verif.Props.Hashing
import Verif.Props.SignPanic
import Verif.Props.MtaLeak

/-!
# C90 and C91: what the checks of key generation say about Paillier keys and auxiliary parameters
-/

namespace Verif.Props

open EC Crypto Spec GG20 GG20.Sign

/-! ### C90: Paillier keys -/

section
attribute [local instance] Secp256k1.crypto

/-- **C90** (what acceptance means).  An accepted first message has a Paillier modulus of 2047 or 2048 bits without
prime factors up to 6370, and eleven numbers derived from the modulus have roots of that order. -/
theorem C90_accepted_partial {bc : KeyGenBroadcastMessage1} {decom : KeyGenDecommitMessage1}
    (h : ValidBroadcast bc decom) :
    (bitLength bc.e = 2047 ∨ bitLength bc.e = 2048) ∧ (∀ p, p.Prime → p ∣ bc.e → 6370 < p) ∧
      ∀ i < 11, ∃ s : ℤ, s ^ bc.e ≡ ZkPaillier.rho (Digest.ints Sha256.hash) bc.e i [ZMOD bc.e] := by
  obtain ⟨h1, h2⟩ := ZkPaillier.NiCorrectKeyProof.accepted h.correct_key
  refine ⟨h.paillier_size, fun p hp hd => ?_, fun i hi => ⟨_, h2 i hi⟩⟩
  by_contra hle
  exact h1 p hp (by omega) hd

/-- **C90 fails** (general form): whatever the number of factors, a product of distinct primes above 6370 that is
prime to the product of their predecessors has a proof that verifies. -/
theorem C90_many_factors {ps : List ℕ} (hp : ∀ p ∈ ps, p.Prime) (hl : ∀ p ∈ ps, 6370 < p) (hnd : ps.Nodup)
    (hco : Nat.Coprime ps.prod (ps.map (· - 1)).prod) :
    ∃ pf : CKProof, ckVerify pf ps.prod = some true :=
  ZkPaillier.NiCorrectKeyProof.of_primes _ hp hl hnd hco

attribute [local irreducible] smoothPrimes in
/-- **C90 fails** (GG20).  A modulus of 2048 bits, all of whose prime factors are below 12740, is accepted: any valid
first message stays valid when its Paillier key is replaced by this one, with a suitable proof. -/
theorem C90_smooth_key_gg20 {bc : KeyGenBroadcastMessage1} {decom : KeyGenDecommitMessage1}
    (h : ValidBroadcast bc decom) :
    ∃ pf : CKProof, ValidBroadcast { bc with e := smoothN, correct_key_proof := pf } decom ∧
      ∀ p, p.Prime → p ∣ smoothN → p < 12740 := by
  obtain ⟨pf, hpf⟩ := C90_many_factors smoothPrimes_prime (fun p hp => (smoothPrimes_range p hp).1)
    smoothPrimes_nodup smooth_coprime
  refine ⟨pf, ⟨h.opens, hpf, .inr ?_, h.aux_size, h.dlog_h1, h.dlog_h2⟩, fun p hp hd => ?_⟩
  · rw [bitLength, Int.natAbs_natCast]; exact smooth_size
  · obtain ⟨s, hs, hps⟩ := (Prime.dvd_prod_iff hp.prime).1 hd
    rw [(Nat.prime_dvd_prime_iff_eq hp (smoothPrimes_prime s hs)).1 hps]
    exact (smoothPrimes_range s hs).2

attribute [local irreducible] smoothPrimes in
/-- **C90 fails** (Lindell17): party two accepts the same modulus. -/
theorem C90_smooth_key_two_party :
    ∃ pf : CKProof, Lindell17.PaillierPublic.verify_ni_proof_correct_key pf smoothN = .ok () := by
  obtain ⟨pf, hpf⟩ := C90_many_factors smoothPrimes_prime (fun p hp => (smoothPrimes_range p hp).1)
    smoothPrimes_nodup smooth_coprime
  refine ⟨pf, (C79_key_check _ _).1.2 ⟨?_, hpf⟩⟩
  rw [← Nat.lt_size, smooth_size]
  norm_num

end

/-! ### C91: auxiliary parameters -/

section
variable [Crypto]

omit [Crypto] in
/-- **C91** (parameters as generated).  If the second logarithm statement is true, commitments to any two numbers are
equally distributed: for each value there are as many blinding exponents below the order of `h2` (or a multiple) for
one number as for the other. -/
theorem C91_hidden_partial {st : DLogStatement} (hN : 0 < st.N) (hg : Int.gcd st.g st.N = 1)
    (hni : Int.gcd st.ni st.N = 1) {s : ℕ} (hs : st.ni ^ s * st.g ≡ 1 [ZMOD st.N]) {T : ℕ} (hT0 : 0 < T)
    (hT : st.ni ^ T ≡ 1 [ZMOD st.N]) (a a' : ℤ) (z : Option ℤ) :
    ((Finset.range T).filter (fun ρ : ℕ => commitInts st a ρ = z)).card =
      ((Finset.range T).filter (fun ρ : ℕ => commitInts st a' ρ = z)).card := by
  obtain ⟨M, hM, hstN, u1, u2, h1, h2⟩ := (DLogStatement.Usable.mk hN hg hni).units
  rw [hstN] at hs hT
  have e1 : u1 = u2 ^ (-(s : ℤ)) := by
    have := cast_of_modEq hs
    push_cast at this
    rw [h1, h2, ← Units.val_pow_eq_pow_val, ← Units.val_mul, ← Units.val_one, Units.val_inj] at this
    rw [zpow_neg, zpow_natCast, ← mul_eq_one_iff_eq_inv', this]
  have e2 : u2 ^ (T : ℤ) = 1 := by
    have := cast_of_modEq hT
    push_cast at this
    rw [h2, ← Units.val_pow_eq_pow_val, ← Units.val_one, Units.val_inj] at this
    rw [zpow_natCast, this]
  have hT0' : (0 : ℤ) < T := by exact_mod_cast hT0
  have key : ∀ a a' : ℤ, ((Finset.range T).filter (fun ρ : ℕ => commitInts st a ρ = z)).card ≤
      ((Finset.range T).filter (fun ρ : ℕ => commitInts st a' ρ = z)).card := by
    intro a a'
    have hf : ∀ ρ : ℕ, (((ρ + s * (a' - a)) % T).toNat : ℤ) = (ρ + s * (a' - a)) % T := fun ρ =>
      Int.toNat_of_nonneg (Int.emod_nonneg _ hT0'.ne')
    refine Finset.card_le_card_of_injOn (fun ρ => ((ρ + s * (a' - a)) % T).toNat) ?_ ?_
    · intro ρ hρ
      obtain ⟨hr, hz⟩ := Finset.mem_filter.1 hρ
      refine Finset.mem_filter.2 ⟨Finset.mem_range.2 ?_, ?_⟩
      · have := Int.emod_lt_of_pos (ρ + s * (a' - a)) hT0'
        have := hf ρ
        dsimp only
        omega
      · rw [← hz, hf]
        obtain ⟨x, hx, hx2, hx3⟩ := commitInts_unit hM hstN h1 h2 a ρ
        obtain ⟨y, hy, hy2, hy3⟩ := commitInts_unit hM hstN h1 h2 a' ((ρ + s * (a' - a)) % T)
        rw [hx, hy, Option.some.injEq]
        refine eq_of_cast ?_ hy3 hx3
        rw [hx2, hy2, Units.val_inj, e1, ← zpow_mul, ← zpow_mul, ← zpow_add, ← zpow_add]
        have h3 : ((ρ : ℤ) + s * (a' - a)) % T = ρ + s * (a' - a) - T * ((ρ + s * (a' - a)) / T) :=
          Int.emod_def _ _
        have h4 : -(s : ℤ) * a' + (ρ + s * (a' - a)) % T = -s * a + ρ + T * (-((ρ + s * (a' - a)) / T)) := by
          rw [h3]; ring
        rw [h4, zpow_add, zpow_mul u2 (T : ℤ), e2, one_zpow, mul_one]
    · intro ρ hρ σ hσ he
      have hr := Finset.mem_range.1 (Finset.mem_filter.1 hρ).1
      have hs' := Finset.mem_range.1 (Finset.mem_filter.1 hσ).1
      have he' : ((ρ : ℤ) + s * (a' - a)) % T = (σ + s * (a' - a)) % T := by
        rw [← hf ρ, ← hf σ]; exact congrArg Nat.cast he
      have h5 : (ρ : ℤ) ≡ σ [ZMOD T] := Int.ModEq.add_right_cancel' _ he'
      have := h5.eq
      rw [Int.emod_eq_of_lt (by omega) (by omega), Int.emod_eq_of_lt (by omega) (by omega)] at this
      exact_mod_cast this
  exact le_antisymm (key a a') (key a' a)

omit [Crypto] in
/-- **C91** (soundness of the logarithm proof, as far as it goes): two accepted proofs with the same first message and
challenges whose difference is prime to the order of `ni` show that `ni` is in the group generated by `g`. -/
theorem C91_two_challenges_partial {digest digest' : List ℤ → ℕ} {st : DLogStatement}
    {pf pf' : ZkPaillier.CompositeDLogProof} (hx : pf.x = pf'.x) (h : pf.verify digest st = some true)
    (h' : pf'.verify digest' st = some true) {T : ℕ} (hT : st.ni ^ T ≡ 1 [ZMOD st.N])
    (hco : Int.gcd ((ZkPaillier.CompositeDLogProof.challenge digest st pf.x : ℤ) -
      ZkPaillier.CompositeDLogProof.challenge digest' st pf.x) T = 1) :
    ∃ s, ∃ y, modPow st.g s st.N = some y ∧ st.ni ≡ y [ZMOD st.N] := by
  obtain ⟨M, hM, hstN, u, v, hu, hv, h1⟩ := ZkPaillier.CompositeDLogProof.accepted_units h
  obtain ⟨M', -, hstN', u', v', hu', hv', h1'⟩ := ZkPaillier.CompositeDLogProof.accepted_units h'
  obtain rfl : M = M' := by exact_mod_cast hstN.symm.trans hstN'
  obtain rfl : u = u' := Units.ext (hu.symm.trans hu')
  obtain rfl : v = v' := Units.ext (hv.symm.trans hv')
  rw [← hx, h1, Units.val_inj] at h1'
  set e := ZkPaillier.CompositeDLogProof.challenge digest st pf.x
  set e' := ZkPaillier.CompositeDLogProof.challenge digest' st pf.x
  have hd : v ^ ((e : ℤ) - e') = u ^ (pf'.y - pf.y) := by
    rw [zpow_sub, zpow_sub, mul_inv_eq_iff_eq_mul, mul_assoc, mul_comm _ (v ^ (e' : ℤ)), ← mul_assoc, ← h1',
      mul_comm (u ^ pf.y), mul_assoc, mul_inv_cancel, mul_one]
  have hvT : v ^ (T : ℤ) = 1 := by
    rw [hstN] at hT
    have := cast_of_modEq hT
    push_cast at this
    rw [hv, ← Units.val_pow_eq_pow_val, ← Units.val_one, Units.val_inj] at this
    rw [zpow_natCast, this]
  obtain ⟨A, B, hAB⟩ := Int.isCoprime_iff_gcd_eq_one.2 hco
  have hve : v = u ^ ((pf'.y - pf.y) * A) := by
    calc v = v ^ (1 : ℤ) := (zpow_one v).symm
      _ = v ^ (((e : ℤ) - e') * A) * v ^ ((T : ℤ) * B) := by rw [← zpow_add, ← hAB]; ring_nf
      _ = u ^ ((pf'.y - pf.y) * A) := by rw [zpow_mul, hd, zpow_mul v, hvT, one_zpow, mul_one, zpow_mul]
  obtain ⟨y, hy, hy2⟩ := modPow_unit hM hu ((pf'.y - pf.y) * A)
  rw [hstN]
  exact ⟨_, y, hy, modEq_of_cast (by rw [hy2, hv, ← hve])⟩

/-- **C91 fails** (range proofs): with leaking parameters, the range proof of a ciphertext discloses the plaintext
modulo `L`. -/
theorem C91_range_proof_leaks {st : DLogStatement} {P E L : ℕ} (hl : ParamsLeak st P E L) (hN : 0 < st.N)
    (hg : Int.gcd st.g st.N = 1) (hni : Int.gcd st.ni st.N = 1) {a cipher r : ℤ} (ha : 0 ≤ a) {N : ℕ}
    {rnd : AliceRand} {pf : AliceProof} (h : AliceProof.generate a cipher N st r rnd = some pf) :
    paramResidue st P E L pf.z = some (a.toNat % L) := by
  obtain ⟨M, hM, hstN, u1, u2, h1, h2⟩ := (DLogStatement.Usable.mk hN hg hni).units
  obtain ⟨z, hz, hz2, -⟩ := commitInts_unit hM hstN h1 h2 a rnd.ro
  unfold AliceProof.generate AliceZkpRound1.make AliceProof.respond at h
  simp only [Option.bind_eq_bind, Option.bind_eq_some_iff, Option.some.injEq] at h
  obtain ⟨_, ⟨z', hz', _, _, _, _, rfl⟩, _, _, rfl⟩ := h
  rw [hz, Option.some.injEq] at hz'
  subst hz'
  refine paramResidue_units hl hstN h1 h2 (b := rnd.ro) ?_
  rw [hz2, Units.val_mul]
  obtain ⟨n, rfl⟩ := Int.eq_ofNat_of_zero_le ha
  simp

/-- **C91 fails** (proofs of knowledge of the logarithm): so does the proof about the nonce point. -/
theorem C91_pdl_leaks {st : DLogStatement} {P E L : ℕ} (hl : ParamsLeak st P E L) (hN : 0 < st.N)
    (hg : Int.gcd st.g st.N = 1) (hni : Int.gcd st.ni st.N = 1) {ε : Type} {R_dash R : Pt} {c r : ℤ} {ek : ℕ}
    {k : Sc} {rnd : PdlRand} {pf : PDLwSlackProof}
    (h : (phase5_proof_pdl R_dash R c ek k r st rnd : Res ε PDLwSlackProof) = .ok pf) :
    paramResidue st P E L pf.z = some (k.val % L) := by
  obtain ⟨M, hM, hstN, u1, u2, h1, h2⟩ := (DLogStatement.Usable.mk hN hg hni).units
  obtain ⟨z, hz, hz2, -⟩ := cuo_units hM h1 h2 k.val rnd.rho
  unfold phase5_proof_pdl at h
  rw [Res.ofOption_eq_ok] at h
  unfold PDLwSlackProof.prove pdlStatement at h
  simp only [Option.bind_eq_bind, Option.bind_eq_some_iff, Option.some.injEq, hstN] at h
  obtain ⟨z', hz', _, _, _, _, _, _, rfl⟩ := h
  rw [hz, Option.some.injEq] at hz'
  subst hz'
  refine paramResidue_units hl hstN h1 h2 (b := rnd.rho) ?_
  rw [hz2, Units.val_mul, zpow_natCast]

theorem aliceProofs_get {a c r : ℤ} {N : ℕ} {rs : ℕ → AliceRand} : ∀ {sts : List DLogStatement} {k : ℕ}
    {pfs : List AliceProof}, aliceProofs a c N r rs k sts = some pfs → ∀ {j : ℕ} {st : DLogStatement},
    sts[j]? = some st → ∃ pf, pfs[j]? = some pf ∧ AliceProof.generate a c N st r (rs (k + j)) = some pf
  | [], _, _, _, _, _, hj => by simp at hj
  | st0 :: sts, k, pfs, h, j, st, hj => by
    unfold aliceProofs at h
    simp only [Option.bind_eq_bind, Option.bind_eq_some_iff, Option.some.injEq] at h
    obtain ⟨pf, hpf, rest, hrest, rfl⟩ := h
    cases j with
    | zero =>
      simp only [List.getElem?_cons_zero, Option.some.injEq] at hj ⊢
      subst hj
      exact ⟨pf, rfl, hpf⟩
    | succ j =>
      rw [List.getElem?_cons_succ] at hj
      obtain ⟨pf', h1, h2⟩ := aliceProofs_get hrest hj
      refine ⟨pf', by rw [List.getElem?_cons_succ]; exact h1, ?_⟩
      rw [show k + (j + 1) = k + 1 + j by omega]
      exact h2

variable {n : ℕ} {Y : Pt} {x : ℕ → Sc} {dk : ℕ → DecKey} {sts : List DLogStatement}
  {s_l : List ℕ} {k : ℕ} {key : LocalKey} {rnd : SignRandomness}

/-- **C91 fails** (GG20 offline signing).  If one party of the key, signing or not, has leaking parameters, then the
first message that an honest signer broadcasts discloses its nonce share modulo `L`, whatever it samples. -/
theorem C91_gg20_nonce_leaks (h : HonestSigner n Y x dk sts s_l k key rnd) {j : ℕ} {st : DLogStatement}
    (hj : sts[j]? = some st) {P E L : ℕ} (hl : ParamsLeak st P E L) :
    ∃ r m_a com pf, Round0.proceed ⟨k + 1, s_l, key⟩ rnd = .ok (r, [⟨k + 1, none, (m_a, com)⟩]) ∧
      m_a.range_proofs[j]? = some pf ∧ paramResidue st P E L pf.z = some (rnd.k.val % L) := by
  obtain ⟨hu0, hu1, hu2⟩ := h.aux.usable st (List.mem_of_getElem? hj)
  have hget : (Res.get s_l k : Res SignError ℕ) = .ok (s_l.getD k 0) := by
    rw [Res.get_of_lt h.pos]; simp [h.pos]
  obtain ⟨r, out, ho, -⟩ := round0_inv h
  have ho' := ho
  unfold Round0.proceed at ho
  simp only [Nat.add_sub_cancel] at ho
  rw [hget, Res.bind_ok, h.holds.share, create_eq h.members h.nodup h.n_lt h.n_u16 h.pos, Res.bind_ok,
    h.holds.sts_eq] at ho
  simp only [Res.bind_eq_ok, Res.ok.injEq, Prod.mk.injEq, Res.ofOption_eq_ok] at ho
  obtain ⟨ek, -, m_a, hm, rfl, rfl⟩ := ho
  unfold MessageA.a at hm
  simp only [Option.bind_eq_bind, Option.bind_eq_some_iff, Option.some.injEq] at hm
  obtain ⟨pfs, hp, rfl⟩ := hm
  obtain ⟨pf, hpf, hgen⟩ := aliceProofs_get hp hj
  have := C91_range_proof_leaks hl hu0 hu1 hu2 (Int.natCast_nonneg _) hgen
  exact ⟨_, _, _, pf, ho', hpf, this⟩

end

section
attribute [local instance] Secp256k1.crypto

/-- Leaking parameters make the logarithm statement false. -/
theorem C91_statement_false {st : DLogStatement} {P E L : ℕ} (hl : ParamsLeak st P E L) (s : ℕ) :
    ¬ st.ni ^ s * st.g ≡ 1 [ZMOD st.N] := by
  intro h
  have h1 := (h.of_dvd hl.p_dvd).pow E
  rw [mul_pow, one_pow, ← pow_mul, mul_comm s, pow_mul] at h1
  have h2 := (hl.ni_pow.pow s).mul_right (st.g ^ E)
  rw [one_pow, one_mul] at h2
  exact hl.g_ne (h2.symm.trans h1)

attribute [local irreducible] leakN leakH1 leakH2 leakX1 leakX2 leakP bigQ in
/-- **C91 fails** (GG20 key generation).  The parameters `leakSt` leak residues modulo 65537, and they are accepted:
there are two proofs with which any valid first message stays valid when its parameters are replaced by these. -/
theorem C91_leaking_parameters_accepted :
    ParamsLeak leakSt leakP leakE 65537 ∧ ∃ pf1 pf2 : CDProof,
      ∀ {bc : KeyGenBroadcastMessage1} {decom : KeyGenDecommitMessage1}, ValidBroadcast bc decom →
        ValidBroadcast { bc with dlog_statement := leakSt, composite_dlog_proof_base_h1 := pf1,
                                 composite_dlog_proof_base_h2 := pf2 } decom := by
  have ho : ((leakH2 : ℤ) * leakH1) ^ 65537 ≡ 1 [ZMOD leakN] := by rw [mul_comm]; exact leak_order
  have f1 := ZkPaillier.CompositeDLogProof.forged (Digest.ints Sha256.hash) leakSt leak_large leak_gcd1 leak_gcd2
    leak_x1 leak_order leak_challenge1
  have f2 := ZkPaillier.CompositeDLogProof.forged (Digest.ints Sha256.hash) ⟨leakN, leakH2, leakH1⟩ leak_large
    leak_gcd2 leak_gcd1 leak_x2 ho leak_challenge2
  refine ⟨leak_params, _, _, fun h => ⟨h.opens, h.correct_key, h.paillier_size, .inl ?_, f1, f2⟩⟩
  show bitLength (leakN : ℤ) = 2047
  rw [bitLength, Int.natAbs_natCast]
  exact leak_size

attribute [local irreducible] leakN leakH1 leakH2 leakX1 leakX2 leakP bigQ bigP smoothPrimes smoothN leakSt in
/-- The hypotheses of `C90_accepted_partial`, `C90_smooth_key_gg20` and `C91_leaking_parameters_accepted` can be met:
a whole first message with both the smooth key and the leaking parameters is accepted in round 1. -/
example (k : Keys) : ∃ (bc : KeyGenBroadcastMessage1) (decom : KeyGenDecommitMessage1) (r : _),
    bc.e = smoothN ∧ bc.dlog_statement = leakSt ∧
      k.phase1_verify_distribute ⟨0, 1⟩ [decom] [bc] [] = .ok r := by
  obtain ⟨rnd, hr, -⟩ := honestRandomness_exists 0 (5 : Sc) [] rfl
  have hv := Keygen.honest_validBroadcast (rnd := fun _ => rnd) (k := 0) hr
  obtain ⟨pf, hv1, -⟩ := C90_smooth_key_gg20 hv
  obtain ⟨-, pf1, pf2, hpf⟩ := C91_leaking_parameters_accepted
  have hv2 := hpf hv1
  generalize hbc : ({ { Keygen.rBc (fun _ => rnd) 0 with e := smoothN, correct_key_proof := pf } with
    dlog_statement := leakSt, composite_dlog_proof_base_h1 := pf1,
    composite_dlog_proof_base_h2 := pf2 } : KeyGenBroadcastMessage1) = bc at hv2
  have e1 : bc.e = smoothN := by rw [← hbc]
  have e2 : bc.dlog_statement = leakSt := by rw [← hbc]
  obtain ⟨r, h⟩ := (C11_accepts_iff k (t := 0) (n := 1) (by decide) [_] [_] [] rfl rfl).1.2 (fun i hi => by
    obtain rfl : i = 0 := by omega
    exact ⟨_, _, rfl, rfl, hv2⟩)
  exact ⟨bc, _, r, e1, e2, h⟩

end

/-! ### Examples -/

section
attribute [local instance] Toy.crypto

/-- Parameters made by `generate_h1_h2_N_tilde` with the primes 43 and 47; the order of `h2` divides `42 * 46`. -/
example (a a' : ℤ) (z : Option ℤ) := C91_hidden_partial (st := ⟨2021, 2, 1200⟩) (by decide) (by decide) (by decide)
  (s := 773) (by decide +kernel) (T := 966) (by decide) (by decide +kernel) a a' z

/-- Small parameters that leak residues modulo 3 -/
theorem toyLeak : ParamsLeak ⟨35, 2, 6⟩ 7 2 3 :=
  ⟨by norm_num, by decide, by norm_num, by decide, by decide, by decide⟩

example {pf : AliceProof} {rnd : AliceRand}
    (h : AliceProof.generate 20 (Paillier.encrypt toyKey.n 20 5) toyKey.n ⟨35, 2, 6⟩ 5 rnd = some pf) :
    paramResidue ⟨35, 2, 6⟩ 7 2 3 pf.z = some 2 :=
  C91_range_proof_leaks toyLeak (by decide) (by decide) (by decide) (by decide) h

/-- The same, evaluated -/
example : ((AliceProof.generate 20 (Paillier.encrypt toyKey.n 20 5) toyKey.n ⟨35, 2, 6⟩ 5 ⟨7, 3, 11, 29⟩).bind
    fun pf => paramResidue ⟨35, 2, 6⟩ 7 2 3 pf.z) = some 2 := by decide +kernel

example {pf : PDLwSlackProof} {rnd : PdlRand} (h : (phase5_proof_pdl ((20 : ZMod 31) • (G : Pt)) G
      (Paillier.encrypt toyKey.n 20 5) toyKey.n (20 : ZMod 31) 5 ⟨35, 2, 6⟩ rnd : Res Error PDLwSlackProof) = .ok pf) :
    paramResidue ⟨35, 2, 6⟩ 7 2 3 pf.z = some 2 :=
  C91_pdl_leaks toyLeak (by decide) (by decide) (by decide) h

example : (match (phase5_proof_pdl ((20 : ZMod 31) • (G : Pt)) G (Paillier.encrypt toyKey.n 20 5) toyKey.n
      (20 : ZMod 31) 5 ⟨35, 2, 6⟩ ⟨7, 3, 11, 29⟩ : Res Error PDLwSlackProof) with
    | .ok pf => paramResidue ⟨35, 2, 6⟩ 7 2 3 pf.z
    | _ => none) = some 2 := by decide +kernel

example := C91_statement_false toyLeak 5

/-- `ni = g = -1`, with the challenges 1 and 0 -/
example := C91_two_challenges_partial (digest := fun _ => 1) (digest' := fun _ => 0)
  (st := ⟨2 ^ 128 + 1, 2 ^ 128, 2 ^ 128⟩) (pf := ⟨1, 1⟩) (pf' := ⟨1, 0⟩) rfl (by decide +kernel) (by decide +kernel)
  (T := 2) (by decide +kernel) (by decide +kernel)

attribute [local irreducible] leakN leakH1 leakH2 leakX1 leakX2 leakP bigQ in
/-- Signer 1 of parties 3 and 1, with the leaking parameters of party 2. -/
example : ∃ r m_a com pf, Round0.proceed ⟨1, [3, 1], { toyLocal 3 with h1_h2_n_tilde_vec := [toySt, leakSt, toySt] }⟩
      (toySign 0) = .ok (r, [⟨1, none, (m_a, com)⟩]) ∧ m_a.range_proofs[1]? = some pf ∧
      paramResidue leakSt leakP leakE 65537 pf.z = some ((toySign 0).k.val % 65537) := by
  have hs : HonestSigner 3 ((5 : ZMod 31) • (G : Pt)) toyX (fun _ => toyKey) [toySt, leakSt, toySt] [3, 1] 0
      { toyLocal 3 with h1_h2_n_tilde_vec := [toySt, leakSt, toySt] } (toySign 0) :=
    { toySigner with
      holds := { toySigner.holds with sts_eq := rfl }
      aux := ⟨rfl, by
        intro st hst
        simp only [List.mem_cons, List.not_mem_nil, or_false] at hst
        rcases hst with rfl | rfl | rfl
        · exact toySt_usable
        · exact ⟨lt_trans (by norm_num) leak_large, leak_gcd1, leak_gcd2⟩
        · exact toySt_usable⟩ }
  exact C91_gg20_nonce_leaks hs (j := 1) rfl leak_params

end

end Verif.Props
