import Verif.Model.CCLST19.Protocol
import Verif.Lemmas.Lindell
import Verif.Lemmas.PaillierSurj
import Verif.Props.Signature
import Verif.Props.Mta
import Verif.Props.Pdl
import Verif.Base.BigPrimes

/-!
# C53-C57, C72-C75: the two-party protocols

Shares, nonces, messages and every random sample are universally quantified.  `Spec.EcdsaEq` is the
ECDSA equation, `Spec.LowS` the lower half of the scalars.
-/

namespace Verif.Props

open EC Crypto Spec

section
variable [Crypto]

open Lindell17

/-! ### Honest key generation -/

/-- **C53** (key generation).  For all shares and samples every check of an honest key generation
passes, and both parties compute the public key `x1 x2 G`. -/
theorem C53_keygen (x1 x2 t1 t2 : Sc) (b1 b2 r : ℤ) (dk : DecKey) :
    let o1 := create_commitments x1 t1 b1 b2
    let o2 := party2_create x2 t2
    let s1 := Party1Private.set_private_key o1.2.2 (PaillierKeyPair.generate dk o1.2.2 r)
    verify_and_decommit o1.2.1 o2.1.d_log_proof = .ok ⟨o1.2.1⟩ ∧
    verify_commitments_and_dlog_proof o1.1 ⟨o1.2.1⟩ = .ok () ∧
    compute_pubkey s1 o2.1.public_share = (x1 * x2) • G ∧
    party2_compute_pubkey o2.2 o1.2.1.public_share = (x1 * x2) • G := by
  refine ⟨?_, ?_, ?_, ?_⟩
  · exact if_pos (DLogProof.verify_prove x2 t2)
  · simp [verify_commitments_and_dlog_proof, create_commitments, DLogProof.verify_prove]
  · exact (mul_smul x1 x2 G).symm
  · rw [mul_comm]; exact (mul_smul x2 x1 G).symm

/-- The auxiliary setup of an honest PDL proof: a modulus above `2^128`, an invertible base and a
non-negative exponent. -/
def GoodSetup (a : PdlSetup) : Prop :=
  0 < a.p ∧ 0 < a.q ∧ 2 ^ 128 < (a.p : ℤ) * a.q ∧ Int.gcd a.h1 ((a.p : ℤ) * a.q) = 1 ∧ 0 ≤ a.xhi

theorem pdl_honest {x1 : Sc} {dk : DecKey} {r : ℤ} {a : PdlSetup} (hn : 0 < dk.n)
    (hr : Int.gcd r dk.n = 1) (ha : GoodSetup a) :
    ∃ st pf cd, PaillierKeyPair.pdl_proof ⟨x1, dk, r⟩ ⟨dk.n, dk, Paillier.encrypt dk.n x1.val r, r⟩ a =
        some (st, pf, cd) ∧
      PaillierPublic.pdl_verify cd st pf ⟨dk.n, Paillier.encrypt dk.n x1.val r⟩ (x1 • G) = .ok () := by
  obtain ⟨hp, hq, hbig, hg, hx⟩ := ha
  obtain ⟨h2, hgen, hh2⟩ := C35_lindell hp hq hg hx
  have hpos : (0 : ℤ) < (a.p : ℤ) * a.q := by positivity
  have hg2 : Int.gcd h2 ((a.p : ℤ) * a.q) = 1 := by
    rw [← Int.isCoprime_iff_gcd_eq_one]
    obtain ⟨k, hk⟩ := (Int.modEq_iff_dvd.1 hh2)
    exact ⟨a.h1 ^ a.xhi.toNat, k, by linarith⟩
  set st : PDLwSlackStatement :=
    { ciphertext := Paillier.encrypt dk.n x1.val r
      ek := dk.n
      Q := x1 • G
      G := G
      h1 := a.h1
      h2 := h2
      N_tilde := (a.p : ℤ) * a.q } with hst
  obtain ⟨pf, hpf, hver⟩ := C32_honest (w := ⟨x1, r⟩) (st := st) (rnd := a.rnd) ⟨hpos, hg, hg2⟩ hn rfl
    hr rfl
  refine ⟨st, pf, cdProve ⟨(a.p : ℤ) * a.q, a.h1, h2⟩ a.xhi a.coins, ?_, ?_⟩
  · unfold PaillierKeyPair.pdl_proof
    rw [hgen]
    show (PDLwSlackProof.prove ⟨x1, r⟩ st a.rnd).bind _ = _
    rw [hpf]
    rfl
  · have hcd : cdVerify (cdProve ⟨(a.p : ℤ) * a.q, a.h1, h2⟩ a.xhi a.coins)
        ⟨(a.p : ℤ) * a.q, a.h1, h2⟩ = some true := by
      obtain ⟨k, hk⟩ := Int.eq_ofNat_of_zero_le hx
      rw [hk] at hh2 ⊢
      exact cd_complete _ k _ hbig hg hg2 hh2
    unfold PaillierPublic.pdl_verify
    rw [if_neg (by simp [hst])]
    show (match andOpt (cdVerify _ ⟨(a.p : ℤ) * a.q, a.h1, h2⟩) (pf.verify st) with
      | none => _ | some true => _ | some false => _) = _
    rw [hcd, hver]
    rfl

/-- **C53** (proofs about the encrypted share): party two accepts the honest key-correctness proof of
every key of at least 2047 bits and the honest proof that the ciphertext encrypts party one's share. -/
theorem C53_share_proofs (x1 t1 : Sc) (b1 b2 : ℤ) {r : ℤ} {dk : DecKey} (hv : dk.Valid)
    (hl : dk.Large) (hbits : 2047 ≤ bitLength dk.n) (hr : Int.gcd r dk.n = 1) {a : PdlSetup} (ha : GoodSetup a) :
    let o1 := create_commitments x1 t1 b1 b2
    let k := PaillierKeyPair.generate dk o1.2.2 r
    let s1 := Party1Private.set_private_key o1.2.2 k
    PaillierPublic.verify_ni_proof_correct_key (k.generate_ni_proof_correct_key) k.ek = .ok () ∧
    ∃ st pf cd, PaillierKeyPair.pdl_proof s1 k a = some (st, pf, cd) ∧
      PaillierPublic.pdl_verify cd st pf ⟨k.ek, k.encrypted_share⟩ o1.2.1.public_share = .ok () := by
  have hn : 0 < dk.n := Nat.mul_pos hv.p_prime.pos hv.q_prime.pos
  refine ⟨?_, pdl_honest hn hr ha⟩
  show (if bitLength dk.n < PAILLIER_KEY_SIZE - 1 then _ else _) = _
  rw [if_neg (by unfold PAILLIER_KEY_SIZE; omega)]
  show (match ckVerify (ckProve dk) dk.n with | none => _ | some true => _ | some false => _) = _
  rw [ck_complete dk hv hl]

/-! ### Honest signing -/

/-- **C53** (nonce exchange): every check passes and both parties hold the nonce point `k1 k2 G`. -/
theorem C53_nonces (k1 k2 n1 n2 : Sc) (b1 b2 : ℤ) :
    let o1 := eph_create k1 n1
    let o2 := eph_create_commitments k2 n2 b1 b2
    eph_verify_and_decommit o2.2.1 o1.1 = .ok ⟨o2.2.1⟩ ∧
    eph_verify_commitments_and_dlog_proof o2.1 ⟨o2.2.1⟩ = .ok () ∧
    o1.2.secret_share • o2.2.1.public_share = (k1 * k2) • G ∧
    o2.2.2.secret_share • o1.1.public_share = (k1 * k2) • G := by
  refine ⟨?_, ?_, (mul_smul k1 k2 G).symm, ?_⟩
  · exact if_pos (ECDDHProof.verify_prove k1 _ n1 rfl rfl)
  · have hv : (ECDDHProof.prove k2 ⟨G, k2 • G, H, k2 • H⟩ n2).verify ⟨G, k2 • G, H, k2 • H⟩ = true :=
      ECDDHProof.verify_prove k2 _ n2 rfl rfl
    simp [eph_verify_commitments_and_dlog_proof, eph_create_commitments, hv]
  · rw [mul_comm]; exact (mul_smul k2 k1 G).symm

/-- **C53** (signing).  For a Paillier modulus of at least `q^3 + q^2`, all shares, all non-zero nonces,
all messages and all samples: party two produces a partial signature from which party one computes a
signature `(s, r)` with `r` the x-coordinate of `k1 k2 G` modulo `q` and `s` in the lower half; unless
`m + r x1 x2 = 0` it satisfies the ECDSA equation under the joint public key, and the library's
verification accepts it if the x-coordinate is below `q`. -/
theorem C53_sign {dk : DecKey} (hv : dk.Valid) (hn : (q : ℤ) ^ 3 + (q : ℤ) ^ 2 ≤ dk.n)
    (x1 x2 k1 k2 n1 n2 : Sc) (hk1 : k1 ≠ 0) (hk2 : k2 ≠ 0) (m : ℤ) {rho rk r : ℤ} (b1 b2 : ℤ)
    (h0 : 0 ≤ rho) (h1 : rho < (q : ℤ) ^ 2) (hrk : Int.gcd rk dk.n = 1) (hr : Int.gcd r dk.n = 1) :
    let key := PaillierKeyPair.generate dk ⟨x1 • G, x1⟩ rk
    let s1 := Party1Private.set_private_key ⟨x1 • G, x1⟩ key
    let s2 := Party2Private.set_private_key ⟨x2 • G, x2⟩
    let o1 := eph_create k1 n1
    let o2 := eph_create_commitments k2 n2 b1 b2
    let Y := compute_pubkey s1 (x2 • G)
    ∃ x y c3 sig, coords ((k1 * k2) • G) = some (x, y) ∧
      PartialSig.compute key.ek key.encrypted_share s2 o2.2.2 o1.1.public_share m rho r = .ok c3 ∧
      Signature.compute s1 c3 o1.2 o2.2.1.public_share = .ok sig ∧
      sig.r = (x : ℤ) % q ∧ 0 ≤ sig.s ∧ 2 * sig.s < q ∧
      ((m : Sc) + (x : Sc) * (x1 * x2) = 0 → sig.s = 0) ∧
      ((m : Sc) + (x : Sc) * (x1 * x2) ≠ 0 →
        EcdsaEq Y m (sig.r : Sc) (sig.s : Sc) ∧ LowS (sig.s : Sc) ∧
        (x < q → Lindell17.verify sig Y m = .ok ())) := by
  intro key s1 s2 o1 o2 Y
  have hR : (k1 * k2) • (G : Pt) ≠ 0 := by
    rw [ne_eq, smul_G_eq_zero]; exact mul_ne_zero hk1 hk2
  obtain ⟨x, y, hc⟩ := exists_coords hR
  have hx2 : xc (o2.2.2.secret_share • o1.1.public_share) = some x := by
    rw [(C53_nonces k1 k2 n1 n2 b1 b2).2.2.2]; simp [xc, hc]
  have hx1 : xc (o1.2.secret_share • o2.2.1.public_share) = some x := by
    rw [(C53_nonces k1 k2 n1 n2 b1 b2).2.2.1]; simp [xc, hc]
  obtain ⟨c3, hc3, henc⟩ := partial_spec (s2 := s2) (m := m) (rho := rho) (r := r) hx2 hk2
    (Paillier.isEnc_encrypt dk.n x1.val rk)
  have hd := Paillier.decrypt_spec hv henc (gcd_pow_mul _ hrk hr)
  obtain ⟨hl0, hl1⟩ := honest_lt (k2 := k2) (x1 := x1) (x2 := x2) (m := m) (x := x) h0 h1 hn
  have hd' : Paillier.decrypt s1.paillier_priv c3 =
      some (vPart k2 x2 x * (x1.val : ℤ) + (rho * q + uPart k2 m)) := by
    rw [← Int.emod_eq_of_lt hl0 hl1]; exact hd
  have hsig := compute_spec (s1 := s1) (c3 := c3) hx1 hk1 hd'
  have hs : (((vPart k2 x2 x * (x1.val : ℤ) + (rho * q + uPart k2 m) : ℤ) : Sc)) * k1⁻¹ =
      (k1 * k2)⁻¹ * ((m : Sc) + (x : Sc) * (x1 * x2)) := honest_s
  have hs' : (((vPart k2 x2 x * (x1.val : ℤ) + (rho * q + uPart k2 m) : ℤ) : Sc)) *
      o1.2.secret_share⁻¹ = (k1 * k2)⁻¹ * ((m : Sc) + (x : Sc) * (x1 * x2)) := hs
  rw [hs'] at hsig
  set s : Sc := (k1 * k2)⁻¹ * ((m : Sc) + (x : Sc) * (x1 * x2)) with hsdef
  have hlow := normS_low s
  have hodd := q_odd
  have hrc : (((x : ℤ) % q : ℤ) : Sc) = (x : Sc) := by rw [castMod, Int.cast_natCast]
  have hsc : ((((normS s).val : ℕ) : ℤ) : Sc) = normS s := val_cast _
  have hkk : (k1 * k2) ≠ 0 := mul_ne_zero hk1 hk2
  refine ⟨x, y, c3, _, hc, hc3, hsig, rfl, Int.natCast_nonneg _, ?_, ?_, ?_⟩
  · show 2 * ((normS s).val : ℤ) < q
    have hl := hlow
    unfold LowS at hl
    omega
  · intro h
    show ((normS s).val : ℤ) = 0
    have : s = 0 := by rw [hsdef, h, mul_zero]
    rw [this]
    rcases normS_cases (0 : Sc) with h' | h' <;> rw [h'] <;> simp
  · intro hne
    have hsne : s ≠ 0 := mul_ne_zero (inv_ne_zero hkk) hne
    have hY : Y = (x1 * x2) • G := (mul_smul x1 x2 G).symm
    have hsign : s • ((k1 * k2) • (G : Pt)) = (m : Sc) • G + (x : Sc) • Y := by
      rw [hY, ← mul_smul, ← mul_smul, ← add_smul, hsdef, mul_comm, mul_inv_cancel_left₀ hkk]
    have heq : EcdsaEq Y m (x : Sc) s := by
      refine ⟨hsne, x, y, ?_, rfl⟩
      have := vpoint_of_sign hsne hsign
      rw [show ((m : Sc) / s) • G + ((x : Sc) / s) • Y = vpoint Y m (x : Sc) s from rfl, this, hc]
    refine ⟨?_, ?_, ?_⟩
    · show EcdsaEq Y m (((x : ℤ) % q : ℤ) : Sc) ((((normS s).val : ℕ) : ℤ) : Sc)
      rw [hrc, hsc]
      exact ecdsaEq_normS.2 heq
    · show LowS ((((normS s).val : ℕ) : ℤ) : Sc)
      rw [hsc]; exact hlow
    · intro hxq
      have hns := ecdsaEq_normS.2 heq
      have hxx : (x : ℤ) % q = ((x : Sc).val : ℤ) := by
        rw [ZMod.val_natCast]; push_cast; rfl
      rw [hxx]
      refine C05_l17_complete_partial (x : Sc) (normS s) Y m hns hlow ?_
      intro x' y' hc'
      have hvp : ((m : Sc) / normS s) • G + ((x : Sc) / normS s) • Y = vpoint Y m (x : Sc) (normS s) :=
        rfl
      have hxc : xc (vpoint Y m (x : Sc) (normS s)) = some x := by
        rcases normS_cases s with h | h
        · rw [h, vpoint_of_sign hsne hsign]; simp [xc, hc]
        · rw [h, vpoint_neg, xc_neg, vpoint_of_sign hsne hsign]; simp [xc, hc]
      rw [hvp] at hc'
      simp only [xc, hc', Option.map_some, Option.some.injEq] at hxc
      omega

/-- **C53** (the two ways to complete a signature). Whatever party one received, `compute_with_recid` ends as `compute`
does: with the same `s` and `r`, or with a panic. -/
theorem C53_recid_same (s1 : Party1Private) (c3 : ℤ) (e1 : EcKeyPair) (R2 : Pt) :
    (Signature.compute_with_recid s1 c3 e1 R2 >>= fun t => .ok (⟨t.s, t.r⟩ : Lindell17.Signature)) =
      Signature.compute s1 c3 e1 R2 := by
  unfold Signature.compute_with_recid Signature.compute
  dsimp only
  cases hc : coords (e1.secret_share • R2) with
  | none => simp [xc, hc]
  | some xy =>
    obtain ⟨x, y⟩ := xy
    simp only [xc, yc, hc, Option.map_some, Res.ofOption_some, Res.bind_ok]
    cases scInvert e1.secret_share with
    | none => rfl
    | some i =>
      cases Paillier.decrypt s1.paillier_priv c3 with
      | none => rfl
      | some d => rfl

/-- **C53** (recovery id): on a curve with `p < 2 q` and for a nonce point with x-coordinate prime to
`q`, the recovery id returned with an honest signature recovers exactly the joint public key if both
coordinates of the nonce point are below `q`, and does not recover it otherwise. -/
theorem C53_recid {dk : DecKey} (hv : dk.Valid) (hn : (q : ℤ) ^ 3 + (q : ℤ) ^ 2 ≤ dk.n)
    (hp : p < 2 * q) (x1 x2 k1 k2 n1 n2 : Sc) (hk1 : k1 ≠ 0) (hk2 : k2 ≠ 0) (m : ℤ) {rho rk r : ℤ}
    (b1 b2 : ℤ) (h0 : 0 ≤ rho) (h1 : rho < (q : ℤ) ^ 2) (hrk : Int.gcd rk dk.n = 1)
    (hr : Int.gcd r dk.n = 1) {x y : ℕ} (hc : coords ((k1 * k2) • (G : Pt)) = some (x, y))
    (hx : (x : Sc) ≠ 0) (hne : (m : Sc) + (x : Sc) * (x1 * x2) ≠ 0) :
    let key := PaillierKeyPair.generate dk ⟨x1 • G, x1⟩ rk
    let s1 := Party1Private.set_private_key ⟨x1 • G, x1⟩ key
    let s2 := Party2Private.set_private_key ⟨x2 • G, x2⟩
    let o1 := eph_create k1 n1
    let o2 := eph_create_commitments k2 n2 b1 b2
    ∃ c3 sig sigr,
      PartialSig.compute key.ek key.encrypted_share s2 o2.2.2 o1.1.public_share m rho r = .ok c3 ∧
      Signature.compute s1 c3 o1.2 o2.2.1.public_share = .ok sig ∧
      Signature.compute_with_recid s1 c3 o1.2 o2.2.1.public_share = .ok sigr ∧
      sigr.r = sig.r ∧ sigr.s = sig.s ∧
      (Recovers (sigr.r : Sc) (sigr.s : Sc) sigr.recid m (compute_pubkey s1 (x2 • G)) ↔
        x < q ∧ y < q) := by
  intro key s1 s2 o1 o2
  have hcx2 : xc (o2.2.2.secret_share • o1.1.public_share) = some x := by
    rw [(C53_nonces k1 k2 n1 n2 b1 b2).2.2.2]; simp [xc, hc]
  have hcx1 : coords (o1.2.secret_share • o2.2.1.public_share) = some (x, y) := by
    rw [(C53_nonces k1 k2 n1 n2 b1 b2).2.2.1, hc]
  obtain ⟨c3, hc3, henc⟩ := partial_spec (s2 := s2) (m := m) (rho := rho) (r := r) hcx2 hk2
    (Paillier.isEnc_encrypt dk.n x1.val rk)
  have hd := Paillier.decrypt_spec hv henc (gcd_pow_mul _ hrk hr)
  obtain ⟨hl0, hl1⟩ := honest_lt (k2 := k2) (x1 := x1) (x2 := x2) (m := m) (x := x) h0 h1 hn
  have hd' : Paillier.decrypt s1.paillier_priv c3 =
      some (vPart k2 x2 x * (x1.val : ℤ) + (rho * q + uPart k2 m)) := by
    rw [← Int.emod_eq_of_lt hl0 hl1]; exact hd
  have hsig := compute_spec (s1 := s1) (c3 := c3)
    (show xc (o1.2.secret_share • o2.2.1.public_share) = some x by simp [xc, hcx1]) hk1 hd'
  have hsigr := compute_with_recid_spec (s1 := s1) (c3 := c3) hcx1 hk1 hd'
  have hs' : (((vPart k2 x2 x * (x1.val : ℤ) + (rho * q + uPart k2 m) : ℤ) : Sc)) *
      o1.2.secret_share⁻¹ = (k1 * k2)⁻¹ * ((m : Sc) + (x : Sc) * (x1 * x2)) := honest_s
  rw [hs'] at hsig hsigr
  set s : Sc := (k1 * k2)⁻¹ * ((m : Sc) + (x : Sc) * (x1 * x2)) with hsdef
  have hkk : (k1 * k2) ≠ 0 := mul_ne_zero hk1 hk2
  have hsne : s ≠ 0 := mul_ne_zero (inv_ne_zero hkk) hne
  set Y := compute_pubkey s1 (x2 • G) with hYdef
  have hY : Y = (x1 * x2) • G := (mul_smul x1 x2 G).symm
  have hsign : s • ((k1 * k2) • (G : Pt)) = (m : Sc) • G + (x : Sc) • Y := by
    rw [hY, ← mul_smul, ← mul_smul, ← add_smul, hsdef, mul_comm, mul_inv_cancel_left₀ hkk]
  have heq : EcdsaEq Y m (x : Sc) s := by
    refine ⟨hsne, x, y, ?_, rfl⟩
    have := vpoint_of_sign hsne hsign
    rw [show ((m : Sc) / s) • G + ((x : Sc) / s) • Y = vpoint Y m (x : Sc) s from rfl, this, hc]
  refine ⟨c3, _, _, hc3, hsig, hsigr, rfl, rfl, ?_⟩
  -- the same final state as in the multi-party protocol
  let st : GG20.LocalSignature := ⟨(x : Sc), (k1 * k2) • G, s, m, Y⟩
  have hout : GG20.SignManual.complete st [] = .ok ⟨(x : Sc), normS s, recidOf s y⟩ := by
    refine (gg20_output_ok_iff st [] hc _).2 ⟨?_, ?_⟩
    · simpa [st] using heq
    · simp [st]
  have := C04_gg20_recid_iff hp st [] _ x y hc hx (by simpa [st] using hsign) hout
  have hrc : (((x : ℤ) % q : ℤ) : Sc) = (x : Sc) := by rw [castMod, Int.cast_natCast]
  have hsc : ((((normS s).val : ℕ) : ℤ) : Sc) = normS s := val_cast _
  show Recovers (((x : ℤ) % q : ℤ) : Sc) ((((normS s).val : ℕ) : ℤ) : Sc) (recidOf s y) m Y ↔ _
  rw [hrc, hsc]
  exact this

/-! ### C54: openings -/

omit [Crypto] in
/-- These two pairs of arguments are different and have the same image. -/
def CollideAt {α : Type} (f : α → ℤ → ℤ) (a : α) (b : ℤ) (a' : α) (b' : ℤ) : Prop :=
  (a, b) ≠ (a', b') ∧ f a b = f a' b'

/-- Exactly which openings of party one's first message party two accepts. -/
theorem C54_keygen_accepts_iff (m1 : KeyGenFirstMsg) (w : CommWitness) :
    verify_commitments_and_dlog_proof m1 ⟨w⟩ = .ok () ↔
      m1.pk_commitment = hashCom (ser w.public_share) w.pk_commitment_blind_factor ∧
      m1.zk_pok_commitment = hashCom (ser w.d_log_proof.pk_t_rand_commitment) w.zk_pok_blind_factor ∧
      w.d_log_proof.verify = true := by
  unfold verify_commitments_and_dlog_proof
  by_cases h1 : m1.pk_commitment = hashCom (ser w.public_share) w.pk_commitment_blind_factor <;>
  by_cases h2 : m1.zk_pok_commitment =
    hashCom (ser w.d_log_proof.pk_t_rand_commitment) w.zk_pok_blind_factor <;>
  by_cases h3 : w.d_log_proof.verify = true <;> simp_all

/-- **C54 (partial)**, key generation.  Two accepted openings of one first message have the same
public share, the same first move of the proof and the same blinding factors, or the two openings are
themselves a collision of the commitment hash.  Missing: the rest of the proof, see
`C54_proof_not_committed`. -/
theorem C54_keygen_binding_partial {m1 : KeyGenFirstMsg} {w w' : CommWitness}
    (h : verify_commitments_and_dlog_proof m1 ⟨w⟩ = .ok ())
    (h' : verify_commitments_and_dlog_proof m1 ⟨w'⟩ = .ok ()) :
    (w.public_share = w'.public_share ∧
      w.d_log_proof.pk_t_rand_commitment = w'.d_log_proof.pk_t_rand_commitment ∧
      w.pk_commitment_blind_factor = w'.pk_commitment_blind_factor ∧
      w.zk_pok_blind_factor = w'.zk_pok_blind_factor) ∨
    CollideAt hashCom (ser w.public_share) w.pk_commitment_blind_factor
      (ser w'.public_share) w'.pk_commitment_blind_factor ∨
    CollideAt hashCom (ser w.d_log_proof.pk_t_rand_commitment) w.zk_pok_blind_factor
      (ser w'.d_log_proof.pk_t_rand_commitment) w'.zk_pok_blind_factor := by
  obtain ⟨a1, a2, -⟩ := (C54_keygen_accepts_iff m1 w).1 h
  obtain ⟨c1, c2, -⟩ := (C54_keygen_accepts_iff m1 w').1 h'
  by_cases e1 : (ser w.public_share, w.pk_commitment_blind_factor) =
      (ser w'.public_share, w'.pk_commitment_blind_factor)
  · by_cases e2 : (ser w.d_log_proof.pk_t_rand_commitment, w.zk_pok_blind_factor) =
        (ser w'.d_log_proof.pk_t_rand_commitment, w'.zk_pok_blind_factor)
    · left
      simp only [Prod.mk.injEq] at e1 e2
      exact ⟨ser_inj e1.1, ser_inj e2.1, e1.2, e2.2⟩
    · exact Or.inr (Or.inr ⟨e2, a2.symm.trans c2⟩)
  · exact Or.inr (Or.inl ⟨e1, a1.symm.trans c1⟩)

/-- **C54 fails** for the proof, and the proof is not tied to the share: for every point `P`, whatever
its discrete log, and every two secrets there is a first message with two accepted openings that show
`P` together with proofs for the two secrets. -/
theorem C54_proof_not_committed (P : Pt) (sk sk' t : Sc) (b1 b2 : ℤ) :
    let m1 : KeyGenFirstMsg := ⟨hashCom (ser P) b1, hashCom (ser (t • G)) b2⟩
    verify_commitments_and_dlog_proof m1 ⟨⟨b1, b2, P, DLogProof.prove sk t⟩⟩ = .ok () ∧
    verify_commitments_and_dlog_proof m1 ⟨⟨b1, b2, P, DLogProof.prove sk' t⟩⟩ = .ok () ∧
    (sk ≠ sk' → DLogProof.prove sk t ≠ DLogProof.prove sk' t) := by
  refine ⟨(C54_keygen_accepts_iff _ _).2 ⟨rfl, rfl, DLogProof.verify_prove _ _⟩,
    (C54_keygen_accepts_iff _ _).2 ⟨rfl, rfl, DLogProof.verify_prove _ _⟩, ?_⟩
  intro hne h
  exact hne (smul_G_inj.1 (congrArg DLogProof.pk h))

/-- Party one's check of party two's first message does not look at the public share: a message with
any point and a proof for an unrelated secret is accepted, and the public key party one then computes
is a multiple of that point. -/
theorem C54_party_two_share_unproved (P : Pt) (sk t : Sc) (w : CommWitness) (s1 : Party1Private) :
    let m : Party2KeyGenFirstMsg := ⟨DLogProof.prove sk t, P⟩
    verify_and_decommit w m.d_log_proof = .ok ⟨w⟩ ∧ compute_pubkey s1 m.public_share = s1.x1 • P :=
  ⟨if_pos (DLogProof.verify_prove sk t), rfl⟩

/-- Exactly which openings of party two's nonce commitment party one accepts. -/
theorem C54_nonce_accepts_iff (m1 : KeyGenFirstMsg) (w : EphCommWitness) :
    eph_verify_commitments_and_dlog_proof m1 ⟨w⟩ = .ok () ↔
      m1.pk_commitment = hashCom (ser w.public_share) w.pk_commitment_blind_factor ∧
      m1.zk_pok_commitment =
        hashCom (hashPtsInt [w.d_log_proof.a1, w.d_log_proof.a2]) w.zk_pok_blind_factor ∧
      w.d_log_proof.verify ⟨G, w.public_share, H, w.c⟩ = true := by
  unfold eph_verify_commitments_and_dlog_proof
  by_cases h1 : m1.pk_commitment = hashCom (ser w.public_share) w.pk_commitment_blind_factor <;>
  by_cases h2 : m1.zk_pok_commitment =
    hashCom (hashPtsInt [w.d_log_proof.a1, w.d_log_proof.a2]) w.zk_pok_blind_factor <;>
  by_cases h3 : w.d_log_proof.verify ⟨G, w.public_share, H, w.c⟩ = true <;> simp_all

/-- **C54** (nonce exchange).  Two accepted openings of one nonce commitment have the same public
share; if they also show the same second point `c` (which is not committed to) they are identical; or
the two openings are themselves a collision of the commitment hash or of the point hash. -/
theorem C54_nonce_binding {m1 : KeyGenFirstMsg} {w w' : EphCommWitness}
    (h : eph_verify_commitments_and_dlog_proof m1 ⟨w⟩ = .ok ())
    (h' : eph_verify_commitments_and_dlog_proof m1 ⟨w'⟩ = .ok ()) :
    (w.public_share = w'.public_share ∧ w.d_log_proof.a1 = w'.d_log_proof.a1 ∧
      w.d_log_proof.a2 = w'.d_log_proof.a2 ∧ (w.c = w'.c → w = w')) ∨
    CollideAt hashCom (ser w.public_share) w.pk_commitment_blind_factor
      (ser w'.public_share) w'.pk_commitment_blind_factor ∨
    CollideAt hashCom (hashPtsInt [w.d_log_proof.a1, w.d_log_proof.a2]) w.zk_pok_blind_factor
      (hashPtsInt [w'.d_log_proof.a1, w'.d_log_proof.a2]) w'.zk_pok_blind_factor ∨
    ([w.d_log_proof.a1, w.d_log_proof.a2] ≠ [w'.d_log_proof.a1, w'.d_log_proof.a2] ∧
      hashPtsInt [w.d_log_proof.a1, w.d_log_proof.a2] = hashPtsInt [w'.d_log_proof.a1, w'.d_log_proof.a2]) := by
  obtain ⟨a1, a2, a3⟩ := (C54_nonce_accepts_iff m1 w).1 h
  obtain ⟨c1, c2, c3⟩ := (C54_nonce_accepts_iff m1 w').1 h'
  by_cases e1 : (ser w.public_share, w.pk_commitment_blind_factor) =
      (ser w'.public_share, w'.pk_commitment_blind_factor)
  swap
  · exact Or.inr (Or.inl ⟨e1, a1.symm.trans c1⟩)
  by_cases e2 : (hashPtsInt [w.d_log_proof.a1, w.d_log_proof.a2], w.zk_pok_blind_factor) =
      (hashPtsInt [w'.d_log_proof.a1, w'.d_log_proof.a2], w'.zk_pok_blind_factor)
  swap
  · exact Or.inr (Or.inr (Or.inl ⟨e2, a2.symm.trans c2⟩))
  by_cases e3 : [w.d_log_proof.a1, w.d_log_proof.a2] = [w'.d_log_proof.a1, w'.d_log_proof.a2]
  swap
  · exact Or.inr (Or.inr (Or.inr ⟨e3, (Prod.mk.inj e2).1⟩))
  left
  obtain ⟨w1, w2, w3, ⟨p1, p2, p3⟩, w4⟩ := w
  obtain ⟨v1, v2, v3, ⟨r1, r2, r3⟩, v4⟩ := w'
  simp only [List.cons.injEq, and_true] at e3
  obtain ⟨rfl, rfl⟩ := e3
  simp only [Prod.mk.injEq] at e1 e2
  obtain ⟨hs, rfl⟩ := e1
  obtain rfl : w3 = v3 := ser_inj hs
  obtain ⟨-, rfl⟩ := e2
  refine ⟨rfl, rfl, rfl, ?_⟩
  intro hcc
  obtain rfl : w4 = v4 := hcc
  have b1 := ((ECDDHProof.verify_iff _ _).1 a3).1
  have b2 := ((ECDDHProof.verify_iff _ _).1 c3).1
  obtain rfl : p3 = r3 := smul_G_inj.1 (b1.trans b2.symm)
  rfl

/-! ### C55: refresh -/

/-- **C55** (public key).  Multiplying party one's share by `f` and party two's by `g` multiplies the
public key by `f g`; a non-zero public key is kept exactly when `f g = 1` modulo `q`. -/
theorem C55_refresh {dk dk' : DecKey} {r r' : ℤ} (x1 x2 : Sc) (f g : ℤ) {a : PdlSetup}
    (hn : 0 < dk'.n) (hr : Int.gcd r' dk'.n = 1) (ha : GoodSetup a) :
    let s1 : Party1Private := ⟨x1, dk, r⟩
    let s2 : Party2Private := ⟨x2⟩
    ∃ out, s1.refresh_private_key f dk' r' a = some out ∧
      let s1' := out.party_one_private_new
      let s2' := s2.update_private_key g
      s1'.x1 = (f : Sc) * x1 ∧ s1'.paillier_priv = dk' ∧ out.ek_new = dk'.n ∧
      out.c_key_new = Paillier.encrypt dk'.n s1'.x1.val r' ∧
      compute_pubkey s1' (s2'.x2 • G) = ((f * g : ℤ) : Sc) • compute_pubkey s1 (s2.x2 • G) ∧
      (x1 ≠ 0 → x2 ≠ 0 → (compute_pubkey s1' (s2'.x2 • G) = compute_pubkey s1 (s2.x2 • G) ↔
        f * g ≡ 1 [ZMOD q])) := by
  intro s1 s2
  obtain ⟨st, pf, cd, hp, -⟩ := pdl_honest (x1 := x1 * (f : Sc)) (a := a) hn hr ha
  refine ⟨_, by
    unfold Party1Private.refresh_private_key
    dsimp only
    rw [hp]
    rfl, mul_comm _ _, rfl, rfl, rfl, ?_, ?_⟩
  · show (x1 * (f : Sc)) • (x2 * (g : Sc)) • (G : Pt) = ((f * g : ℤ) : Sc) • x1 • x2 • G
    simp only [← mul_smul]
    congr 1
    push_cast
    ring
  · intro h1 h2
    show (x1 * (f : Sc)) • (x2 * (g : Sc)) • (G : Pt) = x1 • x2 • G ↔ _
    rw [← mul_smul, ← mul_smul, smul_G_inj]
    have : f * g ≡ 1 [ZMOD q] ↔ ((f : Sc) * (g : Sc)) = 1 := by
      rw [← ZMod.intCast_eq_intCast_iff]; push_cast; rfl
    rw [this]
    constructor
    · intro h
      have h3 : x1 * x2 * ((f : Sc) * (g : Sc)) = x1 * x2 * 1 := by linear_combination h
      exact mul_left_cancel₀ (mul_ne_zero h1 h2) h3
    · intro h
      linear_combination (x1 * x2) * h

/-- **C55** (after a refresh): party two accepts the refreshed key and ciphertext for the refreshed
public share, and the refreshed keys are exactly those of a key generation with the shares `f x1` and
`g x2`; so `C53_sign` applies to them and signing is valid under the refreshed public key. -/
theorem C55_refresh_then_sign {dk dk' : DecKey} {r r' : ℤ} (x1 x2 : Sc) (f g : ℤ) {a : PdlSetup}
    (hv : dk'.Valid) (hl : dk'.Large) (hbits : 2047 ≤ bitLength dk'.n) (hr : Int.gcd r' dk'.n = 1) (ha : GoodSetup a) :
    let s1 : Party1Private := ⟨x1, dk, r⟩
    let s2 : Party2Private := ⟨x2⟩
    let y1 := (f : Sc) * x1
    let y2 := (g : Sc) * x2
    let key := PaillierKeyPair.generate dk' ⟨y1 • G, y1⟩ r'
    ∃ out, s1.refresh_private_key f dk' r' a = some out ∧
      PaillierPublic.verify_ni_proof_correct_key out.correct_key_proof_new out.ek_new = .ok () ∧
      PaillierPublic.pdl_verify out.composite_dlog_proof out.pdl_statement out.pdl_proof
        ⟨out.ek_new, out.c_key_new⟩ (y1 • G) = .ok () ∧
      out.ek_new = key.ek ∧ out.c_key_new = key.encrypted_share ∧
      out.party_one_private_new = Party1Private.set_private_key ⟨y1 • G, y1⟩ key ∧
      s2.update_private_key g = Party2Private.set_private_key ⟨y2 • G, y2⟩ := by
  intro s1 s2 y1 y2 key
  have hn : 0 < dk'.n := Nat.mul_pos hv.p_prime.pos hv.q_prime.pos
  obtain ⟨st, pf, cd, hp, hver⟩ := pdl_honest (x1 := x1 * (f : Sc)) (a := a) hn hr ha
  have hy : x1 * (f : Sc) = y1 := mul_comm _ _
  refine ⟨_, by
    unfold Party1Private.refresh_private_key
    dsimp only
    rw [hp]
    rfl, ?_, ?_, rfl, ?_, ?_, ?_⟩
  · show (if bitLength dk'.n < PAILLIER_KEY_SIZE - 1 then _ else _) = _
    rw [if_neg (by unfold PAILLIER_KEY_SIZE; omega)]
    show (match ckVerify (ckProve dk') dk'.n with | none => _ | some true => _ | some false => _) = _
    rw [ck_complete dk' hv hl]
  · rw [hy] at hver; dsimp only; rw [hy]; exact hver
  · dsimp only; rw [hy]; rfl
  · dsimp only; rw [hy]; rfl
  · show (⟨x2 * (g : Sc)⟩ : Party2Private) = ⟨(g : Sc) * x2⟩
    rw [mul_comm]

/-! ### C56: what party two's check of the encrypted share means -/

/-- Exactly when party two accepts. -/
theorem C56_accepts_iff (cd : CDProof) (st : PDLwSlackStatement) (pf : PDLwSlackProof)
    (pub : PaillierPublic) (q1 : Pt) :
    PaillierPublic.pdl_verify cd st pf pub q1 = .ok () ↔
      st.ek = pub.ek ∧ st.ciphertext = pub.encrypted_secret_share ∧ st.Q = q1 ∧
      cdVerify cd ⟨st.N_tilde, st.h1, st.h2⟩ = some true ∧ pf.verify st = some true := by
  unfold PaillierPublic.pdl_verify
  by_cases h : st.ek ≠ pub.ek ∨ st.ciphertext ≠ pub.encrypted_secret_share ∨ st.Q ≠ q1
  · rw [if_pos h]
    constructor
    · intro h'; cases h'
    · rintro ⟨h1, h2, h3, -⟩; rcases h with h | h | h <;> exact absurd (by assumption) h
  · rw [if_neg h]
    push Not at h
    obtain ⟨h1, h2, h3⟩ := h
    rw [← andOpt_eq_true]
    dsimp only
    cases hc : andOpt (cdVerify cd ⟨st.N_tilde, st.h1, st.h2⟩) (pf.verify st) with
    | none => simp
    | some b => cases b <;> simp [h1, h2, h3]

/-- **C56 (partial)**: party two accepts only a statement about exactly the key, the ciphertext and the
public share it holds, with both proofs verifying.  Missing: the base point of the statement, see
`C56_base_unchecked`. -/
theorem C56_accepted_partial {cd : CDProof} {st : PDLwSlackStatement} {pf : PDLwSlackProof}
    {pub : PaillierPublic} {q1 : Pt} (h : PaillierPublic.pdl_verify cd st pf pub q1 = .ok ()) :
    st.ek = pub.ek ∧ st.ciphertext = pub.encrypted_secret_share ∧ st.Q = q1 ∧
      cdVerify cd ⟨st.N_tilde, st.h1, st.h2⟩ = some true ∧ pf.verify st = some true :=
  (C56_accepts_iff cd st pf pub q1).1 h

/-- **C56 fails**: the base point is not checked.  For every public share `q1 ≠ 0`, whatever its
discrete log, and every non-zero `x`, honest encryption and *honest proof algorithm*, the statement with
base `x⁻¹ q1` shows the ciphertext of `x` accepted for `q1`: the ciphertext is not tied to the discrete
log of `q1`. -/
theorem C56_base_unchecked {q1 : Pt} {x : Sc} (hx : x ≠ 0) {N : ℕ} (hN : 0 < N) {r : ℤ}
    (hr : Int.gcd r N = 1) {Nt h1 h2 : ℤ}
    (haux : 0 < Nt ∧ Int.gcd h1 Nt = 1 ∧ Int.gcd h2 Nt = 1) {cd : CDProof}
    (hcd : cdVerify cd ⟨Nt, h1, h2⟩ = some true) (rnd : PdlRand) :
    let c := Paillier.encrypt N x.val r
    let st : PDLwSlackStatement :=
      { ciphertext := c, ek := N, Q := q1, G := x⁻¹ • q1, h1 := h1, h2 := h2, N_tilde := Nt }
    ∃ pf, PDLwSlackProof.prove ⟨x, r⟩ st rnd = some pf ∧
      PaillierPublic.pdl_verify cd st pf ⟨N, c⟩ q1 = .ok () := by
  intro c st
  obtain ⟨pf, hpf, hver⟩ := C32_honest (w := ⟨x, r⟩) (st := st) (rnd := rnd) haux hN
    (by show q1 = x • x⁻¹ • q1; rw [← mul_smul, mul_inv_cancel₀ hx, one_smul]) hr rfl
  exact ⟨pf, hpf, (C56_accepts_iff ..).2 ⟨rfl, rfl, rfl, hcd, hver⟩⟩

/-- A malformed proof makes party two's check panic: a `z` that is not invertible modulo `N~`. -/
theorem C56_panics {cd : CDProof} {st : PDLwSlackStatement} {pf : PDLwSlackProof}
    {pub : PaillierPublic} {q1 : Pt} (h1 : st.ek = pub.ek)
    (h2 : st.ciphertext = pub.encrypted_secret_share) (h3 : st.Q = q1)
    (hcd : cdVerify cd ⟨st.N_tilde, st.h1, st.h2⟩ = some true) (hpos : 0 < st.N_tilde)
    (hz : Int.gcd pf.z st.N_tilde ≠ 1)
    (he : hashInts [ser st.G, ser st.Q, st.ciphertext, pf.z, ser pf.u1, pf.u2, pf.u3] ≠ 0) :
    PaillierPublic.pdl_verify cd st pf pub q1 = .panic := by
  unfold PaillierPublic.pdl_verify
  rw [if_neg (by simp [h1, h2, h3])]
  dsimp only
  rw [hcd, C33_verify_panics hpos hz he]
  rfl

/-- **C79**: party two accepts exactly the Paillier keys of at least 2047 bits with a verifying proof; it
panics exactly if the key is of that size and the verification of the proof panics. -/
theorem C79_key_check (proof : CKProof) (ek : ℕ) :
    (PaillierPublic.verify_ni_proof_correct_key proof ek = .ok () ↔
      2 ^ 2046 ≤ ek ∧ ckVerify proof ek = some true) ∧
    (PaillierPublic.verify_ni_proof_correct_key proof ek = .err .incorrectProof ↔
      ¬ 2 ^ 2046 ≤ ek ∨ ckVerify proof ek = some false) ∧
    (PaillierPublic.verify_ni_proof_correct_key proof ek = .panic ↔
      2 ^ 2046 ≤ ek ∧ ckVerify proof ek = none) := by
  have hsz : bitLength (ek : ℤ) < PAILLIER_KEY_SIZE - 1 ↔ ¬ 2 ^ 2046 ≤ ek := by
    rw [Nat.not_le, bitLength, Int.natAbs_natCast, ← Nat.size_le]
    exact Nat.lt_succ_iff
  unfold PaillierPublic.verify_ni_proof_correct_key
  by_cases h1 : 2 ^ 2046 ≤ ek
  · rw [if_neg (by rw [hsz]; exact not_not.2 h1)]
    generalize (2 ^ 2046 ≤ ek) = A at h1 ⊢
    cases ckVerify proof ek with
    | none => simp [h1]
    | some b => cases b <;> simp [h1]
  · rw [if_pos (hsz.2 h1)]
    generalize (2 ^ 2046 ≤ ek) = A at h1 ⊢
    simp [h1]

/-! ### C72: panics -/

/-- **C72** (party two): the partial signature computation panics exactly when party one's nonce point
is the identity (party two's own nonce is never zero). -/
theorem C72_party_two_panics_iff (ek : ℕ) (c : ℤ) (s2 : Party2Private) (e2 : EcKeyPair)
    (hk : e2.secret_share ≠ 0) (R1 : Pt) (m rho r : ℤ) :
    PartialSig.compute ek c s2 e2 R1 m rho r = .panic ↔ R1 = 0 := by
  constructor
  · intro h
    by_contra hR
    have hne : e2.secret_share • R1 ≠ 0 := by
      rw [ne_eq, smul_eq_zero_iff]; simp [hk, hR]
    obtain ⟨x, y, hc⟩ := exists_coords hne
    obtain ⟨i, hi, -⟩ := modInv_sc hk
    unfold PartialSig.compute at h
    dsimp only at h
    rw [show xc (e2.secret_share • R1) = some x by simp [xc, hc], hi] at h
    cases h
  · rintro rfl
    unfold PartialSig.compute
    dsimp only
    rw [smul_zero, xc_zero]
    rfl

/-- **C72** (party one): computing the signature panics exactly when party two's nonce point is the
identity, whatever the partial signature is. -/
theorem C72_party_one_panics_iff {s1 : Party1Private} (hv : s1.paillier_priv.Valid) (c3 : ℤ)
    (e1 : EcKeyPair) (hk : e1.secret_share ≠ 0) (R2 : Pt) :
    Signature.compute s1 c3 e1 R2 = .panic ↔ R2 = 0 := by
  constructor
  · intro h
    by_contra hR
    have hne : e1.secret_share • R2 ≠ 0 := by
      rw [ne_eq, smul_eq_zero_iff]; simp [hk, hR]
    obtain ⟨x, y, hc⟩ := exists_coords hne
    obtain ⟨pt, hd⟩ := Paillier.decrypt_isSome hv c3
    rw [compute_spec (x := x) (by simp [xc, hc]) hk hd] at h
    cases h
  · rintro rfl
    unfold Signature.compute
    dsimp only
    rw [smul_zero, xc_zero]
    rfl

/-- **C72 fails**: both checks of the nonce exchange accept the identity as the peer's nonce point, with
an honestly generated proof for the nonce zero; then the computations above panic. -/
theorem C72_zero_nonce_accepted (b1 b2 : ℤ) (s : Sc) (w : EphCommWitness) :
    let o1 := eph_create 0 s
    let o2 := eph_create_commitments 0 s b1 b2
    o1.1.public_share = 0 ∧ eph_verify_and_decommit w o1.1 = .ok ⟨w⟩ ∧
    o2.2.1.public_share = 0 ∧ eph_verify_commitments_and_dlog_proof o2.1 ⟨o2.2.1⟩ = .ok () :=
  ⟨zero_smul _ _, if_pos (ECDDHProof.verify_prove 0 _ s rfl rfl), zero_smul _ _,
    (C53_nonces 0 0 s s b1 b2).2.1⟩

/-! ### C73: party one does not check what it outputs -/

/-- **C73** (what party one outputs): for every ciphertext with plaintext `pt`, party one outputs the
low representative of `± pt / k1` without any check; so it satisfies the ECDSA equation exactly if
`pt / k1` does. -/
theorem C73_output {s1 : Party1Private} {c3 pt : ℤ} (hd : Paillier.decrypt s1.paillier_priv c3 = some pt)
    {e1 : EcKeyPair} (hk : e1.secret_share ≠ 0) {R2 : Pt} {x y : ℕ}
    (hc : coords (e1.secret_share • R2) = some (x, y)) (Y : Pt) (m : ℤ) :
    ∃ sig, Signature.compute s1 c3 e1 R2 = .ok sig ∧ sig.r = (x : ℤ) % q ∧
      (EcdsaEq Y m (sig.r : Sc) (sig.s : Sc) ↔
        EcdsaEq Y m (x : Sc) ((pt : Sc) / e1.secret_share)) := by
  refine ⟨_, compute_spec (by simp [xc, hc]) hk hd, rfl, ?_⟩
  show EcdsaEq Y m (((x : ℤ) % q : ℤ) : Sc)
    ((((normS ((pt : Sc) * e1.secret_share⁻¹)).val : ℕ) : ℤ) : Sc) ↔ _
  rw [val_cast, castMod, Int.cast_natCast, ecdsaEq_normS, div_eq_mul_inv]

/-- **C73 fails**: a partial signature is a parity oracle for party one's share.  From the encrypted
share party two can compute a ciphertext for which party one outputs exactly the honest signature if
`x1` is even; if `x1` is odd the result is different from it, for every modulus that `q` does not
divide (unless `4 s' + N = 0` modulo `q` for the honest plaintext `s'`). -/
theorem C73_parity_oracle {dk : DecKey} (hv : dk.Valid) (hodd : dk.n % 2 = 1)
    (hn : 4 * ((q : ℤ) ^ 3 + (q : ℤ) ^ 2) ≤ dk.n) (hqn : ¬ q ∣ dk.n)
    (x1 x2 k1 k2 : Sc) (hk1 : k1 ≠ 0) (hk2 : k2 ≠ 0) (m : ℤ) {rho rk r : ℤ}
    (h0 : 0 ≤ rho) (h1 : rho < (q : ℤ) ^ 2) (hrk : Int.gcd rk dk.n = 1) (hr : Int.gcd r dk.n = 1)
    {x : ℕ} (hx : xc ((k1 * k2) • (G : Pt)) = some x)
    (hno : 4 * (k2⁻¹ * ((m : Sc) + (x : Sc) * (x1 * x2))) + (dk.n : Sc) ≠ 0) :
    let c := Paillier.encrypt dk.n x1.val rk
    let s1 : Party1Private := ⟨x1, dk, rk⟩
    let e1 : EcKeyPair := ⟨k1 • G, k1⟩
    -- party two's computation: uses only the public ciphertext and its own secrets
    let v := (k2⁻¹ * ((x : Sc) * x2)).val
    let w := 2 * v + q
    let evil := Paillier.add dk.n (Paillier.mul dk.n c (w * ((dk.n + 1) / 2)))
      (Paillier.encrypt dk.n (rho * q + (k2⁻¹ * (m : Sc)).val) r)
    ∃ honest sig sig',
      PartialSig.compute dk.n c ⟨x2⟩ ⟨k2 • G, k2⟩ (k1 • G) m rho r = .ok honest ∧
      Signature.compute s1 honest e1 (k2 • G) = .ok sig ∧
      Signature.compute s1 evil e1 (k2 • G) = .ok sig' ∧
      (sig' = sig ↔ x1.val % 2 = 0) := by
  intro c s1 e1 v w evil
  have hx2 : xc (k2 • (k1 • (G : Pt))) = some x := by rw [← mul_smul, mul_comm]; exact hx
  have hx1 : xc (k1 • (k2 • (G : Pt))) = some x := by rw [← mul_smul]; exact hx
  have hcenc := Paillier.isEnc_encrypt dk.n x1.val rk
  obtain ⟨honest, hhon, henc⟩ := partial_spec (ek := dk.n) (c := c) (s2 := ⟨x2⟩)
    (e2 := ⟨k2 • G, k2⟩) (R1 := k1 • G) (m := m) (rho := rho) (r := r) hx2 hk2 hcenc
  have hq2 : (0 : ℤ) < (q : ℤ) ^ 2 := by have := q_pos; positivity
  have hq3 : (0 : ℤ) < (q : ℤ) ^ 3 := by have := q_pos; positivity
  obtain ⟨hl0, hl1⟩ := honest_lt (k2 := k2) (x1 := x1) (x2 := x2) (m := m) (x := x) (n := dk.n) h0 h1
    (by linarith)
  have hd : Paillier.decrypt dk honest =
      some (vPart k2 x2 x * (x1.val : ℤ) + (rho * q + uPart k2 m)) := by
    rw [← Int.emod_eq_of_lt hl0 hl1]; exact Paillier.decrypt_spec hv henc (gcd_pow_mul _ hrk hr)
  have hsig := compute_spec (s1 := s1) (c3 := honest) (e1 := e1) (R2 := k2 • G) hx1 hk1 hd
  have hevil : Paillier.IsEnc dk.n evil
      ((w * ((dk.n + 1) / 2) : ℕ) * (x1.val : ℤ) + (rho * q + uPart k2 m))
      (rk ^ (w * ((dk.n + 1) / 2)) * r) :=
    (hcenc.mul _).add (Paillier.isEnc_encrypt dk.n _ _)
  have hd2 := Paillier.decrypt_spec hv hevil (gcd_pow_mul _ hrk hr)
  obtain ⟨half, hhalf⟩ : ∃ half, dk.n = 2 * half + 1 := ⟨dk.n / 2, by omega⟩
  rw [show (dk.n + 1) / 2 = half + 1 by omega] at hd2
  have hq1 := q_one_lt
  have hqodd := q_odd
  have hQ : 3 ≤ q := by omega
  have hvlt : v < q := ZMod.val_lt _
  have hult : uPart k2 m < q := ZMod.val_lt _
  have hxlt : x1.val < q := ZMod.val_lt _
  have hS : ((vPart k2 x2 x * (x1.val : ℤ) + (rho * q + uPart k2 m) : ℤ) : Sc) =
      k2⁻¹ * ((m : Sc) + (x : Sc) * (x1 * x2)) := by
    have := honest_s (k1 := 1) (k2 := k2) (x1 := x1) (x2 := x2) (m := m) (rho := rho) (x := x)
    rw [inv_one, mul_one, one_mul] at this
    exact this
  have hsig2 := compute_spec (s1 := s1) (c3 := evil) (e1 := e1) (R2 := k2 • G) hx1 hk1 hd2
  refine ⟨honest, _, _, hhon, hsig, hsig2, ?_⟩
  have hvw : vPart k2 x2 x = v := rfl
  rw [hvw] at hS ⊢
  change _ ∣ _ → False at hqn
  rcases Nat.mod_two_eq_zero_or_one x1.val with hpar | hpar
  · -- even share
    obtain ⟨a, hxa⟩ : ∃ a, x1.val = 2 * a := ⟨x1.val / 2, by omega⟩
    refine iff_of_true ?_ hpar
    have hred := parity_even (rho := rho) hQ hhalf hvlt hxlt hult h0 h1 hn hxa
    have : (((((2 * v + q) * (half + 1) : ℕ) : ℤ) * (x1.val : ℤ) + (rho * q + uPart k2 m)) % dk.n : ℤ) =
        (v * (x1.val : ℤ) + (rho * q + uPart k2 m)) + q * a := by
      rw [hred, hxa]; push_cast; ring
    rw [show w = 2 * v + q from rfl, this]
    push_cast
    simp only [CharP.cast_eq_zero, zero_mul, add_zero]
  · -- odd share
    obtain ⟨a, hxa⟩ : ∃ a, x1.val = 2 * a + 1 := ⟨x1.val / 2, by omega⟩
    refine iff_of_false ?_ (by omega)
    have hred := parity_odd (rho := rho) hQ hqodd hhalf hvlt hxlt hult h0 h1 hn hxa
    intro heq
    rw [show w = 2 * v + q from rfl] at heq
    generalize ((((2 * v + q) * (half + 1) : ℕ) : ℤ) * (x1.val : ℤ) + (rho * q + uPart k2 m)) % dk.n
      = P at hred heq
    have h2 := congrArg (Int.cast (R := Sc)) hred
    have hval : (normS ((P : Sc) * k1⁻¹)).val =
        (normS (((v * (x1.val : ℤ) + (rho * q + uPart k2 m) : ℤ) : Sc) * k1⁻¹)).val := by
      exact Int.ofNat.inj (congrArg Lindell17.Signature.s heq)
    rw [hS] at hval
    have h3 : 2 * (P : Sc) = 2 * (k2⁻¹ * ((m : Sc) + (x : Sc) * (x1 * x2))) + (dk.n : Sc) := by
      rw [← hS]
      push_cast at h2 ⊢
      simp only [CharP.cast_eq_zero, mul_zero, zero_add, add_zero] at h2 ⊢
      linear_combination h2
    rcases normS_eq_cases (ZMod.val_injective q hval) with e | e
    · have e1 := mul_right_cancel₀ (inv_ne_zero hk1) e
      rw [e1] at h3
      exact hqn ((ZMod.natCast_eq_zero_iff _ _).1 (by linear_combination -h3))
    · have e1 : (P : Sc) = -(k2⁻¹ * ((m : Sc) + (x : Sc) * (x1 * x2))) :=
        mul_right_cancel₀ (inv_ne_zero hk1) (by rw [e]; ring)
      rw [e1] at h3
      exact hno (by linear_combination -h3)

/-! ### C74: what a partial signature discloses -/

/-- **C74 (partial)**: for an honestly encrypted share the partial signature discloses nothing beyond
the final signature, up to the statistical slack of `rho`.  There is one offset `d < q`, not depending
on the samples, such that for all samples the partial signature *equals* a ciphertext computed from
`k1 s = (m + r x1 x2) / k2` alone, with `rho` shifted by `d` and the encryption randomness multiplied by
a constant.  Missing: dishonest ciphertexts, see `C74_share_extracted`. -/
theorem C74_simulated_partial {n : ℕ} (hn : 0 < n) (x1 x2 k2 : Sc) (hk2 : k2 ≠ 0) (R1 : Pt) (m rk : ℤ)
    {x : ℕ} (hx : xc (k2 • R1) = some x) :
    ∃ d : ℕ, d < q ∧ ∃ v : ℕ, ∀ rho r : ℤ, 0 ≤ rho →
      PartialSig.compute n (Paillier.encrypt n x1.val rk) ⟨x2⟩ ⟨k2 • G, k2⟩ R1 m rho r =
        .ok (Paillier.encrypt n ((rho + d) * q + (k2⁻¹ * ((m : Sc) + (x : Sc) * (x1 * x2))).val)
          (rk ^ v * r)) := by
  set u := uPart k2 m with hu
  set v := vPart k2 x2 x with hv
  have hult : u < q := ZMod.val_lt _
  have hvlt : v < q := ZMod.val_lt _
  have hxlt : x1.val < q := ZMod.val_lt _
  refine ⟨(v * x1.val + u) / q, ?_, v, ?_⟩
  · rw [Nat.div_lt_iff_lt_mul q_pos]
    have : v * x1.val ≤ (q - 1) * (q - 1) := Nat.mul_le_mul (by omega) (by omega)
    generalize v * x1.val = z at this ⊢
    obtain ⟨k, hk⟩ : ∃ k, q = k + 1 := ⟨q - 1, by omega⟩
    have e : (q - 1) * (q - 1) + q ≤ q * q := by rw [hk]; simp only [Nat.add_sub_cancel]; nlinarith
    omega
  · intro rho r hrho
    obtain ⟨c3, hc3, henc⟩ := partial_spec (ek := n) (s2 := ⟨x2⟩) (e2 := ⟨k2 • G, k2⟩) (R1 := R1)
      (m := m) (rho := rho) (r := r) hx hk2 (Paillier.isEnc_encrypt n x1.val rk)
    have hs : (k2⁻¹ * ((m : Sc) + (x : Sc) * (x1 * x2))).val = (v * x1.val + u) % q := by
      rw [← ZMod.val_natCast]
      congr 1
      rw [hu, hv]
      unfold uPart vPart
      push_cast
      simp only [ZMod.natCast_val, ZMod.cast_id', id_eq]
      ring
    have hpt : ((v : ℤ) * (x1.val : ℤ) + (rho * q + u)) =
        (rho + ((v * x1.val + u) / q : ℕ)) * q +
          (k2⁻¹ * ((m : Sc) + (x : Sc) * (x1 * x2))).val := by
      rw [hs]
      have := Nat.div_add_mod (v * x1.val + u) q
      have h2 : ((q * ((v * x1.val + u) / q) + (v * x1.val + u) % q : ℕ) : ℤ) =
          ((v * x1.val + u : ℕ) : ℤ) := by rw [this]
      push_cast at h2 ⊢
      linear_combination -h2
    rw [hc3]
    congr 1
    change Paillier.IsEnc n c3 ((v : ℤ) * (x1.val : ℤ) + (rho * q + u)) (rk ^ v * r) at henc
    rw [hpt] at henc
    have hr := Paillier.encrypt_range (n := n)
      (m := (rho + ((v * x1.val + u) / q : ℕ)) * q +
          (k2⁻¹ * ((m : Sc) + (x : Sc) * (x1 * x2))).val) (r := rk ^ v * r) hn (by positivity)
    have hnn : (0 : ℤ) < (n : ℤ) * n := by positivity
    have hc3r : 0 ≤ c3 ∧ c3 < (n : ℤ) * n := by
      obtain ⟨i, hi, -⟩ := modInv_sc hk2
      unfold PartialSig.compute at hc3
      dsimp only at hc3
      rw [hx, hi] at hc3
      cases hc3
      have e0 := (Paillier.encrypt_range (n := n) (m := rho * q + i * m % q) (r := r) hn
        (add_nonneg (by positivity) (Int.emod_nonneg _ (by have := q_pos; omega)))).1
      have e1 : 0 ≤ Paillier.mul n (Paillier.encrypt n x1.val rk)
          (i * ((x : ℤ) % q * x2.val % q) % (q : ℤ)).toNat := Int.emod_nonneg _ hnn.ne'
      show 0 ≤ Int.tmod _ ((n : ℤ) * n) ∧ Int.tmod _ ((n : ℤ) * n) < (n : ℤ) * n
      rw [Int.tmod_eq_emod_of_nonneg (mul_nonneg e1 e0)]
      exact ⟨Int.emod_nonneg _ hnn.ne', Int.emod_lt_of_pos _ hnn⟩
    exact henc.unique (Paillier.isEnc_encrypt _ _ _) hc3r.1 hc3r.2 hr.1 hr.2

/-- **C74 fails**: party one can learn party two's whole share from one partial signature.  It sends an
encryption of `q^3` instead of its share.  Party two's check accepts it with a forged proof for party
one's real public share (the key and its correctness proof are honest), and from the plaintext of the
partial signature party one computes `x2`, for every modulus of at least `q^4`, all shares and nonces,
all samples, and every message and nonce point that are non-zero modulo `q`. -/
theorem C74_share_extracted {dk : DecKey} (hv : dk.Valid) (hn : (q : ℤ) ^ 4 ≤ dk.n)
    (x1 x2 k2 : Sc) (hk2 : k2 ≠ 0) (R1 : Pt) {m rho rk r : ℤ} (hm : (m : Sc) ≠ 0)
    (h0 : 0 ≤ rho) (h1 : rho < (q : ℤ) ^ 2) (hrk : Int.gcd rk dk.n = 1) (hr : Int.gcd r dk.n = 1)
    {x : ℕ} (hx : xc (k2 • R1) = some x) (hx0 : (x : Sc) ≠ 0) {Nt g ni : ℤ}
    (haux : 0 < Nt ∧ Int.gcd g Nt = 1 ∧ Int.gcd ni Nt = 1) {cd : CDProof}
    (hcd : cdVerify cd ⟨Nt, g, ni⟩ = some true) :
    let c := Paillier.encrypt dk.n ((q : ℤ) ^ 3) rk
    let st : PDLwSlackStatement :=
      { ciphertext := c, ek := dk.n, Q := x1 • G, G := G, h1 := g, h2 := ni, N_tilde := Nt }
    (∃ pf, PaillierPublic.pdl_verify cd st pf ⟨dk.n, c⟩ (x1 • G) = .ok ()) ∧
    ∃ c3 pt, PartialSig.compute dk.n c ⟨x2⟩ ⟨k2 • G, k2⟩ R1 m rho r = .ok c3 ∧
      Paillier.decrypt dk c3 = some pt ∧
      x2 = ((pt / (q : ℤ) ^ 3 : ℤ) : Sc) * (m : Sc) / ((pt : Sc) * (x : Sc)) := by
  intro c st
  have hnpos : 0 < dk.n := Nat.mul_pos hv.p_prime.pos hv.q_prime.pos
  have hcenc : Paillier.IsEnc dk.n c ((q : ℤ) ^ 3) rk := Paillier.isEnc_encrypt dk.n _ rk
  constructor
  · obtain ⟨pf, -, -, hpf⟩ := C33_any_ciphertext_accepted (x := x1) (st := st) haux hnpos rfl
      (hcenc.coprime hrk)
    exact ⟨pf, (C56_accepts_iff ..).2 ⟨rfl, rfl, rfl, hcd, hpf⟩⟩
  · obtain ⟨c3, hc3, henc⟩ := partial_spec (ek := dk.n) (s2 := ⟨x2⟩) (e2 := ⟨k2 • G, k2⟩) (R1 := R1)
      (m := m) (rho := rho) (r := r) hx hk2 hcenc
    have hd := Paillier.decrypt_spec hv henc (gcd_pow_mul _ hrk hr)
    dsimp only at hd
    have hult : (uPart k2 m : ℤ) < q := by exact_mod_cast ZMod.val_lt (k2⁻¹ * (m : Sc))
    have hvlt : (vPart k2 x2 x : ℤ) < q := by exact_mod_cast ZMod.val_lt (k2⁻¹ * ((x : Sc) * x2))
    have hq0 : (0 : ℤ) < q := by exact_mod_cast q_pos
    have hlow : rho * q + uPart k2 m < (q : ℤ) ^ 3 := by
      have : rho * q ≤ ((q : ℤ) ^ 2 - 1) * q := mul_le_mul_of_nonneg_right (by omega) hq0.le
      have e : ((q : ℤ) ^ 2 - 1) * q = (q : ℤ) ^ 3 - q := by ring
      omega
    have hlow0 : 0 ≤ rho * q + (uPart k2 m : ℤ) := by positivity
    have hhigh : (vPart k2 x2 x : ℤ) * (q : ℤ) ^ 3 ≤ (q - 1) * (q : ℤ) ^ 3 :=
      mul_le_mul_of_nonneg_right (by omega) (by positivity)
    have hlt : (vPart k2 x2 x : ℤ) * (q : ℤ) ^ 3 + (rho * q + uPart k2 m) < dk.n := by
      have e : ((q : ℤ) - 1) * (q : ℤ) ^ 3 = (q : ℤ) ^ 4 - (q : ℤ) ^ 3 := by ring
      omega
    rw [Int.emod_eq_of_lt (by positivity) hlt] at hd
    refine ⟨c3, _, hc3, hd, ?_⟩
    have hdiv : ((vPart k2 x2 x : ℤ) * (q : ℤ) ^ 3 + (rho * q + uPart k2 m)) / (q : ℤ) ^ 3 =
        vPart k2 x2 x := by
      rw [add_comm, Int.add_mul_ediv_right _ _ (by positivity), Int.ediv_eq_zero_of_lt hlow0 hlow,
        zero_add]
    rw [hdiv]
    unfold uPart vPart
    push_cast
    simp only [ZMod.natCast_val, ZMod.cast_id', id_eq, CharP.cast_eq_zero, mul_zero, zero_add,
      ne_eq, OfNat.ofNat_ne_zero, not_false_eq_true, zero_pow]
    field_simp

/-! ### C75: from multiplicative to additive shares -/

/-- **C75 (partial)**: party two answers party one's encrypted share; party one accepts exactly when
`x1 x2 + beta_tag` is below the modulus (for a modulus of at least `q^2` not divisible by `q`), and then
the two outputs are additive shares of the secret key: `(alpha + beta) G` is the joint public key.
Missing: the honest answer is not always accepted. -/
theorem C75_additive_shares_partial {dk : DecKey} (hv : dk.Valid) (hq : (q : ℤ) ^ 2 ≤ dk.n)
    (hqn : ¬ q ∣ dk.n) (x1 x2 t_b t_beta : Sc) {rk r beta_tag : ℤ} (hrk : Int.gcd rk dk.n = 1)
    (hr : Int.gcd r dk.n = 1) (h0 : 0 ≤ beta_tag) (h1 : beta_tag < dk.n) :
    let key := PaillierKeyPair.generate dk ⟨x1 • G, x1⟩ rk
    let s1 := Party1Private.set_private_key ⟨x1 • G, x1⟩ key
    let s2 := Party2Private.set_private_key ⟨x2 • G, x2⟩
    ∃ m_b beta, s2.to_mta_message_b key.ek key.encrypted_share r beta_tag t_b t_beta = .ok (m_b, beta) ∧
      ((∃ alpha, s1.to_mta_message_b m_b = .ok alpha) ↔ (x1.val : ℤ) * x2.val + beta_tag < dk.n) ∧
      (∀ alpha, s1.to_mta_message_b m_b = .ok alpha →
        (alpha.1 + beta) • (G : Pt) = compute_pubkey s1 (x2 • G)) := by
  intro key s1 s2
  have hb : MessageB.b x2 dk.n ⟨Paillier.encrypt dk.n x1.val rk, []⟩ r beta_tag [] t_b t_beta = .ok _ :=
    MessageB.b_ok_iff.2 ⟨rfl, by simp, rfl⟩
  refine ⟨_, _, by
    unfold Party2Private.to_mta_message_b
    rw [show MessageB.b s2.x2 key.ek ⟨key.encrypted_share, []⟩ r beta_tag [] t_b t_beta = .ok _ from hb],
    ?_, ?_⟩
  · have := C26_accepts_iff hv hrk hr hq hqn h0 h1 rfl hb
    rw [← this]
    constructor
    · rintro ⟨⟨a, b⟩, h⟩; exact ⟨a, b, h⟩
    · rintro ⟨a, b, h⟩; exact ⟨⟨a, b⟩, h⟩
  · intro alpha h
    have hver := mta_verify_honest hv hrk hr hb (Paillier.isEnc_encrypt dk.n x1.val rk)
    have h' := hver.symm.trans h
    split_ifs at h' with hs
    cases h'
    show (_ + _) • (G : Pt) = x1 • x2 • G
    rw [← mul_smul, hs]
    congr 1
    ring

/-! ### C57: CCLST19 -/

/-- The output of an honest signing run: for the nonce `k` and the key `X`, the low representative of
`(m + x X) / k` and the x-coordinate of `k G` form a valid signature. -/
theorem honest_output_valid {k X : Sc} (hk : k ≠ 0) {x y : ℕ} (hc : coords (k • (G : Pt)) = some (x, y))
    (m : ℤ) (hne : (m : Sc) + (x : Sc) * X ≠ 0) :
    let s := k⁻¹ * ((m : Sc) + (x : Sc) * X)
    let sig : Lindell17.Signature := ⟨(normS s).val, (x : ℤ) % q⟩
    EcdsaEq (X • G) m (sig.r : Sc) (sig.s : Sc) ∧ LowS (sig.s : Sc) ∧
      (x < q → Lindell17.verify sig (X • G) m = .ok ()) := by
  intro s sig
  have hlow := normS_low s
  have hrc : (((x : ℤ) % q : ℤ) : Sc) = (x : Sc) := by rw [castMod, Int.cast_natCast]
  have hsc : ((((normS s).val : ℕ) : ℤ) : Sc) = normS s := val_cast _
  have hsne : s ≠ 0 := mul_ne_zero (inv_ne_zero hk) hne
  have hsign : s • (k • (G : Pt)) = (m : Sc) • G + (x : Sc) • X • G := by
    rw [← mul_smul, ← mul_smul, ← add_smul, mul_comm, mul_inv_cancel_left₀ hk]
  have heq : EcdsaEq (X • G) m (x : Sc) s := by
    refine ⟨hsne, x, y, ?_, rfl⟩
    have := vpoint_of_sign hsne hsign
    rw [show ((m : Sc) / s) • G + ((x : Sc) / s) • X • G = vpoint (X • G) m (x : Sc) s from rfl, this,
      hc]
  refine ⟨?_, ?_, ?_⟩
  · show EcdsaEq (X • G) m (((x : ℤ) % q : ℤ) : Sc) ((((normS s).val : ℕ) : ℤ) : Sc)
    rw [hrc, hsc]
    exact ecdsaEq_normS.2 heq
  · show LowS ((((normS s).val : ℕ) : ℤ) : Sc)
    rw [hsc]; exact hlow
  · intro hxq
    have hns := ecdsaEq_normS.2 heq
    have hxx : (x : ℤ) % q = ((x : Sc).val : ℤ) := by
      rw [ZMod.val_natCast]; push_cast; rfl
    show Lindell17.verify ⟨(normS s).val, (x : ℤ) % q⟩ (X • G) m = .ok ()
    rw [hxx]
    refine C05_l17_complete_partial (x : Sc) (normS s) (X • G) m hns hlow ?_
    intro x' y' hc'
    have hxc : xc (vpoint (X • G) m (x : Sc) (normS s)) = some x := by
      rcases normS_cases s with h | h
      · rw [h, vpoint_of_sign hsne hsign]; simp [xc, hc]
      · rw [h, vpoint_neg, xc_neg, vpoint_of_sign hsne hsign]; simp [xc, hc]
    rw [show ((m : Sc) / normS s) • G + ((x : Sc) / normS s) • X • G =
      vpoint (X • G) m (x : Sc) (normS s) from rfl] at hc'
    simp only [xc, hc', Option.map_some, Option.some.injEq] at hxc
    omega

variable [CL]

/-- **C57** (key generation): for all samples every check of an honest CCLST19 key generation passes and
both parties compute the same public key; party one's share is below `q / 3 + 1`. -/
theorem C57_keygen (secret x2 t1 t2 : Sc) (b1 b2 seed : ℤ) (rk re : ℕ) :
    let o1 := CCLST19.create_commitments secret t1 b1 b2
    let o2 := CCLST19.party2_create x2 t2
    let h := CCLST19.HSMCL.generate o1.2.2 seed rk re
    let s1 := CCLST19.Party1Private.set_private_key o1.2.2 h.1
    3 * o1.2.2.secret_share.val ≤ q ∧
    CCLST19.verify_and_decommit o1.2.1 o2.1.d_log_proof = .ok ⟨o1.2.1⟩ ∧
    CCLST19.verify_commitments_and_dlog_proof o1.1 ⟨o1.2.1⟩ = .ok () ∧
    CCLST19.Party2Public.verify_setup_and_zkcldl_proof h.2 seed o1.2.1.public_share =
      .ok ⟨h.1.cl_group, h.1.public_, h.1.encrypted_share⟩ ∧
    CCLST19.compute_pubkey s1 o2.1.public_share = (o1.2.2.secret_share * x2) • G ∧
    CCLST19.party2_compute_pubkey o2.2 o1.2.1.public_share = (o1.2.2.secret_share * x2) • G := by
  intro o1 o2 h s1
  refine ⟨?_, ?_, ?_, ?_, ?_, ?_⟩
  · have h1 : o1.2.2.secret_share = ((secret.val / 3 : ℕ) : Sc) := by
      show ((((secret.val : ℤ) / 3 : ℤ)) : Sc) = _
      exact_mod_cast rfl
    have h2 : secret.val < q := ZMod.val_lt secret
    rw [h1, ZMod.val_natCast, Nat.mod_eq_of_lt (by omega)]
    omega
  · exact if_pos (DLogProof.verify_prove x2 t2)
  · exact (C54_keygen_accepts_iff _ _).2 ⟨rfl, rfl, DLogProof.verify_prove _ _⟩
  · refine if_pos ?_
    rw [Bool.and_eq_true]
    exact ⟨CL.verify_complete _ _ _ _, CL.setup_complete seed⟩
  · exact (mul_smul _ x2 G).symm
  · rw [mul_comm]; exact (mul_smul x2 _ G).symm

omit [CL] in
/-- **C57** (nonce exchange): every check passes, both parties hold the nonce point `k1 k2 G`, and a key generation
with a given share passes party two's check. -/
theorem C57_nonces (x1 t1 k1 k2 n1 n2 : Sc) (b1 b2 : ℤ) :
    let o := CCLST19.create_commitments_with_fixed_secret_share x1 t1 b1 b2
    let o1 := CCLST19.eph_create k1 n1
    let o2 := CCLST19.eph_create_commitments k2 n2 b1 b2
    CCLST19.verify_commitments_and_dlog_proof o.1 ⟨o.2.1⟩ = .ok () ∧ o.2.2.secret_share = x1 ∧
    CCLST19.eph_verify_and_decommit o2.2.1 o1.1 = .ok ⟨o2.2.1⟩ ∧
    CCLST19.eph_verify_commitments_and_dlog_proof o2.1 ⟨o2.2.1⟩ = .ok () ∧
    o1.2.secret_share • o2.2.1.public_share = (k1 * k2) • G ∧
    o2.2.2.secret_share • o1.1.public_share = (k1 * k2) • G :=
  ⟨(C54_keygen_accepts_iff _ _).2 ⟨rfl, rfl, DLogProof.verify_prove _ _⟩, rfl, C53_nonces k1 k2 n1 n2 b1 b2⟩

/-- **C57** (signing): for every key, all shares, all non-zero nonces, all messages and all samples the
honest CCLST19 run outputs `r` and a low `s`; unless `m + r x1 x2 = 0` the signature satisfies the ECDSA
equation under the joint key and CCLST19's verification accepts it if the x-coordinate of the nonce
point is below `q`. -/
theorem C57_sign (x1 x2 k1 k2 n1 n2 : Sc) (hk1 : k1 ≠ 0) (hk2 : k2 ≠ 0) (m b1 b2 seed : ℤ)
    (rk re r : ℕ) :
    let h := CCLST19.HSMCL.generate ⟨x1 • G, x1⟩ seed rk re
    let s1 := CCLST19.Party1Private.set_private_key ⟨x1 • G, x1⟩ h.1
    let pub : CCLST19.Party2Public := ⟨h.1.cl_group, h.1.public_, h.1.encrypted_share⟩
    let s2 := Party2Private.set_private_key ⟨x2 • G, x2⟩
    let o1 := CCLST19.eph_create k1 n1
    let o2 := CCLST19.eph_create_commitments k2 n2 b1 b2
    let Y := CCLST19.compute_pubkey s1 (x2 • G)
    ∃ x y c3 sig, coords ((k1 * k2) • G) = some (x, y) ∧
      CCLST19.PartialSig.compute pub s2 o2.2.2 o1.1.public_share m r = .ok c3 ∧
      CCLST19.Signature.compute h.1 s1 c3 o1.2 o2.2.1.public_share = .ok sig ∧
      sig.r = (x : ℤ) % q ∧ 0 ≤ sig.s ∧ 2 * sig.s < q ∧
      ((m : Sc) + (x : Sc) * (x1 * x2) = 0 → sig.s = 0) ∧
      ((m : Sc) + (x : Sc) * (x1 * x2) ≠ 0 →
        EcdsaEq Y m (sig.r : Sc) (sig.s : Sc) ∧ LowS (sig.s : Sc) ∧
        (x < q → CCLST19.verify sig Y m = .ok ())) := by
  intro h s1 pub s2 o1 o2 Y
  have hR : (k1 * k2) • (G : Pt) ≠ 0 := by
    rw [ne_eq, smul_G_eq_zero]; exact mul_ne_zero hk1 hk2
  obtain ⟨x, y, hc⟩ := exists_coords hR
  have hx2 : xc (o2.2.2.secret_share • o1.1.public_share) = some x := by
    rw [(C53_nonces k1 k2 n1 n2 b1 b2).2.2.2]; simp [xc, hc]
  have hx1 : xc (o1.2.secret_share • o2.2.1.public_share) = some x := by
    rw [(C53_nonces k1 k2 n1 n2 b1 b2).2.2.1]; simp [xc, hc]
  obtain ⟨i2, hi2, hi2c, -⟩ := modInv_sc (k := o2.2.2.secret_share) hk2
  obtain ⟨i1, hi1, hi1c, -⟩ := modInv_sc (k := o1.2.secret_share) hk1
  set v : ℤ := i2 * (x2.val : ℤ) % q * ((x : ℤ) % q) % q with hv
  set c3 : CL.Ct := CL.eval_sum (CL.encrypt pub.group pub.ek ((i2 * m % q : ℤ) : Sc) r)
    (CL.eval_scal pub.encrypted_secret_share v) with hc3
  have hcomp : CCLST19.PartialSig.compute pub s2 o2.2.2 o1.1.public_share m r = .ok c3 := by
    unfold CCLST19.PartialSig.compute
    dsimp only
    rw [hx2, hi2]
    rfl
  have henc := CL.isEnc_sum pub.group pub.ek _ _ _ _
    (CL.isEnc_encrypt pub.group pub.ek ((i2 * m % q : ℤ) : Sc) r)
    (CL.isEnc_scal pub.group pub.ek _ _ v (CL.isEnc_verifiably h.1.cl_group h.1.public_ x1 re))
  have hdec : CL.decrypt h.1.cl_group s1.hsmcl_priv c3 = ((i2 * m % q : ℤ) : Sc) + (v : Sc) * x1 :=
    CL.decrypt_isEnc h.1.cl_group rk c3 _ henc
  set s : Sc := (k1 * k2)⁻¹ * ((m : Sc) + (x : Sc) * (x1 * x2)) with hs
  have hi2c' : (i2 : Sc) = k2⁻¹ := hi2c
  have hi1c' : (i1 : Sc) = k1⁻¹ := hi1c
  have hst : (i1 * ((CL.decrypt h.1.cl_group s1.hsmcl_priv c3).val : ℤ)) % (q : ℤ) = (s.val : ℤ) := by
    rw [emod_eq_val, hdec, Int.cast_mul, val_cast, hi1c', hv]
    congr 2
    have e2 : ((x2.val : ℕ) : Sc) = x2 := ZMod.natCast_zmod_val x2
    simp only [castMod, Int.cast_mul, Int.cast_natCast]
    rw [hi2c', hs, mul_inv, e2]
    ring
  have hsig : CCLST19.Signature.compute h.1 s1 c3 o1.2 o2.2.1.public_share =
      .ok ⟨(normS s).val, (x : ℤ) % q⟩ := by
    unfold CCLST19.Signature.compute
    dsimp only
    rw [hx1, hi1]
    show Res.ok _ = _
    rw [hst, min_eq_normS]
  have hodd := q_odd
  refine ⟨x, y, c3, _, hc, hcomp, hsig, rfl, Int.natCast_nonneg _, ?_, ?_, ?_⟩
  · show 2 * ((normS s).val : ℤ) < q
    have hl := normS_low s
    unfold LowS at hl
    omega
  · intro h0
    show ((normS s).val : ℤ) = 0
    have : s = 0 := by rw [hs, h0, mul_zero]
    rw [this]
    rcases normS_cases (0 : Sc) with h' | h' <;> rw [h'] <;> simp
  · intro hne
    have hY : Y = (x1 * x2) • G := (mul_smul x1 x2 G).symm
    obtain ⟨a1, a2, a3⟩ := honest_output_valid (mul_ne_zero hk1 hk2) hc m hne
    rw [hY]
    refine ⟨a1, a2, fun hlt => ?_⟩
    rw [(C06_cclst_verify _ _ m).1 a1.1]
    exact a3 hlt

/-- **C57** (party two's check of the encrypted share): accepted exactly if the group is the one of the
seed and the proof verifies for exactly the received key, ciphertext and public share. -/
theorem C57_accepts_iff (pub : CCLST19.HSMCLPublic) (seed : ℤ) (P : Pt) (out : CCLST19.Party2Public) :
    CCLST19.Party2Public.verify_setup_and_zkcldl_proof pub seed P = .ok out ↔
      CL.setup_verify pub.cl_group seed = true ∧
      CL.verify pub.proof pub.cl_group pub.cl_pub_key pub.encrypted_share P = true ∧
      out = ⟨pub.cl_group, pub.cl_pub_key, pub.encrypted_share⟩ := by
  unfold CCLST19.Party2Public.verify_setup_and_zkcldl_proof
  dsimp only
  cases CL.setup_verify pub.cl_group seed <;>
  cases CL.verify pub.proof pub.cl_group pub.cl_pub_key pub.encrypted_share P <;> simp [eq_comm]

end

/-! ### Non-vacuity -/

section Examples
attribute [local instance] Toy.crypto
attribute [local instance] CL.trivial
open Lindell17

/-- A Paillier key above `31^4`. -/
def toyKey2 : DecKey := ⟨1009, 1013⟩

theorem toyKey2_valid : toyKey2.Valid := by
  constructor <;> norm_num [toyKey2]

/-- An auxiliary setup above `2^128`. -/
def toySetup : PdlSetup := ⟨2 ^ 89 - 1, 2 ^ 107 - 1, 2, 7, 0, ⟨3, 5, 7, 11⟩⟩

theorem toySetup_good : GoodSetup toySetup := by
  unfold GoodSetup toySetup
  refine ⟨by norm_num, by norm_num, by norm_num, by decide +kernel, by norm_num⟩

-- a 2048-bit key meets the hypotheses of the share proofs
attribute [local irreducible] bigP bigQ in
/-- A key of 2048 bits with an honest proof is accepted, a small one is not. -/
example : PaillierPublic.verify_ni_proof_correct_key (ckProve ⟨bigP, bigQ⟩) (bigP * bigQ) = .ok () ∧
    PaillierPublic.verify_ni_proof_correct_key (ckProve toyKey) toyKey.n = .err .incorrectProof := by
  refine ⟨(C79_key_check _ _).1.2 ⟨?_, ?_⟩, (C79_key_check _ _).2.1.2 (.inl (by decide +kernel))⟩
  · rw [← Nat.lt_size, big_size]; norm_num
  · exact ck_complete _ ⟨bigP_prime, bigQ_prime, bigP_ne_bigQ, big_coprime⟩ big_large

attribute [local irreducible] bigP bigQ in
example (x1 t1 : ZMod 31) := C53_share_proofs x1 t1 3 5 (r := 1) (dk := ⟨bigP, bigQ⟩)
  ⟨bigP_prime, bigQ_prime, bigP_ne_bigQ, big_coprime⟩ big_large
  (by
    show 2047 ≤ (Int.natAbs ((bigP * bigQ : ℕ) : ℤ)).size
    rw [Int.natAbs_natCast, big_size]; norm_num)
  (by simp) toySetup_good

-- key `9 * 5`, nonce `5 * 5` with nonce point `(29, 12)`, message 10: a signature that verifies
attribute [local irreducible] Paillier.encrypt in
example : ∃ c3 sig,
    PartialSig.compute toyKey2.n (Paillier.encrypt toyKey2.n (9 : ZMod 31).val 5) ⟨(5 : ZMod 31)⟩
      ⟨(5 : ZMod 31), (5 : ZMod 31)⟩ (5 : ZMod 31) 10 900 9 = .ok c3 ∧
    Signature.compute ⟨(9 : ZMod 31), toyKey2, 5⟩ c3 ⟨(5 : ZMod 31), (5 : ZMod 31)⟩ (5 : ZMod 31) =
      .ok sig ∧ sig.r = 29 ∧ Lindell17.verify sig (14 : ZMod 31) 10 = .ok () := by
  obtain ⟨x, y, c3, sig, hc, h1, h2, h3, -, -, -, h4⟩ :=
    C53_sign toyKey2_valid (by decide) (9 : ZMod 31) (5 : ZMod 31) (5 : ZMod 31) (5 : ZMod 31)
      2 4 (by decide) (by decide) 10 (rho := 900) (rk := 5) (r := 9) 1 2 (by decide) (by decide)
      (by decide) (by decide)
  obtain ⟨rfl, rfl⟩ : x = 29 ∧ y = 12 := by
    have : coords (((5 : ZMod 31) * (5 : ZMod 31)) • (G : ZMod 31)) = some (29, 12) := by
      decide +kernel
    exact Prod.mk.inj (Option.some.inj (hc.symm.trans this))
  exact ⟨c3, sig, h1, h2, h3, (h4 (by decide)).2.2 (by decide)⟩

example := C53_recid toyKey2_valid (by decide) (by decide) (9 : ZMod 31) (5 : ZMod 31) (5 : ZMod 31)
  (5 : ZMod 31) 2 4 (by decide) (by decide) 10 (rho := 900) (rk := 5) (r := 9) 1 2 (by decide)
  (by decide) (by decide) (by decide) (x := 29) (y := 12) (by decide +kernel) (by decide) (by decide)

-- both ways to complete a signature panic on a nonce share of party one that is zero
example : Signature.compute (⟨(9 : ZMod 31), toyKey2, 5⟩ : Party1Private) 7 ⟨0, 0⟩ (25 : ZMod 31) = .panic ∧
    Signature.compute_with_recid (⟨(9 : ZMod 31), toyKey2, 5⟩ : Party1Private) 7 ⟨0, 0⟩ (25 : ZMod 31) = .panic := by
  decide +kernel

-- two accepted openings of one commitment
example := C54_keygen_binding_partial
  (m1 := ⟨hashCom (ser (9 : ZMod 31)) 3, hashCom (ser (4 : ZMod 31)) 5⟩)
  (w := ⟨3, 5, (9 : ZMod 31), DLogProof.prove (7 : ZMod 31) (4 : ZMod 31)⟩)
  (w' := ⟨3, 5, (9 : ZMod 31), DLogProof.prove (8 : ZMod 31) (4 : ZMod 31)⟩)
  (by decide +kernel) (by decide +kernel)

example := C54_nonce_binding (m1 := (eph_create_commitments (5 : ZMod 31) (4 : ZMod 31) 1 2).1)
  (w := (eph_create_commitments (5 : ZMod 31) (4 : ZMod 31) 1 2).2.1)
  (w' := (eph_create_commitments (5 : ZMod 31) (4 : ZMod 31) 1 2).2.1)
  (by decide +kernel) (by decide +kernel)

-- a refresh with `11 * 17 = 1` modulo 31 keeps the key
example : ∃ out, (⟨(9 : ZMod 31), toyKey2, 5⟩ : Party1Private).refresh_private_key 11 toyKey 7 toySetup =
      some out ∧
    compute_pubkey out.party_one_private_new
        (((⟨(5 : ZMod 31)⟩ : Party2Private).update_private_key 17).x2 • (G : ZMod 31)) =
      compute_pubkey ⟨(9 : ZMod 31), toyKey2, 5⟩ ((5 : ZMod 31) • (G : ZMod 31)) := by
  obtain ⟨out, h1, -, -, -, -, -, h2⟩ := C55_refresh (dk := toyKey2) (dk' := toyKey) (r := 5) (r' := 7)
    (9 : ZMod 31) (5 : ZMod 31) 11 17 (a := toySetup) (by decide) (by decide) toySetup_good
  exact ⟨out, h1, (h2 (by decide) (by decide)).2 (by decide)⟩

attribute [local irreducible] bigP bigQ in
example := C55_refresh_then_sign (dk := toyKey2) (r := 5) (9 : ZMod 31) (5 : ZMod 31) 11 17
  (dk' := ⟨bigP, bigQ⟩) (r' := 1) (a := toySetup)
  ⟨bigP_prime, bigQ_prime, bigP_ne_bigQ, big_coprime⟩ big_large
  (by
    show 2047 ≤ (Int.natAbs ((bigP * bigQ : ℕ) : ℤ)).size
    rw [Int.natAbs_natCast, big_size]; norm_num)
  (by simp) toySetup_good

-- an accepted statement, also with a base that is not the generator
example : ∃ st pf, PaillierPublic.pdl_verify true st pf
      ⟨toyKey2.n, Paillier.encrypt toyKey2.n (9 : ZMod 31).val 5⟩ (4 : ZMod 31) = .ok () ∧
    st.G ≠ (G : ZMod 31) := by
  obtain ⟨pf, -, h⟩ := C56_base_unchecked (q1 := (4 : ZMod 31)) (x := (9 : ZMod 31)) (by decide)
    (N := toyKey2.n) (by decide) (r := 5) (by decide) (Nt := 77) (h1 := 2) (h2 := 3) (by decide)
    (cd := true) rfl ⟨3, 5, 7, 11⟩
  have hg := (C56_accepted_partial h).1
  exact ⟨_, pf, h, by decide +kernel⟩

example : PaillierPublic.pdl_verify true
    ⟨4, 35, (9 : ZMod 31), (1 : ZMod 31), 2, 3, 77⟩ ⟨7, (3 : ZMod 31), 0, 0, 0, 0, 0⟩ ⟨35, 4⟩ (9 : ZMod 31)
    = .panic :=
  C56_panics rfl rfl rfl rfl (by decide) (by decide) (by decide +kernel)

example := (C72_party_two_panics_iff toyKey2.n 5 ⟨(5 : ZMod 31)⟩ ⟨(5 : ZMod 31), (5 : ZMod 31)⟩ (by decide)
  (0 : ZMod 31) 10 3 7).2 rfl
example := (C72_party_one_panics_iff (s1 := ⟨(9 : ZMod 31), toyKey2, 5⟩) toyKey2_valid 4
  ⟨(5 : ZMod 31), (5 : ZMod 31)⟩ (by decide) (0 : ZMod 31)).2 rfl

example := C73_output (s1 := ⟨(9 : ZMod 31), toyKey, 5⟩) (c3 := Paillier.encrypt toyKey.n 100 5)
  (pt := 100) (by decide +kernel) (e1 := ⟨(5 : ZMod 31), (5 : ZMod 31)⟩) (by decide) (R2 := (5 : ZMod 31))
  (x := 29) (y := 12) (by decide +kernel) (14 : ZMod 31) 10

-- an even and an odd share
example := C73_parity_oracle toyKey2_valid (by decide) (by decide) (by decide) (8 : ZMod 31)
  (5 : ZMod 31) (5 : ZMod 31) (5 : ZMod 31) (by decide) (by decide) 10 (rho := 900) (rk := 5) (r := 9)
  (by decide) (by decide) (by decide) (by decide) (x := 29) (by decide +kernel) (by decide +kernel)
example := C73_parity_oracle toyKey2_valid (by decide) (by decide) (by decide) (9 : ZMod 31)
  (5 : ZMod 31) (5 : ZMod 31) (5 : ZMod 31) (by decide) (by decide) 10 (rho := 900) (rk := 5) (r := 9)
  (by decide) (by decide) (by decide) (by decide) (x := 29) (by decide +kernel) (by decide +kernel)

example := C74_simulated_partial (n := toyKey2.n) (by decide) (9 : ZMod 31) (5 : ZMod 31) (5 : ZMod 31)
  (by decide) (5 : ZMod 31) 10 5 (x := 29) (by decide +kernel)

example := C74_share_extracted toyKey2_valid (by decide) (9 : ZMod 31) (5 : ZMod 31) (5 : ZMod 31)
  (by decide) (5 : ZMod 31) (m := 10) (rho := 900) (rk := 5) (r := 9) (by decide) (by decide) (by decide)
  (by decide) (by decide) (x := 29) (by decide +kernel) (by decide) (Nt := 77) (g := 2) (ni := 3)
  (by decide) (cd := true) rfl

-- accepted and rejected conversions
attribute [local irreducible] Paillier.encrypt in
example : ∃ m_b beta alpha,
    (⟨(5 : ZMod 31)⟩ : Party2Private).to_mta_message_b toyKey2.n
      (Paillier.encrypt toyKey2.n (9 : ZMod 31).val 5) 9 1000 (2 : ZMod 31) (3 : ZMod 31) = .ok (m_b, beta) ∧
    (⟨(9 : ZMod 31), toyKey2, 5⟩ : Party1Private).to_mta_message_b m_b = .ok alpha ∧
    alpha.1 + beta = (14 : ZMod 31) := by
  obtain ⟨m_b, beta, h1, h2, h3⟩ := C75_additive_shares_partial toyKey2_valid (by decide) (by decide)
    (9 : ZMod 31) (5 : ZMod 31) (2 : ZMod 31) (3 : ZMod 31) (rk := 5) (r := 9) (beta_tag := 1000)
    (by decide) (by decide) (by decide) (by decide)
  obtain ⟨alpha, ha⟩ := h2.2 (by decide)
  refine ⟨m_b, beta, alpha, h1, ha, ?_⟩
  have := h3 alpha ha
  rw [show compute_pubkey (Party1Private.set_private_key ⟨(9 : ZMod 31) • (G : ZMod 31), (9 : ZMod 31)⟩
    (PaillierKeyPair.generate toyKey2 ⟨(9 : ZMod 31) • (G : ZMod 31), (9 : ZMod 31)⟩ 5))
    ((5 : ZMod 31) • (G : ZMod 31)) = (14 : ZMod 31) • (G : ZMod 31) by decide +kernel] at this
  exact smul_G_inj.1 this

attribute [local irreducible] Paillier.encrypt in
example : ∃ m_b beta,
    (⟨(5 : ZMod 31)⟩ : Party2Private).to_mta_message_b toyKey2.n
      (Paillier.encrypt toyKey2.n (9 : ZMod 31).val 5) 9 (toyKey2.n - 1) (2 : ZMod 31) (3 : ZMod 31) =
      .ok (m_b, beta) ∧
    ¬ ∃ alpha, (⟨(9 : ZMod 31), toyKey2, 5⟩ : Party1Private).to_mta_message_b m_b = .ok alpha := by
  obtain ⟨m_b, beta, h1, h2, -⟩ := C75_additive_shares_partial toyKey2_valid (by decide) (by decide)
    (9 : ZMod 31) (5 : ZMod 31) (2 : ZMod 31) (3 : ZMod 31) (rk := 5) (r := 9)
    (beta_tag := toyKey2.n - 1) (by decide) (by decide) (by decide) (by decide)
  exact ⟨m_b, beta, h1, fun h => absurd (h2.1 h) (by decide)⟩

-- CCLST19: the same key and nonce with the trivial scheme
example :
    let h := CCLST19.HSMCL.generate ⟨(9 : ZMod 31), (9 : ZMod 31)⟩ 77 1 2
    ((CCLST19.Party2Public.verify_setup_and_zkcldl_proof h.2 77 (9 : ZMod 31)).isOk : Res Error Bool) =
      .ok true ∧
    (CCLST19.PartialSig.compute ⟨h.1.cl_group, h.1.public_, h.1.encrypted_share⟩ ⟨(5 : ZMod 31)⟩
        ⟨(5 : ZMod 31), (5 : ZMod 31)⟩ (5 : ZMod 31) 10 3 >>= fun c3 =>
      CCLST19.Signature.compute h.1 (CCLST19.Party1Private.set_private_key ⟨(9 : ZMod 31), (9 : ZMod 31)⟩ h.1)
        c3 ⟨(5 : ZMod 31), (5 : ZMod 31)⟩ (5 : ZMod 31)) = .ok ⟨3, 29⟩ ∧
    CCLST19.verify ⟨3, 29⟩ (14 : ZMod 31) 10 = .ok () := by decide +kernel

example := C57_sign (9 : ZMod 31) (5 : ZMod 31) (5 : ZMod 31) (5 : ZMod 31) 2 4 (by decide) (by decide)
  10 1 2 77 1 2 3

end Examples

end Verif.Props
