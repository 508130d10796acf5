import Verif.Spec.NonceReuse
import Verif.Props.TwoParty
import Verif.Props.Sign

/-!
# C116: nonce shares that are used twice
-/

namespace Verif.Props

open EC Crypto Lindell17 Spec

section
variable [Crypto]

/-- Party one's answer to an honest partial signature, and what party one decrypts. -/
theorem lindell_run {dk : DecKey} (hv : dk.Valid) (hn : (q : ℤ) ^ 3 + (q : ℤ) ^ 2 ≤ dk.n)
    {x1 x2 k1 k2 : Sc} (hk1 : k1 ≠ 0) (hk2 : k2 ≠ 0) {m rho rk r : ℤ}
    (h0 : 0 ≤ rho) (h1 : rho < (q : ℤ) ^ 2) (hrk : Int.gcd rk dk.n = 1) (hr : Int.gcd r dk.n = 1) :
    ∃ x y c3 pt, coords ((k1 * k2) • (G : Pt)) = some (x, y) ∧
      PartialSig.compute dk.n (Paillier.encrypt dk.n x1.val rk) ⟨x2⟩ ⟨k2 • G, k2⟩ (k1 • G) m rho r = .ok c3 ∧
      Paillier.decrypt dk c3 = some pt ∧ (pt : Sc) = k2⁻¹ * ((m : Sc) + (x : Sc) * (x1 * x2)) ∧
      Signature.compute ⟨x1, dk, rk⟩ c3 ⟨k1 • G, k1⟩ (k2 • G) =
        .ok ⟨(normS ((k1 * k2)⁻¹ * ((m : Sc) + (x : Sc) * (x1 * x2)))).val, (x : ℤ) % q⟩ := by
  have hR : (k1 * k2) • (G : Pt) ≠ 0 := by
    rw [ne_eq, smul_G_eq_zero]; exact mul_ne_zero hk1 hk2
  obtain ⟨x, y, hc⟩ := exists_coords hR
  have hx : xc ((k1 * k2) • (G : Pt)) = some x := by simp [xc, hc]
  have hx2 : xc (k2 • (k1 • (G : Pt))) = some x := by rw [← mul_smul, mul_comm]; exact hx
  have hx1 : xc (k1 • (k2 • (G : Pt))) = some x := by rw [← mul_smul]; exact hx
  obtain ⟨c3, hc3, henc⟩ := partial_spec (s2 := ⟨x2⟩) (e2 := ⟨k2 • G, k2⟩) (m := m) (rho := rho) (r := r)
    hx2 hk2 (Paillier.isEnc_encrypt dk.n x1.val rk)
  have hd := Paillier.decrypt_spec hv henc (gcd_pow_mul _ hrk hr)
  obtain ⟨hl0, hl1⟩ := honest_lt (k2 := k2) (x1 := x1) (x2 := x2) (m := m) (x := x) h0 h1 hn
  have hd' : Paillier.decrypt dk c3 = some (vPart k2 x2 x * (x1.val : ℤ) + (rho * q + uPart k2 m)) := by
    rw [← Int.emod_eq_of_lt hl0 hl1]; exact hd
  have hsig := compute_spec (s1 := ⟨x1, dk, rk⟩) (e1 := ⟨k1 • G, k1⟩) (c3 := c3) hx1 hk1 hd'
  have hs := honest_s (k1 := k1) (k2 := k2) (x1 := x1) (x2 := x2) (m := m) (rho := rho) (x := x)
  dsimp only at hsig
  rw [hs] at hsig
  refine ⟨x, y, c3, _, hc, hc3, hd', ?_, hsig⟩
  have := congrArg (· * k1) hs
  simp only [inv_mul_cancel_right₀ hk1] at this
  rw [this, mul_inv]
  field_simp

/-- The same for CCLST19. -/
theorem cclst_run [CL] (x1 x2 k1 k2 : Sc) (hk1 : k1 ≠ 0) (hk2 : k2 ≠ 0) (m seed : ℤ) (rk re r : ℕ) :
    let h := CCLST19.HSMCL.generate ⟨x1 • G, x1⟩ seed rk re
    let s1 := CCLST19.Party1Private.set_private_key ⟨x1 • G, x1⟩ h.1
    let pub : CCLST19.Party2Public := ⟨h.1.cl_group, h.1.public_, h.1.encrypted_share⟩
    ∃ x y c3, coords ((k1 * k2) • (G : Pt)) = some (x, y) ∧
      CCLST19.PartialSig.compute pub ⟨x2⟩ ⟨k2 • G, k2⟩ (k1 • G) m r = .ok c3 ∧
      CL.decrypt h.1.cl_group s1.hsmcl_priv c3 = k2⁻¹ * ((m : Sc) + (x : Sc) * (x1 * x2)) ∧
      CCLST19.Signature.compute h.1 s1 c3 ⟨k1 • G, k1⟩ (k2 • G) =
        .ok ⟨(normS ((k1 * k2)⁻¹ * ((m : Sc) + (x : Sc) * (x1 * x2)))).val, (x : ℤ) % q⟩ := by
  intro h s1 pub
  have hR : (k1 * k2) • (G : Pt) ≠ 0 := by
    rw [ne_eq, smul_G_eq_zero]; exact mul_ne_zero hk1 hk2
  obtain ⟨x, y, hc⟩ := exists_coords hR
  have hx : xc ((k1 * k2) • (G : Pt)) = some x := by simp [xc, hc]
  have hx2 : xc (k2 • (k1 • (G : Pt))) = some x := by rw [← mul_smul, mul_comm]; exact hx
  have hx1 : xc (k1 • (k2 • (G : Pt))) = some x := by rw [← mul_smul]; exact hx
  obtain ⟨i2, hi2, hi2c, -⟩ := modInv_sc (k := k2) hk2
  obtain ⟨i1, hi1, hi1c, -⟩ := modInv_sc (k := k1) hk1
  set v : ℤ := i2 * (x2.val : ℤ) % q * ((x : ℤ) % q) % q with hv
  set c3 : CL.Ct := CL.eval_sum (CL.encrypt pub.group pub.ek ((i2 * m % q : ℤ) : Sc) r)
    (CL.eval_scal pub.encrypted_secret_share v) with hc3
  have henc := CL.isEnc_sum pub.group pub.ek _ _ _ _
    (CL.isEnc_encrypt pub.group pub.ek ((i2 * m % q : ℤ) : Sc) r)
    (CL.isEnc_scal pub.group pub.ek _ _ v (CL.isEnc_verifiably h.1.cl_group h.1.public_ x1 re))
  have hdec : CL.decrypt h.1.cl_group s1.hsmcl_priv c3 = ((i2 * m % q : ℤ) : Sc) + (v : Sc) * x1 :=
    CL.decrypt_isEnc h.1.cl_group rk c3 _ henc
  have hdec' : CL.decrypt h.1.cl_group s1.hsmcl_priv c3 = k2⁻¹ * ((m : Sc) + (x : Sc) * (x1 * x2)) := by
    have e2 : ((x2.val : ℕ) : Sc) = x2 := ZMod.natCast_zmod_val x2
    rw [hdec, hv]
    simp only [castMod, Int.cast_mul, Int.cast_natCast]
    rw [hi2c, e2]
    ring
  refine ⟨x, y, c3, hc, ?_, hdec', ?_⟩
  · unfold CCLST19.PartialSig.compute
    dsimp only
    rw [hx2, hi2]
    rfl
  · unfold CCLST19.Signature.compute
    dsimp only
    rw [hx1, hi1]
    show Res.ok _ = _
    have hst : (i1 * ((CL.decrypt h.1.cl_group s1.hsmcl_priv c3).val : ℤ)) % (q : ℤ) =
        (((k1 * k2)⁻¹ * ((m : Sc) + (x : Sc) * (x1 * x2))).val : ℤ) := by
      rw [emod_eq_val, hdec', Int.cast_mul, val_cast, hi1c, mul_inv]
      congr 2
      ring
    rw [hst, min_eq_normS]

/-- The algebra behind `guessShareOne`. -/
theorem mem_guessShareOne {x1 x2 k1 k2 k2' : Sc} (hx2 : x2 ≠ 0) (hk1 : k1 ≠ 0) (hk2 : k2 ≠ 0)
    (hk2' : k2' ≠ 0) {m m' : ℤ} {x x' : ℕ} (hne : (m : Sc) * (x' : Sc) ≠ (m' : Sc) * (x : Sc)) :
    x1 ∈ guessShareOne x2 k2 k2' m m'
      ⟨(normS ((k1 * k2)⁻¹ * ((m : Sc) + (x : Sc) * (x1 * x2)))).val, (x : ℤ) % q⟩
      ⟨(normS ((k1 * k2')⁻¹ * ((m' : Sc) + (x' : Sc) * (x1 * x2)))).val, (x' : ℤ) % q⟩ := by
  have e : ∀ k : Sc, k ≠ 0 → ∀ w : Sc, (k1 * k)⁻¹ * w * k = k1⁻¹ * w := by
    intro k hk w
    rw [mul_inv]
    field_simp
  have hd : (m' : Sc) * x - m * x' ≠ 0 := sub_ne_zero.2 (Ne.symm hne)
  have hk := mul_ne_zero (inv_ne_zero hk1) hd
  unfold guessShareOne
  dsimp only
  rw [val_cast, val_cast, castMod, castMod, Int.cast_natCast, Int.cast_natCast]
  simp only [List.mem_cons, List.not_mem_nil, or_false]
  rcases normS_cases ((k1 * k2)⁻¹ * ((m : Sc) + (x : Sc) * (x1 * x2))) with h1 | h1 <;>
    rcases normS_cases ((k1 * k2')⁻¹ * ((m' : Sc) + (x' : Sc) * (x1 * x2))) with h2 | h2 <;>
    rw [h1, h2] <;> simp only [neg_mul, e k2 hk2, e k2' hk2', neg_neg]
  · left
    rw [eq_div_iff (mul_ne_zero hx2 fun h0 => hk (by linear_combination h0))]
    ring
  · right
    rw [eq_div_iff (mul_ne_zero hx2 fun h0 => hk (by linear_combination h0))]
    ring
  · right
    rw [eq_div_iff (mul_ne_zero hx2 fun h0 => hk (by linear_combination -h0))]
    ring
  · left
    rw [eq_div_iff (mul_ne_zero hx2 fun h0 => hk (by linear_combination -h0))]
    ring

theorem eq_computeShareTwo {x1 x2 k2 : Sc} (hx1 : x1 ≠ 0) (hk2 : k2 ≠ 0) {m m' : ℤ} {x x' : ℕ}
    (hne : (m : Sc) * (x' : Sc) ≠ (m' : Sc) * (x : Sc)) :
    x2 = computeShareTwo x1 m m' (k2⁻¹ * ((m : Sc) + (x : Sc) * (x1 * x2)))
      (k2⁻¹ * ((m' : Sc) + (x' : Sc) * (x1 * x2))) (x : Sc) (x' : Sc) := by
  have hd : (m' : Sc) * x - m * x' ≠ 0 := sub_ne_zero.2 (Ne.symm hne)
  unfold computeShareTwo
  rw [eq_div_iff (mul_ne_zero hx1 (by
      rw [show k2⁻¹ * ((m' : Sc) + x' * (x1 * x2)) * x - k2⁻¹ * ((m : Sc) + x * (x1 * x2)) * x' =
        k2⁻¹ * ((m' : Sc) * x - m * x') by ring]
      exact mul_ne_zero (inv_ne_zero hk2) hd))]
  ring

/-- **C116 fails** (Lindell17, party one).  Party one answers two signings with the same ephemeral key pair;
party two follows the protocol, with nonce shares of its choice, different or not.  Then party two knows
party one's share up to one bit: it is one of two values that party two computes from the two signatures.
(Only if `m r' = m' r`, as for equal messages and nonces, nothing is gained.) -/
theorem C116_party_one_reuse {dk : DecKey} (hv : dk.Valid) (hn : (q : ℤ) ^ 3 + (q : ℤ) ^ 2 ≤ dk.n)
    {x1 x2 k1 k2 k2' : Sc} (hx2 : x2 ≠ 0) (hk1 : k1 ≠ 0) (hk2 : k2 ≠ 0) (hk2' : k2' ≠ 0)
    {m m' rho rho' rk r r' : ℤ} (h0 : 0 ≤ rho) (h1 : rho < (q : ℤ) ^ 2) (h0' : 0 ≤ rho')
    (h1' : rho' < (q : ℤ) ^ 2) (hrk : Int.gcd rk dk.n = 1) (hr : Int.gcd r dk.n = 1)
    (hr' : Int.gcd r' dk.n = 1) :
    let key := PaillierKeyPair.generate dk ⟨x1 • G, x1⟩ rk
    let s1 := Party1Private.set_private_key ⟨x1 • G, x1⟩ key
    let s2 := Party2Private.set_private_key ⟨x2 • G, x2⟩
    let e1 : EcKeyPair := ⟨k1 • G, k1⟩
    ∃ c3 c3' sig sig',
      PartialSig.compute key.ek key.encrypted_share s2 ⟨k2 • G, k2⟩ e1.public_share m rho r = .ok c3 ∧
      PartialSig.compute key.ek key.encrypted_share s2 ⟨k2' • G, k2'⟩ e1.public_share m' rho' r' = .ok c3' ∧
      Signature.compute s1 c3 e1 (k2 • G) = .ok sig ∧ Signature.compute s1 c3' e1 (k2' • G) = .ok sig' ∧
      ((m : Sc) * (sig'.r : Sc) ≠ (m' : Sc) * (sig.r : Sc) → x1 ∈ guessShareOne x2 k2 k2' m m' sig sig') := by
  obtain ⟨x, y, c3, pt, -, hc, -, -, hs⟩ := lindell_run hv hn (x1 := x1) (x2 := x2) (m := m) hk1 hk2 h0 h1 hrk hr
  obtain ⟨x', y', c3', pt', -, hc', -, -, hs'⟩ :=
    lindell_run hv hn (x1 := x1) (x2 := x2) (m := m') hk1 hk2' h0' h1' hrk hr'
  refine ⟨c3, c3', _, _, hc, hc', hs, hs', fun hne => ?_⟩
  rw [castMod, castMod, Int.cast_natCast, Int.cast_natCast] at hne
  exact mem_guessShareOne hx2 hk1 hk2 hk2' hne

/-- **C116 fails** (Lindell17, party two).  If party two uses one ephemeral key pair in two signings, then
party one computes party two's share from what it decrypts. -/
theorem C116_party_two_reuse {dk : DecKey} (hv : dk.Valid) (hn : (q : ℤ) ^ 3 + (q : ℤ) ^ 2 ≤ dk.n)
    {x1 x2 k1 k1' k2 : Sc} (hx1 : x1 ≠ 0) (hk1 : k1 ≠ 0) (hk1' : k1' ≠ 0) (hk2 : k2 ≠ 0)
    {m m' rho rho' rk r r' : ℤ} (h0 : 0 ≤ rho) (h1 : rho < (q : ℤ) ^ 2) (h0' : 0 ≤ rho')
    (h1' : rho' < (q : ℤ) ^ 2) (hrk : Int.gcd rk dk.n = 1) (hr : Int.gcd r dk.n = 1)
    (hr' : Int.gcd r' dk.n = 1) :
    let key := PaillierKeyPair.generate dk ⟨x1 • G, x1⟩ rk
    let s2 := Party2Private.set_private_key ⟨x2 • G, x2⟩
    let e2 : EcKeyPair := ⟨k2 • G, k2⟩
    ∃ x x' c3 c3' pt pt',
      xc (k1 • e2.public_share) = some x ∧ xc (k1' • e2.public_share) = some x' ∧
      PartialSig.compute key.ek key.encrypted_share s2 e2 (k1 • G) m rho r = .ok c3 ∧
      PartialSig.compute key.ek key.encrypted_share s2 e2 (k1' • G) m' rho' r' = .ok c3' ∧
      Paillier.decrypt dk c3 = some pt ∧ Paillier.decrypt dk c3' = some pt' ∧
      ((m : Sc) * (x' : Sc) ≠ (m' : Sc) * (x : Sc) →
        x2 = computeShareTwo x1 m m' (pt : Sc) (pt' : Sc) (x : Sc) (x' : Sc)) := by
  obtain ⟨x, y, c3, pt, hx, hc, hp, e, -⟩ :=
    lindell_run hv hn (x1 := x1) (x2 := x2) (m := m) hk1 hk2 h0 h1 hrk hr
  obtain ⟨x', y', c3', pt', hx', hc', hp', e', -⟩ :=
    lindell_run hv hn (x1 := x1) (x2 := x2) (m := m') hk1' hk2 h0' h1' hrk hr'
  refine ⟨x, x', c3, c3', pt, pt', ?_, ?_, hc, hc', hp, hp', fun hne => ?_⟩
  · rw [← mul_smul]; simp [xc, hx]
  · rw [← mul_smul]; simp [xc, hx']
  · rw [e, e']
    exact eq_computeShareTwo hx1 hk2 hne

/-- **C116 fails** (CCLST19, both parties): as for Lindell17. -/
theorem C116_cclst_reuse [CL] {x1 x2 k1 k1' k2 k2' : Sc} (hx1 : x1 ≠ 0) (hx2 : x2 ≠ 0) (hk1 : k1 ≠ 0)
    (hk1' : k1' ≠ 0) (hk2 : k2 ≠ 0) (hk2' : k2' ≠ 0) (m m' seed : ℤ) (rk re r r' : ℕ) :
    let h := CCLST19.HSMCL.generate ⟨x1 • G, x1⟩ seed rk re
    let s1 := CCLST19.Party1Private.set_private_key ⟨x1 • G, x1⟩ h.1
    let pub : CCLST19.Party2Public := ⟨h.1.cl_group, h.1.public_, h.1.encrypted_share⟩
    let s2 := Party2Private.set_private_key ⟨x2 • G, x2⟩
    (∃ c3 c3' sig sig',
      CCLST19.PartialSig.compute pub s2 ⟨k2 • G, k2⟩ (k1 • G) m r = .ok c3 ∧
      CCLST19.PartialSig.compute pub s2 ⟨k2' • G, k2'⟩ (k1 • G) m' r' = .ok c3' ∧
      CCLST19.Signature.compute h.1 s1 c3 ⟨k1 • G, k1⟩ (k2 • G) = .ok sig ∧
      CCLST19.Signature.compute h.1 s1 c3' ⟨k1 • G, k1⟩ (k2' • G) = .ok sig' ∧
      ((m : Sc) * (sig'.r : Sc) ≠ (m' : Sc) * (sig.r : Sc) →
        x1 ∈ guessShareOne x2 k2 k2' m m' sig sig')) ∧
    (∃ x x' c3 c3',
      xc (k1 • (k2 • (G : Pt))) = some x ∧ xc (k1' • (k2 • (G : Pt))) = some x' ∧
      CCLST19.PartialSig.compute pub s2 ⟨k2 • G, k2⟩ (k1 • G) m r = .ok c3 ∧
      CCLST19.PartialSig.compute pub s2 ⟨k2 • G, k2⟩ (k1' • G) m' r' = .ok c3' ∧
      ((m : Sc) * (x' : Sc) ≠ (m' : Sc) * (x : Sc) →
        x2 = computeShareTwo x1 m m' (CL.decrypt h.1.cl_group s1.hsmcl_priv c3)
          (CL.decrypt h.1.cl_group s1.hsmcl_priv c3') (x : Sc) (x' : Sc))) := by
  intro h s1 pub s2
  constructor
  · obtain ⟨x, y, c3, -, hc, -, hs⟩ := cclst_run x1 x2 k1 k2 hk1 hk2 m seed rk re r
    obtain ⟨x', y', c3', -, hc', -, hs'⟩ := cclst_run x1 x2 k1 k2' hk1 hk2' m' seed rk re r'
    refine ⟨c3, c3', _, _, hc, hc', hs, hs', fun hne => ?_⟩
    rw [castMod, castMod, Int.cast_natCast, Int.cast_natCast] at hne
    exact mem_guessShareOne hx2 hk1 hk2 hk2' hne
  · obtain ⟨x, y, c3, hx, hc, e, -⟩ := cclst_run x1 x2 k1 k2 hk1 hk2 m seed rk re r
    obtain ⟨x', y', c3', hx', hc', e', -⟩ := cclst_run x1 x2 k1' k2 hk1' hk2 m' seed rk re r'
    refine ⟨x, x', c3, c3', ?_, ?_, hc, hc', fun hne => ?_⟩
    · rw [← mul_smul]; simp [xc, hx]
    · rw [← mul_smul]; simp [xc, hx']
    · have e1 : CL.decrypt h.1.cl_group s1.hsmcl_priv c3 = _ := e
      have e2 : CL.decrypt h.1.cl_group s1.hsmcl_priv c3' = _ := e'
      rw [e1, e2]
      exact eq_computeShareTwo hx1 hk2 hne

/-- **C116 fails** (GG18): signers who complete two messages that differ modulo the group order with the same
nonce shares disclose the key to everybody, as in GG20 (C43). -/
theorem C116_gg18_reuse {st st' : GG18.LocalSignature} {R Y : Pt} {k d : Sc} (hk : k ≠ 0) {x y : ℕ}
    (hR : coords R = some (x, y)) (hr : (x : Sc) ≠ 0) {m m' : ℤ} (hm : (m : Sc) ≠ (m' : Sc))
    (e : st.R = R ∧ st.m = m ∧ st.y = Y) (e' : st'.R = R ∧ st'.m = m' ∧ st'.y = Y) {peers peers' : List Sc}
    (h1 : st.s_i + peers.sum = k * (m + (x : Sc) * d)) (h2 : st'.s_i + peers'.sum = k * (m' + (x : Sc) * d))
    {sig sig' : GG18.SignatureRecid} (hs : st.output_signature peers = .ok sig)
    (hs' : st'.output_signature peers' = .ok sig') :
    sig.r = sig'.r ∧ d ∈ keyCandidates sig.r sig.s sig'.s m m' := by
  obtain ⟨eR, -, -⟩ := e
  obtain ⟨eR', -, -⟩ := e'
  obtain ⟨-, e1⟩ := (gg18_output_ok_iff st peers (eR ▸ hR) sig).1 hs
  obtain ⟨-, e2⟩ := (gg18_output_ok_iff st' peers' (eR' ▸ hR) sig').1 hs'
  simp only [h1] at e1
  simp only [h2] at e2
  subst e1 e2
  refine ⟨rfl, ?_⟩
  unfold keyCandidates
  have hkm : k * ((m : Sc) - m') ≠ 0 := mul_ne_zero hk (sub_ne_zero.2 hm)
  simp only [List.mem_cons, List.not_mem_nil, or_false]
  rcases normS_cases (k * ((m : Sc) + (x : Sc) * d)) with h1 | h1 <;>
    rcases normS_cases (k * ((m' : Sc) + (x : Sc) * d)) with h2 | h2 <;> rw [h1, h2]
  · left
    rw [eq_div_iff (mul_ne_zero hr (by convert hkm using 1; ring))]; ring
  · right
    rw [eq_div_iff (mul_ne_zero hr (by convert hkm using 1; ring))]; ring
  · right
    rw [eq_div_iff (mul_ne_zero hr (by
      intro h0; apply hkm; linear_combination -h0))]; ring
  · left
    rw [eq_div_iff (mul_ne_zero hr (by
      intro h0; apply hkm; linear_combination -h0))]; ring

/-- **C116** (partial).  Repeating a signing of the same message with the same two ephemeral key pairs gives
the same signature again, whatever random numbers party two draws; so it tells nothing new.

Missing: different messages or different nonce points, for which the property is false. -/
theorem C116_same_signing_partial {dk : DecKey} (hv : dk.Valid) (hn : (q : ℤ) ^ 3 + (q : ℤ) ^ 2 ≤ dk.n)
    {x1 x2 k1 k2 : Sc} (hk1 : k1 ≠ 0) (hk2 : k2 ≠ 0)
    {m m' rho rho' rk r r' : ℤ} (hm : (m : Sc) = (m' : Sc)) (h0 : 0 ≤ rho) (h1 : rho < (q : ℤ) ^ 2)
    (h0' : 0 ≤ rho') (h1' : rho' < (q : ℤ) ^ 2) (hrk : Int.gcd rk dk.n = 1) (hr : Int.gcd r dk.n = 1)
    (hr' : Int.gcd r' dk.n = 1) :
    let key := PaillierKeyPair.generate dk ⟨x1 • G, x1⟩ rk
    let s1 := Party1Private.set_private_key ⟨x1 • G, x1⟩ key
    let s2 := Party2Private.set_private_key ⟨x2 • G, x2⟩
    ∃ c3 c3' sig,
      PartialSig.compute key.ek key.encrypted_share s2 ⟨k2 • G, k2⟩ (k1 • G) m rho r = .ok c3 ∧
      PartialSig.compute key.ek key.encrypted_share s2 ⟨k2 • G, k2⟩ (k1 • G) m' rho' r' = .ok c3' ∧
      Signature.compute s1 c3 ⟨k1 • G, k1⟩ (k2 • G) = .ok sig ∧
      Signature.compute s1 c3' ⟨k1 • G, k1⟩ (k2 • G) = .ok sig := by
  obtain ⟨x, y, c3, pt, hx, hc, -, -, hs⟩ :=
    lindell_run hv hn (x1 := x1) (x2 := x2) (m := m) hk1 hk2 h0 h1 hrk hr
  obtain ⟨x', y', c3', pt', hx', hc', -, -, hs'⟩ :=
    lindell_run hv hn (x1 := x1) (x2 := x2) (m := m') hk1 hk2 h0' h1' hrk hr'
  rw [hx, Option.some.injEq, Prod.mk.injEq] at hx'
  obtain ⟨rfl, rfl⟩ := hx'
  rw [← hm] at hs'
  exact ⟨c3, c3', _, hc, hc', hs, hs'⟩

/-- **C43 fails** (one signer). If one honest signer uses its presignature for two messages, the other signers of the
session need nothing but their own presignatures to compute the private key: they need not sign themselves, and
no signature need come about. -/
theorem C43_one_signer_reuse {t n i : ℕ} {x : ℕ → Sc} {d : Sc} {dk : ℕ → DecKey}
    {sts : List DLogStatement} {s_l : List ℕ} {key : ℕ → GG20.LocalKey} {rnd : ℕ → GG20.SignRandomness}
    (h : HonestSigners n (d • G) x dk sts s_l key rnd) (hx : Reconstructs t n x d)
    (hlen : t + 1 ≤ s_l.length) (hi : i < s_l.length) {m1 m2 : ℤ} (hm : (m1 : Sc) ≠ (m2 : Sc)) :
    ∃ (cs : List GG20.CompletedOfflineStage) (c : GG20.CompletedOfflineStage) (xr y : ℕ),
      GG20.Sign.offline s_l key rnd = .ok cs ∧ cs[i]? = some c ∧ coords c.R = some (xr, y) ∧
      ∀ st1 st2 p1 p2, (xr : Sc) ≠ 0 → GG20.SignManual.new m1 c = .ok (st1, p1) →
        GG20.SignManual.new m2 c = .ok (st2, p2) → d = coalitionKey (cs.eraseIdx i) xr p1 p2 m1 m2 := by
  have hd := GG20.Sign.signShare_sum h.members h.nodup hx hlen
  have hR := GG20.Sign.oR_eq h.gamma_sum
  have hne : GG20.Sign.oR s_l rnd ≠ 0 := by
    rw [hR, ne_eq, smul_G_eq_zero]
    exact inv_ne_zero h.k_sum
  obtain ⟨xr, y, hc⟩ := exists_coords hne
  set f : ℕ → GG20.CompletedOfflineStage := fun k => ⟨(rnd k).k, GG20.Sign.oR s_l rnd,
    GG20.Sign.oSigma x s_l rnd k, d • G⟩ with hf
  have herase : ∀ g : GG20.CompletedOfflineStage → Sc,
      g (f i) + ((((List.range s_l.length).map f).eraseIdx i).map g).sum =
        ∑ k ∈ Finset.range s_l.length, g (f k) := fun g => by
    have hl : i < ((List.range s_l.length).map f).length := by simpa using hi
    have hp := (List.getElem_cons_eraseIdx_perm hl).map g
    have := hp.sum_eq
    rw [List.map_cons, List.sum_cons] at this
    simp only [List.getElem_map, List.getElem_range] at this
    rw [this, List.map_map, sum_map_range_eq]
    rfl
  refine ⟨_, f i, xr, y, GG20.Sign.offline_eq h hd rfl, by simp [hi, hf], hc, fun st1 st2 p1 p2 hr h1 h2 => ?_⟩
  obtain ⟨hk, hs⟩ := C43_reuse_discloses_shares hm hc hr h1 h2
  unfold coalitionKey
  rw [← hk, ← hs, herase (·.sigma_i), herase (·.k_i)]
  show d = (∑ k ∈ _, GG20.Sign.oSigma x s_l rnd k) / ∑ k ∈ _, (rnd k).k
  rw [GG20.Sign.oSigma_sum, hd, mul_div_cancel_left₀ _ h.k_sum]

end

/-! ### Examples: the 31-point group -/

section
attribute [local instance] Toy.crypto

/-- Two messages, party one's nonce share 5 in both, party two's 5 and 7. -/
example := C116_party_one_reuse toyKey2_valid (by decide) (x1 := (9 : ZMod 31)) (x2 := (5 : ZMod 31))
  (k1 := (5 : ZMod 31)) (k2 := (5 : ZMod 31)) (k2' := (7 : ZMod 31)) (by decide) (by decide) (by decide)
  (by decide) (m := 10) (m' := 11) (rho := 900) (rho' := 3) (rk := 5) (r := 9) (r' := 8) (by decide)
  (by decide) (by decide) (by decide) (by decide) (by decide) (by decide)

/-- Here party two's two guesses for 9 are 9 and another number. -/
example : ∃ c3 c3' sig sig',
    PartialSig.compute toyKey2.n (Paillier.encrypt toyKey2.n 9 5) ⟨(5 : ZMod 31)⟩
      ⟨(5 : ZMod 31) • (G : Pt), (5 : ZMod 31)⟩ ((5 : ZMod 31) • (G : Pt)) 10 900 9 = .ok c3 ∧
    PartialSig.compute toyKey2.n (Paillier.encrypt toyKey2.n 9 5) ⟨(5 : ZMod 31)⟩
      ⟨(7 : ZMod 31) • (G : Pt), (7 : ZMod 31)⟩ ((5 : ZMod 31) • (G : Pt)) 11 3 8 = .ok c3' ∧
    Signature.compute ⟨(9 : ZMod 31), toyKey2, 5⟩ c3 ⟨(5 : ZMod 31) • (G : Pt), (5 : ZMod 31)⟩
      ((5 : ZMod 31) • (G : Pt)) = .ok sig ∧
    Signature.compute ⟨(9 : ZMod 31), toyKey2, 5⟩ c3' ⟨(5 : ZMod 31) • (G : Pt), (5 : ZMod 31)⟩
      ((7 : ZMod 31) • (G : Pt)) = .ok sig' ∧
    (10 : ZMod 31) * (sig'.r : ZMod 31) ≠ (11 : ZMod 31) * (sig.r : ZMod 31) := by
  refine ⟨_, _, _, _, rfl, rfl, rfl, rfl, ?_⟩
  decide +kernel

example := C116_party_two_reuse toyKey2_valid (by decide) (x1 := (9 : ZMod 31)) (x2 := (5 : ZMod 31))
  (k1 := (5 : ZMod 31)) (k1' := (6 : ZMod 31)) (k2 := (5 : ZMod 31)) (by decide) (by decide) (by decide)
  (by decide) (m := 10) (m' := 11) (rho := 900) (rho' := 3) (rk := 5) (r := 9) (r' := 8) (by decide)
  (by decide) (by decide) (by decide) (by decide) (by decide) (by decide)

example := C116_same_signing_partial toyKey2_valid (by decide) (x1 := (9 : ZMod 31)) (x2 := (5 : ZMod 31))
  (k1 := (5 : ZMod 31)) (k2 := (5 : ZMod 31)) (by decide) (by decide) (m := 10) (m' := 41) (rho := 900)
  (rho' := 3) (rk := 5) (r := 9) (r' := 8) (by decide) (by decide) (by decide) (by decide) (by decide)
  (by decide) (by decide) (by decide)

example := C116_gg18_reuse (st := ⟨0, 0, (9 : ZMod 31), (3 : ZMod 31), 10, (5 : ZMod 31)⟩)
  (st' := ⟨0, 0, (9 : ZMod 31), (4 : ZMod 31), 11, (5 : ZMod 31)⟩) (R := (9 : ZMod 31)) (Y := (5 : ZMod 31))
  (k := (7 : ZMod 31)) (d := (5 : ZMod 31)) (by decide) (x := 20) (y := 40) (by decide) (by decide)
  (m := 10) (m' := 11) (by decide) ⟨rfl, rfl, rfl⟩ ⟨rfl, rfl, rfl⟩
  (peers := [(7 * (10 + 100) - 3 : ZMod 31)]) (peers' := [(7 * (11 + 100) - 4 : ZMod 31)]) (by decide)
  (by decide) (sig := ⟨(20 : ZMod 31), (5 : ZMod 31), 0⟩) (sig' := ⟨(20 : ZMod 31), (2 : ZMod 31), 1⟩)
  (by decide +kernel) (by decide +kernel)

/-- C43: the signer at position 1 of the session of C39 signs two messages; the other one computes the key 5. -/
example : ∃ (cs : List GG20.CompletedOfflineStage) (c : GG20.CompletedOfflineStage) (xr y : ℕ),
    GG20.Sign.offline [3, 1] (fun k => toyLocal ([3, 1].getD k 0)) toySign = .ok cs ∧ cs[1]? = some c ∧
      coords c.R = some (xr, y) ∧
      ∀ st1 st2 p1 p2, (xr : ZMod 31) ≠ 0 → GG20.SignManual.new 10 c = .ok (st1, p1) →
        GG20.SignManual.new 11 c = .ok (st2, p2) →
        (5 : ZMod 31) = coalitionKey (cs.eraseIdx 1) (xr : ZMod 31) p1 p2 10 11 := by
  have hrec := toyX_poly.reconstructs (by decide)
  have h0 : (Polynomial.C (5 : ZMod 31) + Polynomial.C (7 : ZMod 31) * Polynomial.X).eval 0 = 5 := by simp
  exact C43_one_signer_reuse toyHonest (h0 ▸ hrec) (by decide) (by decide) (by decide)

attribute [local instance] CL.trivial

example := C116_cclst_reuse (x1 := (9 : ZMod 31)) (x2 := (5 : ZMod 31)) (k1 := (5 : ZMod 31))
  (k1' := (6 : ZMod 31)) (k2 := (5 : ZMod 31)) (k2' := (7 : ZMod 31)) (by decide) (by decide) (by decide)
  (by decide) (by decide) (by decide) 10 11 77 1 2 3 4

end
end Verif.Props
