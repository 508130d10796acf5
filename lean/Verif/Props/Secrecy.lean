import Verif.Spec.Secrecy
import Verif.Props.Keygen
import Verif.Props.SignChecks
import Verif.Props.SignSM
import Verif.Model.GG18.Keygen

/-!
# C95, C96: what dealing and proving disclose

C95: the commitments that a dealer publishes are computed from its public share and the shares of any `t` parties
by a program that does not get the secret (`simCommitments`); C17 says that those `t` shares are as likely for one
secret as for another.  C96: the accepted proofs for a statement are the honest ones, each made by exactly one
choice of nonces, so that a proof made with uniform nonces is a uniform accepted proof, whatever the witness.
-/

namespace Verif.Props

open EC Crypto Spec Polynomial GG20 GG20.Sign

/-! ### C95: dealing -/

section
variable [EC]

theorem coeff_zero_node {T : Finset ℕ} (hT : ∀ i ∈ T, 1 ≤ i ∧ i < q) :
    Set.InjOn (fun i : ℕ => (i : Sc)) (insert 0 T : Finset ℕ) := by
  intro i hi j hj hij
  have lt : ∀ k ∈ insert 0 T, k < q := by
    intro k hk
    rcases Finset.mem_insert.1 hk with rfl | hk
    · exact q_pos
    · exact (hT k hk).2
  exact natCast_inj_of_lt (lt i hi) (lt j hj) hij

theorem lagrangePoly_eq (S : Finset ℕ) (i : ℕ) :
    lagrangePoly S i = Lagrange.basis S (fun i : ℕ => (i : Sc)) i := rfl

/-- **C95** (dealing): what the dealer publishes is a function of its public share and the shares of any `t`
parties; the function does not depend on the secret or the other shares. -/
theorem C95_dealing_simulated {ε : Type} {t n : ℕ} (hn : n < q) {T : Finset ℕ} (hc : T.card = t)
    (hT : ∀ i ∈ T, 1 ≤ i ∧ i ≤ n) {secret : Sc} {coefs : List Sc} (hl : coefs.length = t) {v : Vss}
    {shares : List Sc} (h : (Vss.share t n secret coefs : Res ε (Vss × List Sc)) = .ok (v, shares)) :
    v = ⟨t, n, simCommitments t T (secret • G) (fun i => shares.getD (i - 1) 0)⟩ := by
  unfold Vss.share at h
  split at h
  swap
  · cases h
  cases h
  have hT' : ∀ i ∈ T, 1 ≤ i ∧ i < q := fun i hi => ⟨(hT i hi).1, lt_of_le_of_lt (hT i hi).2 hn⟩
  have h0 : (0 : ℕ) ∉ T := fun h => by have := (hT 0 h).1; omega
  have hinj := coeff_zero_node hT'
  have hdeg : (toPoly (secret :: coefs)).degree < (insert 0 T : Finset ℕ).card := by
    have := degree_toPoly_lt (secret :: coefs)
    rwa [List.length_cons, hl, ← hc, ← Finset.card_insert_of_notMem h0] at this
  have hp := Lagrange.eq_interpolate hinj hdeg
  rw [Lagrange.interpolate_apply, Finset.sum_insert h0] at hp
  refine congrArg (Vss.mk t n) ?_
  refine List.ext_getElem (by simp [simCommitments, hl]) fun k h1 h2 => ?_
  have h1' : k < (secret :: coefs).length := by simpa using h1
  simp only [simCommitments, List.getElem_map, List.getElem_range]
  have hk : (secret :: coefs)[k] = (toPoly (secret :: coefs)).coeff k := by
    rw [coeff_toPoly, List.getD_eq_getElem?_getD, List.getElem?_eq_getElem h1']; rfl
  rw [hk, hp, coeff_add, add_smul]
  congr 1
  · rw [coeff_C_mul, eval_toPoly, Nat.cast_zero, evalPoly_zero_cons, lagrangePoly_eq, mul_comm, mul_smul]
  · rw [finsetSum_coeff, Finset.sum_smul]
    refine Finset.sum_congr rfl fun i hi => ?_
    rw [coeff_C_mul, eval_toPoly, lagrangePoly_eq, mul_comm]
    have hi' := hT i hi
    rw [List.getD_eq_getElem?_getD, List.getElem?_map, List.getElem?_range (by omega)]
    simp only [Option.map_some, Option.getD_some, Nat.sub_add_cancel hi'.1]

/-- **C95** (the shares themselves): for every secret, every `t` values are the shares of `T` for exactly one
choice of the dealer's coefficients. -/
theorem C95_shares_uniform {ε : Type} {t n : ℕ} (ht : t < n) (hn : n < q) {T : Finset ℕ} (hc : T.card = t)
    (hT : ∀ i ∈ T, 1 ≤ i ∧ i ≤ n) (secret : Sc) (x : ℕ → Sc) :
    ∃! coefs : List Sc, coefs.length = t ∧ ∃ v shares,
      (Vss.share t n secret coefs : Res ε (Vss × List Sc)) = .ok (v, shares) ∧
      ∀ i ∈ T, shares[i - 1]? = some (x i) := by
  have key : ∀ coefs : List Sc, (∃ v shares,
      (Vss.share t n secret coefs : Res ε (Vss × List Sc)) = .ok (v, shares) ∧
      ∀ i ∈ T, shares[i - 1]? = some (x i)) ↔ ∀ i ∈ T, evalPoly (secret :: coefs) (i : Sc) = x i := by
    intro coefs
    constructor
    · rintro ⟨v, shares, h, hs⟩ i hi
      simp only [Vss.share, ht, if_true] at h
      cases h
      have := hs i hi
      have hi' := hT i hi
      rw [List.getElem?_map, List.getElem?_range (by omega)] at this
      simpa only [Option.map_some, Nat.sub_add_cancel hi'.1, Option.some.injEq] using this
    · intro hx
      refine ⟨_, _, by simp only [Vss.share, ht, if_true]; rfl, fun i hi => ?_⟩
      have hi' := hT i hi
      rw [List.getElem?_map, List.getElem?_range (by omega)]
      simp only [Option.map_some, Nat.sub_add_cancel hi'.1, hx i hi]
  obtain ⟨coefs, ⟨h1, h2⟩, h3⟩ := C17_t_shares_reveal_nothing t T hc
    (fun i hi => ⟨(hT i hi).1, lt_of_le_of_lt (hT i hi).2 hn⟩) x secret
  exact ⟨coefs, ⟨h1, (key coefs).2 h2⟩, fun c' hc' => h3 c' ⟨hc'.1, (key c').1 hc'.2⟩⟩

end

section
variable [Crypto]

/-- **C95** (GG20): the same about the function that the key generation calls. -/
theorem C95_gg20_distribute {k : GG20.Keys} {t n : ℕ} (hn : n < q) {T : Finset ℕ} (hc : T.card = t)
    (hT : ∀ i ∈ T, 1 ≤ i ∧ i ≤ n) {dv : List GG20.KeyGenDecommitMessage1}
    {bv : List GG20.KeyGenBroadcastMessage1} {coefs : List Sc} (hl : coefs.length = t)
    {v : Vss} {shares : List Sc} {idx : ℕ}
    (h : k.phase1_verify_distribute ⟨t, n⟩ dv bv coefs = .ok (v, shares, idx)) :
    v = ⟨t, n, simCommitments t T (k.u_i • G) (fun i => shares.getD (i - 1) 0)⟩ := by
  unfold GG20.Keys.phase1_verify_distribute at h
  simp only [Res.bind_eq_ok] at h
  obtain ⟨_, -, _, -, ⟨c, bad⟩, -, ⟨v', s'⟩, hs, h⟩ := h
  dsimp only at h
  split at h
  · cases h
    exact C95_dealing_simulated hn hc hT hl hs
  · cases h

/-- **C95** (GG18). -/
theorem C95_gg18_distribute {k : GG18.Keys} {t n : ℕ} (hn : n < q) {T : Finset ℕ} (hc : T.card = t)
    (hT : ∀ i ∈ T, 1 ≤ i ∧ i ≤ n) {dv : List GG18.KeyGenDecommitMessage1}
    {bv : List GG18.KeyGenBroadcastMessage1} {coefs : List Sc} (hl : coefs.length = t)
    {v : Vss} {shares : List Sc} {idx : ℕ}
    (h : k.phase1_verify_distribute ⟨t, n⟩ dv bv coefs = .ok (v, shares, idx)) :
    v = ⟨t, n, simCommitments t T (k.u_i • G) (fun i => shares.getD (i - 1) 0)⟩ := by
  unfold GG18.Keys.phase1_verify_distribute at h
  simp only [Res.bind_eq_ok] at h
  obtain ⟨_, -, _, -, c, -, ⟨v', s'⟩, hs, h⟩ := h
  dsimp only at h
  split at h
  · cases h
    exact C95_dealing_simulated hn hc hT hl hs
  · cases h

/-! ### C96: proofs about points -/

omit [Crypto] in
theorem smul_inj_of_ne [EC] {P : Pt} (hP : P ≠ 0) {a b : Sc} (h : a • P = b • P) : a = b := by
  have : (a - b) • P = 0 := by rw [sub_smul, h, sub_self]
  rcases smul_eq_zero_iff.1 this with h | h
  · exact sub_eq_zero.1 h
  · exact absurd h hP

omit [Crypto] in
theorem exists_smul_of_ne [EC] {P : Pt} (hP : P ≠ 0) (Q : Pt) : ∃ s : Sc, Q = s • P := by
  obtain ⟨p, rfl⟩ := gen P
  obtain ⟨s, rfl⟩ := gen Q
  have hp : p ≠ 0 := fun h => hP (by rw [h, zero_smul])
  exact ⟨s * p⁻¹, by rw [← mul_smul, mul_assoc, inv_mul_cancel₀ hp, mul_one]⟩

/-- **C96** (`DLogProof`): the accepted proofs for the point of `x` are the honest ones, each for exactly one
nonce. -/
theorem C96_dlog {x : Sc} {pf : DLogProof} (hpk : pf.pk = x • G) :
    pf.verify = true ↔ ∃! t, DLogProof.prove x t = pf := by
  rw [DLogProof.verify_iff]
  constructor
  · intro h
    obtain ⟨t, ht⟩ := gen pf.pk_t_rand_commitment
    refine ⟨t, ?_, ?_⟩
    · obtain ⟨pk, T, z⟩ := pf
      dsimp only at hpk ht h
      subst hpk ht
      simp only [DLogProof.prove, DLogProof.mk.injEq, true_and]
      rw [← mul_smul, ← add_smul] at h
      exact sub_eq_iff_eq_add.2 (smul_G_inj.1 h).symm
    · rintro t' rfl
      exact smul_G_inj.1 ht
  · rintro ⟨t, rfl, -⟩
    exact (DLogProof.verify_iff _).1 (DLogProof.verify_prove x t)

/-- **C96** (`HomoELGamalProof`). -/
theorem C96_elgamal {r x : Sc} {st : HomoElGamalStatement} (hG : st.G ≠ 0) (hH : st.H ≠ 0)
    (hD : st.D = x • st.H + r • st.Y) (hE : st.E = r • st.G) {pf : HomoElGamalProof} :
    pf.verify st = true ↔ ∃! s : Sc × Sc, HomoElGamalProof.prove r x st s.1 s.2 = pf := by
  rw [HomoElGamalProof.verify_iff]
  constructor
  · rintro ⟨h1, h2⟩
    obtain ⟨s2, hs2⟩ := exists_smul_of_ne hG pf.A3
    obtain ⟨s1, hs1⟩ := exists_smul_of_ne hH (pf.T - s2 • st.Y)
    have hT : pf.T = s1 • st.H + s2 • st.Y := by rw [← hs1]; abel
    refine ⟨(s1, s2), ?_, ?_⟩
    · obtain ⟨T, A3, z1, z2⟩ := pf
      dsimp only at h1 h2 hs2 hT
      subst hs2 hT
      simp only [HomoElGamalProof.prove, HomoElGamalProof.mk.injEq, true_and]
      generalize (hashPts _ : Sc) = e at h1 h2
      rw [hE, ← mul_smul, ← add_smul] at h2
      have e2 := smul_inj_of_ne hG h2
      rw [hD, e2] at h1
      have : z1 • st.H = (s1 + e * x) • st.H := by
        simp only [add_smul, smul_add, mul_smul] at h1 ⊢
        have := congrArg (fun P => P - s2 • st.Y - e • r • st.Y) h1
        calc z1 • st.H = z1 • st.H + (s2 • st.Y + e • r • st.Y) - s2 • st.Y - e • r • st.Y := by abel
          _ = _ := this
          _ = _ := by abel
      exact ⟨(smul_inj_of_ne hH this).symm, e2.symm⟩
    · rintro ⟨t1, t2⟩ rfl
      simp only [HomoElGamalProof.prove] at hs2 hT
      have e2 := smul_inj_of_ne hG hs2
      subst e2
      have := smul_inj_of_ne hH (add_right_cancel hT)
      rw [this]
  · rintro ⟨s, rfl, -⟩
    exact (HomoElGamalProof.verify_iff _ _).1 (HomoElGamalProof.verify_prove r x st s.1 s.2 hD hE)

/-- **C96** (`ECDDHProof`). -/
theorem C96_ecddh {x : Sc} {st : ECDDHStatement} (hg : st.g1 ≠ 0) (h1 : st.h1 = x • st.g1)
    (h2 : st.h2 = x • st.g2) {pf : ECDDHProof} :
    pf.verify st = true ↔ ∃! s, ECDDHProof.prove x st s = pf := by
  rw [ECDDHProof.verify_iff]
  constructor
  · rintro ⟨e1, e2⟩
    obtain ⟨s, hs⟩ := exists_smul_of_ne hg pf.a1
    have hz : pf.z = s + (hashPts [st.g1, st.h1, st.g2, st.h2, pf.a1, pf.a2] : Sc) * x := by
      refine smul_inj_of_ne hg ?_
      rw [e1, add_smul, mul_smul, ← h1, ← hs]
    have ha2 : pf.a2 = s • st.g2 := by
      have := e2
      rw [hz, add_smul, mul_smul, ← h2] at this
      exact (add_right_cancel this).symm
    refine ⟨s, ?_, ?_⟩
    · obtain ⟨a1, a2, z⟩ := pf
      dsimp only at hs hz ha2
      subst hs ha2
      simp only [ECDDHProof.prove, ECDDHProof.mk.injEq, true_and]
      exact hz.symm
    · rintro s' rfl
      exact smul_inj_of_ne hg hs
  · rintro ⟨s, rfl, -⟩
    exact (ECDDHProof.verify_iff _ _).1 (ECDDHProof.verify_prove x st s h1 h2)

/-- **C96** is violated by `PedersenProof`: from a proof of knowledge of the opening of `m G + r H` one computes
`m G`, which the commitment itself hides (for every `m'` there is an `r'` with the same commitment, but the proofs
for the two openings are different). -/
theorem C96_pedersen_discloses (m r s1 s2 : Sc) (he : (PedersenProof.prove m r s1 s2).e ≠ 0) :
    pedersenLeak (PedersenProof.prove m r s1 s2) = m • G := by
  simp only [pedersenLeak, PedersenProof.prove] at he ⊢
  rw [add_smul, add_sub_cancel_left, mul_smul, ← mul_smul, inv_mul_cancel₀ he, one_smul]

theorem C96_pedersen_separates {m r m' r' s1 s2 s1' s2' : Sc}
    (he : (PedersenProof.prove m r s1 s2).e ≠ 0) (hm : m ≠ m') :
    PedersenProof.prove m r s1 s2 ≠ PedersenProof.prove m' r' s1' s2' := by
  intro h
  have h1 := C96_pedersen_discloses m r s1 s2 he
  rw [h, C96_pedersen_discloses m' r' s1' s2' (by rw [← h]; exact he)] at h1
  exact hm (smul_G_inj.1 h1).symm

/-- **C96** for `PedersenProof`, what holds: beyond the two parts `m G` and `r H` of the commitment a proof
discloses nothing. -/
theorem C96_pedersen_partial {m r : Sc} (hH : (H : Pt) ≠ 0) {pf : PedersenProof}
    (hcom : pf.com = m • G + r • H) (he : pf.e = hashPts [G, H, pf.com, pf.a1, pf.a2]) :
    (pf.verify = true ∧ pf.z1 • G = pf.a1 + pf.e • (m • (G : Pt))) ↔
      ∃! s : Sc × Sc, PedersenProof.prove m r s.1 s.2 = pf := by
  rw [PedersenProof.verify_iff, ← he]
  constructor
  · rintro ⟨h1, h2⟩
    obtain ⟨s1, hs1⟩ := gen pf.a1
    obtain ⟨s2, hs2⟩ := exists_smul_of_ne hH pf.a2
    have hz1 : pf.z1 = s1 + pf.e * m := smul_G_inj.1 (by rw [h2, hs1, add_smul, mul_smul])
    have hz2 : pf.z2 = s2 + pf.e * r := by
      refine smul_inj_of_ne hH ?_
      rw [h2, hcom, hs2] at h1
      rw [add_smul, mul_smul]
      have := congrArg (fun P => P - pf.a1 - pf.e • m • (G : Pt)) h1
      simp only [smul_add] at this
      calc pf.z2 • (H : Pt) = pf.a1 + pf.e • m • (G : Pt) + pf.z2 • H - pf.a1 - pf.e • m • (G : Pt) := by abel
        _ = _ := this
        _ = _ := by abel
    refine ⟨(s1, s2), ?_, ?_⟩
    · obtain ⟨e, a1, a2, com, z1, z2⟩ := pf
      dsimp only at hcom he hs1 hs2 hz1 hz2
      subst hcom hs1 hs2 hz1 hz2
      simp only [PedersenProof.prove, PedersenProof.mk.injEq, true_and]
      rw [← he]
      simp
    · rintro ⟨t1, t2⟩ rfl
      simp only [PedersenProof.prove] at hs1 hs2
      rw [smul_G_inj.1 hs1, smul_inj_of_ne hH hs2]
  · rintro ⟨s, rfl, -⟩
    refine ⟨?_, ?_⟩
    · have := (PedersenProof.verify_iff _).1 (PedersenProof.verify_prove m r s.1 s.2)
      rw [he]
      exact this
    · simp only [PedersenProof.prove]
      rw [add_smul, mul_smul]

theorem round2_proof {r : Round2} {r' : Round3} {input : List (MessageB × MessageB)} {rnd : SignRandomness}
    {out : List (Msg TMsg)} (h : r.proceed input rnd = .ok (r', out)) :
    r'.t_i_proof = PedersenProof.prove r'.sigma_i rnd.l rnd.ped1 rnd.ped2 := by
  unfold Round2.proceed at h
  simp only [Res.bind_eq_ok, Res.ok.injEq, Prod.mk.injEq] at h
  obtain ⟨gws, hg, sh, hsh, d, -, s, -, rfl, rfl⟩ := h
  rfl

/-- **C96** is violated in the offline stage: when a signer ends with a presignature, its broadcast of round 3
discloses the point of its share `sigma_i`, which the broadcast commitment was to hide (unless a hash is zero).
The messages of the other signers are arbitrary. -/
theorem C96_offline_discloses {rnd : SignRandomness} {i : ℕ} {s_l : List ℕ} {key : LocalKey} {s : State}
    (hnew : Sign.new i s_l key = .ok s) (ops : List (Op M))
    {c : CompletedOfflineStage} (ho : c ∈ ((machine rnd).run s ops).outputs) :
    ∃ t : TMsg, ⟨i, none, .M3 t⟩ ∈ (machine rnd).sent ((machine rnd).run s ops) ∧
      (t.t_i_proof.e ≠ 0 → pedersenLeak t.t_i_proof = c.sigma_i • G) := by
  obtain ⟨-, h1, h2, -⟩ := new_ok (rnd := rnd) hnew
  obtain ⟨b, hb, hl⟩ := C50_output_correct hnew ops ho
  obtain ⟨k, rfl⟩ : ∃ k, i = k + 1 := ⟨i - 1, by omega⟩
  have hk : k < s_l.length := by omega
  generalize (machine rnd).sent ((machine rnd).run s ops) = sent at hl ⊢
  have h := hl
  unfold offlineLine at h
  simp only [peers_eq_others, List.map_map] at h
  obtain ⟨r6, o7, h6, h7, e7⟩ := Script.step_ok h
  obtain ⟨r5, o6, h5, h6', e6⟩ := Script.step_ok h6
  obtain ⟨r4, o5, h4, h5', e5⟩ := Script.step_ok h5
  obtain ⟨r3, o4, h3, h4', e4⟩ := Script.step_ok h4
  obtain ⟨r2, o3, h2, h3', e3⟩ := Script.step_ok h3
  obtain ⟨r1, o2, h1, h2', e2⟩ := Script.step_ok h2
  obtain ⟨r0, o1, h0, h1', e1⟩ := Script.step_ok h1
  simp only [Prod.mk.injEq, true_and, Res.ok.injEq] at h0
  subst h0
  obtain ⟨p1, g1, rfl⟩ := sending_ok h1'
  obtain ⟨p2, g2, rfl⟩ := sending_ok h2'
  obtain ⟨p3, g3, rfl⟩ := sending_ok h3'
  obtain ⟨p4, g4, rfl⟩ := sending_ok h4'
  obtain ⟨p5, g5, rfl⟩ := sending_ok h5'
  obtain ⟨p6, g6, rfl⟩ := sending_ok h6'
  simp only [Res.bind_eq_ok, Res.ok.injEq, Prod.mk.injEq] at h7
  obtain ⟨c', h7, rfl, -⟩ := h7
  rw [e6, e5, e4, e3, e2, e1] at e7
  obtain ⟨i1, s1, k1, q1⟩ := round0_ok g1
  obtain ⟨i2, s2, k2, sk2, d2, bc2, ma2, c2⟩ := round1_ok hk i1 s1 k1 g2
  obtain ⟨i3, s3, k3, sk3, d3, bc3, ma3, mb3, q3, c3, c3'⟩ := round2_ok hk i2 s2 k2 g3
  obtain ⟨i4, s4, k4, sk4, d4, bc4, ma4, mb4, si4, t4, q4, c4, c4', di4⟩ := round3_ok hk i3 s3 g4
  obtain ⟨i5, s5, k5, sk5, ma5, si5, t5, R5, q5, c5, c5'⟩ := round4_ok hk (b2 := fun j => (b.b2 (j + 1)).1)
    i4 s4 (bc4.trans (bc3.trans bc2)) (mb4.trans mb3) g5
  obtain ⟨i6, s6, t6, o6, S6, q6, c6, c6'⟩ := round5_ok hk i5 s5 (ma5.trans (ma4.trans (ma3.trans ma2))) g6
  obtain ⟨o7, c7, c7'⟩ := round6_ok hk i6 s6 (t6.trans (t5.trans t4)) h7
  have sc : c'.sigma_i = r3.sigma_i := by rw [o7, o6]; exact si5.trans si4
  refine ⟨⟨r3.delta_i, r3.t_i, r3.t_i_proof⟩, by rw [e7, q3]; simp [Msg.mapBody], fun he => ?_⟩
  have hp := round2_proof g3
  dsimp only at he ⊢
  rw [hp] at he ⊢
  rw [C96_pedersen_discloses _ _ _ _ he, sc]

end

/-! ### Examples: the 31-point group -/

section
attribute [local instance] Toy.crypto

/-- C95: dealing 5 with threshold 2 among four parties, seen by parties 2 and 4. -/
example : ∃ (v : Vss) (shares : List Sc), (Vss.share 2 4 (5 : ZMod 31) [7, 3] : Res Empty (Vss × List Sc)) =
    .ok (v, shares) ∧
    v = ⟨2, 4, simCommitments 2 {2, 4} ((5 : ZMod 31) • (G : Pt)) (fun i => shares.getD (i - 1) 0)⟩ :=
  ⟨_, _, rfl, C95_dealing_simulated (ε := Empty) (n := 4) (coefs := [(7 : ZMod 31), (3 : ZMod 31)])
    (T := {2, 4}) (by decide) (by decide) (by decide) rfl rfl⟩

/-- C96: an accepted proof that the key of 5 is known. -/
example : ∃ pf : DLogProof, pf.pk = (5 : ZMod 31) • (G : Pt) ∧ pf.verify = true ∧
    ∃! t, DLogProof.prove (5 : ZMod 31) t = pf :=
  ⟨DLogProof.prove (5 : ZMod 31) (9 : ZMod 31), rfl, by decide +kernel,
    (C96_dlog rfl).1 (by decide +kernel)⟩

/-- C96: the hypotheses on the statement of `HomoELGamalProof`. -/
example : ∃ (st : HomoElGamalStatement) (r x : Sc), st.G ≠ 0 ∧ st.H ≠ 0 ∧ st.Y ≠ 0 ∧
    st.D = x • st.H + r • st.Y ∧ st.E = r • st.G :=
  ⟨⟨(1 : ZMod 31), (5 : ZMod 31), (4 : ZMod 31), (1 : ZMod 31), (3 : ZMod 31)⟩, (3 : ZMod 31), (4 : ZMod 31),
    by decide +kernel, by decide +kernel, by decide +kernel, by decide +kernel, by decide +kernel⟩

/-- C96: the hypotheses on the statement of `ECDDHProof`. -/
example : ∃ (st : ECDDHStatement) (x : Sc), st.g1 ≠ 0 ∧ st.h1 = x • st.g1 ∧ st.h2 = x • st.g2 :=
  ⟨⟨(1 : ZMod 31), (5 : ZMod 31), (4 : ZMod 31), (20 : ZMod 31)⟩, (5 : ZMod 31),
    by decide +kernel, by decide +kernel, by decide +kernel⟩

/-- C96: two openings of one Pedersen commitment; from the proofs one sees which of them the prover has. -/
example : (3 : ZMod 31) • (G : Pt) + (2 : ZMod 31) • (H : Pt) = (8 : ZMod 31) • (G : Pt) + (1 : ZMod 31) • (H : Pt) ∧
    pedersenLeak (PedersenProof.prove (3 : ZMod 31) (2 : ZMod 31) (11 : ZMod 31) (12 : ZMod 31)) =
      (3 : ZMod 31) • (G : Pt) ∧
    pedersenLeak (PedersenProof.prove (8 : ZMod 31) (1 : ZMod 31) (21 : ZMod 31) (13 : ZMod 31)) =
      (8 : ZMod 31) • (G : Pt) :=
  ⟨by decide +kernel, C96_pedersen_discloses _ _ _ _ (by decide +kernel),
    C96_pedersen_discloses _ _ _ _ (by decide +kernel)⟩

/-- C96: a history of the offline stage with an output, and the message that discloses its share. -/
example : ∃ s ops c t, Sign.new 1 [3, 1] (toyLocal 3) = .ok s ∧
    c ∈ ((machine (toySign 0)).run s ops).outputs ∧
    ⟨1, none, .M3 t⟩ ∈ (machine (toySign 0)).sent ((machine (toySign 0)).run s ops) ∧
    (t.t_i_proof.e ≠ 0 → pedersenLeak t.t_i_proof = c.sigma_i • G) := by
  obtain ⟨s, c, hs, ho⟩ := toy_outputs
  have hm : c ∈ ((machine (toySign 0)).run s
      ((toyOps ++ [.proceed, .proceed, .proceed]) ++ [.pick])).outputs := by
    rw [ho]; exact List.mem_singleton.2 rfl
  obtain ⟨t, h1, h2⟩ := C96_offline_discloses hs _ hm
  exact ⟨s, _, c, t, hs, hm, h1, h2⟩

end
end Verif.Props
