import Verif.Lemmas.HonestNotNamed
import Verif.Props.SignChecks
import Verif.Props.HonestNotNamed
import Verif.Props.GG18
import Verif.Spec.NonceAgreement

/-!
# C120: honest signers that complete the offline stage have the same nonce point

Nobody checks that broadcasts are consistent: a dishonest signer can tell the others different things, and then
they compute different nonce points.  They cannot both complete the offline stage with them, since the proofs
that an honest signer sends in round 5 are about its own nonce point.
-/

namespace Verif.Props

open EC Crypto Spec GG20 GG20.Sign

section
variable [Crypto]

/-- A proof made for the base `st.G` and accepted for the base `G'`. -/
theorem pdl_two_bases {dk : DecKey} (hv : dk.Valid) {w : PDLwSlackWitness} {st : PDLwSlackStatement} {rnd : PdlRand}
    {pf : PDLwSlackProof} {G' : Pt} (hek : st.ek = dk.n)
    (hu : (⟨st.N_tilde, st.h1, st.h2⟩ : DLogStatement).Usable)
    (hQ : st.Q = w.x • st.G) (hr : Int.gcd w.r dk.n = 1)
    (hc : st.ciphertext = Paillier.encrypt dk.n w.x.val w.r) (hβ : Int.gcd rnd.beta dk.n = 1)
    (hprove : PDLwSlackProof.prove w st rnd = some pf) (hacc : pf.verify { st with G := G' } = some true) :
    ((hashInts [ser G', ser st.Q, st.ciphertext, pf.z, ser pf.u1, pf.u2, pf.u3] : ℤ) -
        hashInts [ser st.G, ser st.Q, st.ciphertext, pf.z, ser pf.u1, pf.u2, pf.u3]) * w.x.val ≡ 0 [ZMOD dk.n] ∧
    (pf.s1 : Sc) • (G' - st.G) =
      ((hashInts [ser G', ser st.Q, st.ciphertext, pf.z, ser pf.u1, pf.u2, pf.u3] : Sc) -
        hashInts [ser st.G, ser st.Q, st.ciphertext, pf.z, ser pf.u1, pf.u2, pf.u3]) • st.Q := by
  have hn : 0 < dk.n := by
    obtain ⟨hp, hq, -⟩ := hv
    exact Nat.mul_pos hp.pos hq.pos
  obtain ⟨pf', hp1, hp2⟩ := pdl_complete (rnd := rnd) hu.1 hu.2 hu.3 (by rw [hek]; exact hn) hQ
    (by rw [hek]; exact hr) (by rw [hek, hc]; exact Paillier.isEnc_encrypt _ _ _)
  rw [hprove] at hp1
  cases hp1
  obtain ⟨M, hM, hstN, v1, v2, h1, h2⟩ := hu.units
  simp only at hstN h1 h2
  have t1 := pdl_accepted hM hstN (by rw [hek]; exact hn) h1 h2 hp2
  have t2 := pdl_accepted (st := { st with G := G' }) hM hstN (by rw [hek]; exact hn) h1 h2 hacc
  simp only at t2
  have hs2 : Int.gcd pf.s2 dk.n = 1 := by
    unfold PDLwSlackProof.prove at hprove
    simp only [Option.bind_eq_bind, Option.bind_eq_some_iff, Option.some.injEq] at hprove
    obtain ⟨z, -, u2, -, u3, -, s2, hs2, rfl⟩ := hprove
    obtain ⟨ur, hur⟩ := unit_of_gcd hr
    obtain ⟨ub, hub⟩ := unit_of_gcd hβ
    obtain ⟨y, hy, hy2, -⟩ := cuo_units hn hur hub
      (pdlChallenge st z ((rnd.alpha : Sc) • st.G) u2 u3) 1
    rw [hek, hy, Option.some.injEq] at hs2
    rw [← hs2]
    exact gcd_of_unit hy2
  refine ⟨?_, ?_⟩
  · obtain ⟨ct, ek, _⟩ := st
    simp only at hek hc
    subst hek hc
    have := plaintext_of_two hv hr t2.ciphertext t1.ciphertext hs2 hs2
    simpa using this
  · rw [smul_sub, t1.point, t2.point, sub_smul]
    abel

variable {n : ℕ} {Y : Pt} {x : ℕ → Sc} {dk : ℕ → DecKey} {sts : List DLogStatement} {s_l : List ℕ} {v p : ℕ}
  {keyv keyp : LocalKey} {rndv rndp : GG20.SignRandomness} {bv bp : SignerMsgs} {c c' : CompletedOfflineStage}

/-- **C120** (GG20). Signers `v + 1` and `p + 1` run the program; the others do anything and may send different
things to the two.  If both complete the offline stage and `v + 1` received what `p + 1` sent, then both have the
same nonce point, unless in each of the proofs of `p + 1` the answer `s1` is zero modulo the group order and the
two nonce points, different as they are, give the same challenge. -/
theorem C120_same_nonce_point (hv : HonestSigner n Y x dk sts s_l v keyv rndv)
    (hp : HonestSigner n Y x dk sts s_l p keyp rndp) (hne : p ≠ v)
    (tells : TellsNonces (dk (s_l.getD p 0)) rndp)
    (h : (offlineLine rndv (v + 1) s_l keyv bv).2 = .ok c)
    (h' : (offlineLine rndp (p + 1) s_l keyp bp).2 = .ok c')
    (genuine : SignGenuineUpTo 6 (offlineLine rndp (p + 1) s_l keyp bp).1 (v + 1) (p + 1) bv) :
    c.R = c'.R ∨ ProofCoincidence (offlineLine rndp (p + 1) s_l keyp bp).1 (p + 1) c.R c'.R := by
  by_cases hR : c.R = c'.R
  · exact .inl hR
  refine .inr ⟨bv.b1 (p + 1), bv.b5 (p + 1), genuine.1 (by decide), genuine.2.2.2.2.1 (by decide), ?_⟩
  obtain ⟨hk, hβ, hprimes, hrange⟩ := tells
  have hlen : 2 ≤ s_l.length := by have := hv.pos; have := hp.pos; omega
  obtain ⟨own, -, -, -, -, -, hchk⟩ := C68_line_checks
    (sent := (offlineLine rndv (v + 1) s_l keyv bv).1) hv.pos (by rw [← h])
  obtain ⟨N, hN, hpdl⟩ := hchk.pdl p hp.pos hne
  obtain ⟨g1, -, -, -, g5, -⟩ := genuine
  obtain ⟨r1, o1, a1, e1⟩ := sent1 (g1 (by decide))
  obtain ⟨r5, o5, a5, e5⟩ := sent5 hp.pos (g5 (by decide))
  have hmem := hp.members _ (getD_mem hp.pos)
  obtain rfl : N = (dk (s_l.getD p 0)).n := by
    rw [hv.holds.eks, List.getElem?_map, List.getElem?_range (by omega), Option.map_some,
      Nat.sub_add_cancel hmem.1, Option.some.injEq] at hN
    exact hN.symm
  -- the nonce point of `p` is the one its proofs are about
  have hR5 : r5.R = c'.R := by
    rw [offlineLine_eq] at h'
    obtain ⟨r6, o, h6, hpr⟩ := Script.step_snd h'
    obtain ⟨o6, a6⟩ := line6_ok h6
    obtain ⟨_, _, r5', o5', -, a5', -, -, -, hR6, -⟩ := at6_facts hp.pos a6
    obtain rfl := at5_unique a5' a5
    simp only [Res.bind_eq_ok, Res.ok.injEq, Prod.mk.injEq] at hpr
    obtain ⟨c6, hc6, rfl, -⟩ := hpr
    unfold Round6.proceed at hc6
    simp only [Res.bind_eq_ok, Res.ok.injEq] at hc6
    obtain ⟨_, -, _, -, rfl⟩ := hc6
    exact hR6.symm
  obtain ⟨r1', o1', -, -, a1', -, -, -, -, -, -, -, -, -, -, -, hRd, -, hl, hpf⟩ := at5_facts hp.pos a5
  obtain rfl := at1_unique a1' a1
  have hc := own_cipher hp a1
  rw [e5, e1] at hpdl ⊢
  simp only at hpdl ⊢
  rw [(C42_pdl_check_partial (by rw [List.length_map]; omega) (by
    intro y hy
    obtain ⟨i, hi, rfl⟩ := List.mem_map.1 hy
    have := hv.members i hi
    rw [hv.holds.sts_eq, hv.aux.1]
    omega)).1] at hpdl
  refine ⟨by rw [← List.length_pos_iff_ne_nil, hl]; omega, fun pf hm => ?_⟩
  obtain ⟨j, hj, rfl⟩ := List.getElem_of_mem hm
  obtain ⟨pf', si, st, b1, b2, b3, b4⟩ := hpdl.2 j hj
  obtain ⟨N, st', pf'', d1, d2, d3, d4⟩ := hpf j (by omega)
  rw [own_ek hp] at d1
  cases d1
  rw [List.getElem?_eq_getElem hj] at b1 d3
  cases b1
  cases d3
  obtain rfl : st' = st := by
    rw [List.getElem?_map] at b2
    have hj' := otherInd_lt (k := p) (j := j) (m := s_l.length) (by omega)
    rw [show (if j < p then j else j + 1) = otherInd p j from rfl, List.getElem?_eq_getElem hj', Option.map_some,
      Option.some.injEq] at b2
    rw [hp.holds.sts_eq, List.getD_eq_getElem?_getD, List.getElem?_eq_getElem hj', Option.getD_some, b2] at d2
    rw [hv.holds.sts_eq, d2, Option.some.injEq] at b3
    exact b3
  have hst : st' ∈ sts := by rw [← hv.holds.sts_eq]; exact List.mem_of_getElem? b3
  have hu := hv.aux.usable st' hst
  obtain ⟨t1, t2⟩ := pdl_two_bases (G' := c.R) hp.dk_valid rfl ⟨hu.1, hu.2.1, hu.2.2⟩ hRd hp.ra_unit hc (hβ _) d4 b4
  simp only [pdlStatement] at t1 t2
  rw [hR5] at t1 t2
  have hcop : IsCoprime ((dk (s_l.getD p 0)).n : ℤ) (rndp.k.val : ℤ) := by
    rw [Nat.isCoprime_iff_coprime]
    have hlt := ZMod.val_lt rndp.k
    have hpos : 0 < rndp.k.val := Nat.pos_of_ne_zero ((ZMod.val_ne_zero _).2 hk)
    obtain ⟨p1, p2, -⟩ := hp.dk_valid
    exact Nat.Coprime.mul_left (Nat.coprime_of_lt_prime hpos.ne' (by omega) p1)
      (Nat.coprime_of_lt_prime hpos.ne' (by omega) p2)
  have heq := hcop.dvd_of_dvd_mul_right (Int.modEq_zero_iff_dvd.1 t1)
  have key : ∀ {a b N : ℕ}, a < N → b < N → (N : ℤ) ∣ (a : ℤ) - b → a = b := by
    intro a b N ha hb hd
    have := (Nat.modEq_iff_dvd.2 hd).symm
    rwa [Nat.ModEq, Nat.mod_eq_of_lt ha, Nat.mod_eq_of_lt hb] at this
  have he := key (hrange _) (hrange _) heq
  refine ⟨?_, he⟩
  rw [he, sub_self, zero_smul] at t2
  by_contra h0
  exact hR (sub_eq_zero.1 ((smul_pt_inj h0).1 (t2.trans (smul_zero _).symm)))

/-- **C120** (GG20, any schedule). Two state machines of the offline stage, `v + 1` and `p + 1`, fed with any messages
in any order; whatever `v + 1` accepted in the name of `p + 1` was sent by `p + 1`.  If both hand out a result, the
nonce points are the same, unless in each of the proofs that `p + 1` sent in round 5 the answer `s1` is zero modulo
the group order and the two nonce points give the same challenge. -/
theorem C120_machines {rv rp : GG20.SignRandomness} {sv sp : Sign.State}
    (hv : HonestSigner n Y x dk sts s_l v keyv rv) (hp : HonestSigner n Y x dk sts s_l p keyp rp) (hne : p ≠ v)
    (tells : TellsNonces (dk (s_l.getD p 0)) rp)
    (newv : Sign.new (v + 1) s_l keyv = .ok sv) (newp : Sign.new (p + 1) s_l keyp = .ok sp) (opsv opsp : List (Op M))
    (genuine : ∀ m ∈ ((machine rv).run sv opsv).accepted, m.sender = p + 1 →
      m ∈ (machine rp).sent ((machine rp).run sp opsp))
    (hc : c ∈ ((machine rv).run sv opsv).outputs) (hc' : c' ∈ ((machine rp).run sp opsp).outputs) :
    c.R = c'.R ∨ ProofCoincidence ((machine rp).sent ((machine rp).run sp opsp)) (p + 1) c.R c'.R := by
  obtain ⟨bv, hbv, lv⟩ := C50_output_correct newv opsv hc
  obtain ⟨bp, -, lp⟩ := C50_output_correct newp opsp hc'
  obtain ⟨a1, a2, a3, a4, a5, a6⟩ := hbv (p + 1) (by
    have := hp.pos
    simp only [peers, List.mem_filter, List.mem_range'_1, decide_eq_true_eq]
    omega)
  have := C120_same_nonce_point hv hp hne tells (by rw [lv]) (by rw [lp]) (by
    rw [lp]
    exact ⟨fun _ => genuine _ a1 rfl, fun _ => genuine _ a2 rfl, fun _ => genuine _ a3 rfl,
      fun _ => genuine _ a4 rfl, fun _ => genuine _ a5 rfl, fun _ => genuine _ a6 rfl⟩)
  rwa [lp] at this

theorem heg_two_bases {R R' : Pt} {e e' l rho s s1 s2 : Sc} (hl : l ≠ 0) (hrho : rho ≠ 0)
    (h1 : (s1 + e' * s) • R + (s2 + e' * l) • (G : Pt) = s1 • R' + s2 • G + e • (s • R' + l • G))
    (h2 : (s2 + e' * l) • rho • (G : Pt) = s2 • rho • G + e • (l * rho) • G) :
    e = e' ∧ (s1 + e' * s) • (R - R') = 0 := by
  have he : e = e' := by
    have : (e * (l * rho) - e' * (l * rho)) • (G : Pt) = 0 := by
      linear_combination (norm := module) -h2
    have h0 := smul_G_eq_zero.1 this
    exact mul_right_cancel₀ (mul_ne_zero hl hrho) (sub_eq_zero.1 h0)
  subst he
  refine ⟨rfl, ?_⟩
  linear_combination (norm := module) h1

/-- **C120** (GG18). A signer with the nonce point `R` whose phase 5c succeeds, where one of the openings and proofs
was made by a signer that runs the program (`phase5a`) with the nonce point `selfp.R`: the nonce points are the same,
unless the answer `z1` of that proof is zero and the two nonce points, different as they are, give the same
challenge. -/
theorem C120_gg18_same_nonce_point {selfv selfp : GG18.LocalSignature} {decoms : List GG18.Phase5ADecom1}
    {coms : List GG18.Phase5Com1} {hegs : List HomoElGamalProof} {dlogs : List DLogProof} {v_i : Pt} {bl bl' : ℤ}
    {dn s1 s2 : Sc} {i : ℕ} {com : GG18.Phase5Com1} {d : GG18.Phase5ADecom1} {heg : HomoElGamalProof}
    {dlog : DLogProof} {out : GG18.Phase5Com2 × GG18.Phase5DDecom2} (hl : selfp.l_i ≠ 0) (hrho : selfp.rho_i ≠ 0)
    (hmade : selfp.phase5a bl' dn s1 s2 = (com, d, heg, dlog))
    (h : selfv.phase5c decoms coms hegs dlogs v_i selfv.R bl = .ok out)
    (hd : decoms[i]? = some d) (hheg : hegs[i]? = some heg) :
    selfv.R = selfp.R ∨ (heg.z1 = 0 ∧
      hashPts [heg.T, heg.A3, d.A_i, selfv.R, G, d.V_i, d.B_i] =
        hashPts [heg.T, heg.A3, d.A_i, selfp.R, G, d.V_i, d.B_i]) := by
  by_cases hR : selfv.R = selfp.R
  · exact .inl hR
  refine .inr ?_
  have hver : heg.verify ⟨d.A_i, selfv.R, G, d.V_i, d.B_i⟩ = true := by
    unfold GG18.LocalSignature.phase5c at h
    simp only [Res.bind_eq_ok, Res.assert_eq_ok] at h
    obtain ⟨_, hlen, b, hb, _, -, h⟩ := h
    have hi : i < coms.length := by
      have := (List.getElem?_eq_some_iff.1 hd).1
      simp only [decide_eq_true_eq] at hlen
      omega
    split_ifs at h with hbt
    subst hbt
    have ht := allRes_range_true.1 hb i hi
    unfold GG18.phase5c_test at ht
    rw [Res.get_eq_ok.2 hd, Res.bind_ok, Res.bind_eq_ok] at ht
    obtain ⟨cc, -, ht⟩ := ht
    split_ifs at ht
    · rw [Res.get_eq_ok.2 hheg, Res.bind_ok] at ht
      split_ifs at ht with hv
      · exact hv
      · cases ht
    · cases ht
  simp only [GG18.LocalSignature.phase5a, Prod.mk.injEq] at hmade
  obtain ⟨-, rfl, rfl, -⟩ := hmade
  rw [HomoElGamalProof.verify_iff] at hver
  simp only [HomoElGamalProof.prove, GG18.phase5Statement] at hver ⊢
  obtain ⟨he, hz⟩ := heg_two_bases hl hrho hver.1 hver.2
  refine ⟨?_, he⟩
  by_contra h0
  exact hR (sub_eq_zero.1 ((smul_pt_inj h0).1 (hz.trans (smul_zero _).symm)))

end

/-! ### Example: parties 3, 1 and 2 on the 31-point group -/

section
attribute [local instance] Toy.crypto

theorem toy_hash_lt (l : List ℤ) : hashInts l < toyKey.n := by
  suffices ∀ a : ℤ, 0 ≤ a → a < 31 → (l.foldl (fun acc x => (5 * acc + x + 1) % 31) a).natAbs < 31 from
    (this 0 (by decide) (by decide)).trans (by decide)
  induction l with
  | nil => intro a h1 h2; simp only [List.foldl_nil]; omega
  | cons x l ih => intro a _ _; exact ih _ (by dsimp only; omega) (by dsimp only; omega)

theorem tri_no_coincidence {R R' : Pt} :
    ¬ ProofCoincidence (offlineLine (toySign 1) 2 tri (triKey 1) (triMsgs false 1)).1 2 R R' := by
  rintro ⟨m1, m5, -, h5, -, h⟩
  have h0 : ((offlineLine (toySign 1) 2 tri (triKey 1) (triMsgs false 1)).1.all fun m => match m.body with
      | .M5 m5 => m5.2.any fun pf => ((pf.s1 : ℤ) : ZMod 31) != 0
      | _ => true) = true := by decide +kernel
  have h1 := List.all_eq_true.1 h0 _ h5
  simp only at h1
  obtain ⟨pf, hm, hne⟩ := List.any_eq_true.1 h1
  exact absurd (h pf hm).1 (by simpa using hne)

theorem tri_tells : TellsNonces toyKey (toySign 1) :=
  ⟨by decide, fun j => by simp only [toySign]; decide, by decide, toy_hash_lt⟩

/-- Signers 1 and 2 of three complete the offline stage and meet the hypotheses. -/
theorem tri_same_nonce : ∃ c c', (offlineLine (toySign 0) 1 tri (triKey 0) (triMsgs false 0)).2 = .ok c ∧
    (offlineLine (toySign 1) 2 tri (triKey 1) (triMsgs false 1)).2 = .ok c' ∧ c.R = c'.R := by
  obtain ⟨c, hc⟩ := tri_completes 0 (by decide)
  obtain ⟨c', hc'⟩ := tri_completes 1 (by decide)
  refine ⟨c, c', hc, hc', ?_⟩
  rcases C120_same_nonce_point (bv := triMsgs false 0) (bp := triMsgs false 1) (triSigner (k := 0) (by decide))
    (triSigner (k := 1) (by decide)) (by decide) tri_tells hc hc'
    ⟨fun _ => by decide +kernel, fun _ => by decide +kernel, fun _ => by decide +kernel,
      fun _ => by decide +kernel, fun _ => by decide +kernel, fun _ => by decide +kernel⟩ with h | h
  · exact h
  · exact (tri_no_coincidence h).elim

/-- What the signer at position `k` is called with: one round's messages, `proceed`, and so on. -/
def triOps (k : ℕ) : List (Op M) :=
  let ps := peers (k + 1) 3
  let b := triMsgs false k
  .proceed :: ps.map (fun p => .deliver ⟨p, none, .M1 (b.b1 p)⟩) ++
  .proceed :: ps.map (fun p => .deliver ⟨p, some (k + 1), .M2 (b.b2 p)⟩) ++
  .proceed :: ps.map (fun p => .deliver ⟨p, none, .M3 (b.b3 p)⟩) ++
  .proceed :: ps.map (fun p => .deliver ⟨p, none, .M4 (b.b4 p)⟩) ++
  .proceed :: ps.map (fun p => .deliver ⟨p, none, .M5 (b.b5 p)⟩) ++
  .proceed :: ps.map (fun p => .deliver ⟨p, none, .M6 (b.b6 p)⟩) ++ [.proceed, .pick]

/-- The state machines of signers 1 and 2 meet the hypotheses. -/
theorem tri_machines : ∃ sv sp c c', Sign.new 1 tri (triKey 0) = .ok sv ∧ Sign.new 2 tri (triKey 1) = .ok sp ∧
    (∀ m ∈ ((machine (toySign 0)).run sv (triOps 0)).accepted, m.sender = 2 →
      m ∈ (machine (toySign 1)).sent ((machine (toySign 1)).run sp (triOps 1))) ∧
    ((machine (toySign 0)).run sv (triOps 0)).outputs = [c] ∧
    ((machine (toySign 1)).run sp (triOps 1)).outputs = [c'] ∧ c.R = c'.R ∧
    ¬ ProofCoincidence ((machine (toySign 1)).sent ((machine (toySign 1)).run sp (triOps 1))) 2 c.R c'.R := by
  obtain ⟨sv, hv⟩ := (C37_new_accepts_partial 1 tri (triKey 0)).2 ⟨by decide, by decide, by decide, by decide⟩
  obtain ⟨sp, hp⟩ := (C37_new_accepts_partial 2 tri (triKey 1)).2 ⟨by decide, by decide, by decide, by decide⟩
  have hv' := hv
  have hp' := hp
  unfold Sign.new at hv' hp'
  split_ifs at hv' hp'
  simp only [Except.ok.injEq] at hv' hp'
  have g : ∀ m ∈ ((machine (toySign 0)).run sv (triOps 0)).accepted, m.sender = 2 →
      m ∈ (machine (toySign 1)).sent ((machine (toySign 1)).run sp (triOps 1)) := by
    rw [← hv', ← hp']
    decide +kernel
  have o : ((machine (toySign 0)).run sv (triOps 0)).outputs.length = 1 := by
    rw [← hv']
    decide +kernel
  have o' : ((machine (toySign 1)).run sp (triOps 1)).outputs.length = 1 := by
    rw [← hp']
    decide +kernel
  obtain ⟨c, hc⟩ := List.length_eq_one_iff.1 o
  obtain ⟨c', hc'⟩ := List.length_eq_one_iff.1 o'
  have hno : ¬ ProofCoincidence ((machine (toySign 1)).sent ((machine (toySign 1)).run sp (triOps 1))) 2 c.R c'.R := by
    rintro ⟨_, m5, -, h5, -, h⟩
    have h0 : (((machine (toySign 1)).sent ((machine (toySign 1)).run sp (triOps 1))).all fun m => match m.body with
        | .M5 m5 => m5.2.any fun pf => ((pf.s1 : ℤ) : ZMod 31) != 0
        | _ => true) = true := by
      rw [← hp']
      decide +kernel
    have h1 := List.all_eq_true.1 h0 _ h5
    simp only at h1
    obtain ⟨pf, hm, hne⟩ := List.any_eq_true.1 h1
    exact absurd (h pf hm).1 (by simpa using hne)
  exact ⟨sv, sp, c, c', hv, hp, g, hc, hc', (C120_machines (triSigner (k := 0) (by decide))
    (triSigner (k := 1) (by decide)) (by decide) tri_tells hv hp (triOps 0) (triOps 1) g
    (hc ▸ List.mem_singleton.2 rfl) (hc' ▸ List.mem_singleton.2 rfl)).resolve_right hno, hno⟩

/-- A GG18 signer with the nonce point `2 G` that accepts the opening of another one. -/
example {R : ZMod 31} {out} (h : (⟨(3 : ZMod 31), (4 : ZMod 31), R, (6 : ZMod 31), 10, (7 : ZMod 31)⟩ :
    GG18.LocalSignature).phase5c [toy5a.2.1] [toy5a.1] [toy5a.2.2.1] [toy5a.2.2.2] (1 : ZMod 31) R 3 = .ok out) :
    R = (2 : ZMod 31) := by
  rcases C120_gg18_same_nonce_point (i := 0) (selfp := ⟨(3 : ZMod 31), (4 : ZMod 31), (2 : ZMod 31), (5 : ZMod 31), 10,
    (7 : ZMod 31)⟩) (bl' := 1) (dn := (3 : ZMod 31)) (s1 := (4 : ZMod 31)) (s2 := (5 : ZMod 31))
    (com := toy5a.1) (d := toy5a.2.1) (heg := toy5a.2.2.1) (dlog := toy5a.2.2.2)
    (by decide) (by decide) rfl h rfl rfl with h | h
  · exact h
  · exact absurd h.1 (by decide +kernel)

example : ∃ out, (⟨(3 : ZMod 31), (4 : ZMod 31), (2 : ZMod 31), (6 : ZMod 31), 10, (7 : ZMod 31)⟩ :
    GG18.LocalSignature).phase5c [toy5a.2.1] [toy5a.1] [toy5a.2.2.1] [toy5a.2.2.2] (1 : ZMod 31) (2 : ZMod 31) 3 =
      .ok out :=
  (C71_phase5c_iff ⟨(3 : ZMod 31), (4 : ZMod 31), (2 : ZMod 31), (6 : ZMod 31), 10, (7 : ZMod 31)⟩
    (xr := ((coords (2 : ZMod 31)).getD (0, 0)).1) (y := ((coords (2 : ZMod 31)).getD (0, 0)).2) (by decide)
    (decoms := [toy5a.2.1]) (coms := [toy5a.1]) (hegs := [toy5a.2.2.1]) (dlogs := [toy5a.2.2.2]) (1 : ZMod 31)
    (2 : ZMod 31) 3 rfl rfl rfl).1.2 fun i hi => by
      obtain rfl : i = 0 := by simpa using hi
      exact toy5a_opens

end
end Verif.Props
