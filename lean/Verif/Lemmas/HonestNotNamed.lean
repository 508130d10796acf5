import Verif.Lemmas.SignerFacts

/-! # Honest signers pass the checks that name signers -/

namespace Verif.GG20.Sign

open EC Crypto Spec

variable [Crypto]

theorem round5_named {r : Round5} {rnd : SignRandomness} {inp : List (Pt × List PDLwSlackProof)} {p : ℕ}
    {e : SignError} (h : r.proceed inp rnd = .err e) (hp : p + 1 ∈ namedSigners e) :
    failedAfter e = 5 ∧ p < r.s_l.length ∧
      ∃ e', r.checkPdl (intoVecIncludingMe inp r.i (r.R_dash, r.phase5_proofs_vec)) p = .err e' := by
  unfold Round5.proceed at h
  simp only [Res.bind_eq_err, Res.mapErr_eq_err, reduceCtorEq, and_false, exists_false, or_false] at h
  rcases h with h | ⟨_, -, e', he, rfl⟩
  · obtain ⟨j, hj, h⟩ := Res.mapM_eq_err h
    suffices failedAfter e = 5 ∧ p = j by
      obtain ⟨hf, rfl⟩ := this
      exact ⟨hf, List.mem_range.1 hj, e, h⟩
    unfold Round5.checkPdl at h
    simp only [Res.bind_eq_err, Res.get_ne_err, false_or, Res.mapErr_eq_err] at h
    obtain ⟨_, -, _, -, _, -, _, -, e', he, rfl⟩ := h
    unfold phase5_verify_pdl at he
    split_ifs at he
    · obtain rfl := Res.err.inj he
      exact ⟨by simp [failedAfter], by simpa [namedSigners] using hp⟩
    · rw [Res.bind_eq_err] at he
      rcases he with he | ⟨⟨ok, bad⟩, ha, he⟩
      · refine absurd he (allPush_ne_err fun i _ e hi => ?_)
        unfold phase5_pdl_test at hi
        simp only [Res.bind_eq_err, Res.get_ne_err, Res.ofOption_ne_err, false_or, and_false,
          exists_false] at hi
      · cases ok with
        | true => simp at he
        | false =>
          simp only [Bool.false_eq_true, if_false] at he
          obtain rfl := Res.err.inj he
          simp only [namedSigners, List.map_map, List.mem_map, Function.comp_apply,
            Nat.add_right_cancel_iff] at hp
          obtain ⟨_, -, h⟩ := hp
          exact ⟨by simp [failedAfter], h.symm⟩
  · simp [anon, namedSigners] at hp

theorem phase6_bad_false {ε : Type} {S_vec : List Pt} {pfs : List HomoElGamalProof} {R_vec T_vec : List Pt} :
    ∀ {is bad : List ℕ}, (phase6_bad S_vec pfs R_vec T_vec is : Res ε (List ℕ)) = .ok bad →
      ∀ i ∈ bad, ∃ R T S pf, R_vec[i]? = some R ∧ T_vec[i]? = some T ∧ S_vec[i]? = some S ∧
        pfs[i]? = some pf ∧ pf.verify (hegStatement R T S) = false
  | [], bad, h => by
    obtain rfl := Res.ok.inj h
    simp
  | i :: is, bad, h => by
    simp only [phase6_bad, Res.bind_eq_ok, Res.get_eq_ok, Res.ok.injEq] at h
    obtain ⟨R, hR, T, hT, S, hS, pf, hpf, rest, hrest, rfl⟩ := h
    intro j hj
    split_ifs at hj with hv
    · exact phase6_bad_false hrest j hj
    · rcases List.mem_cons.1 hj with rfl | hj
      · exact ⟨R, T, S, pf, hR, hT, hS, hpf, by simpa using hv⟩
      · exact phase6_bad_false hrest j hj

theorem round6_named {r : Round6} {inp : List (Pt × HomoElGamalProof)} {p : ℕ} {e : SignError}
    (h : r.proceed inp = .err e) (hp : p + 1 ∈ namedSigners e) :
    failedAfter e = 6 ∧ p < r.s_l.length ∧ ∃ T x, r.t_vec[p]? = some T ∧
      (intoVecIncludingMe inp r.i (r.S_i, r.homo_elgamal_proof))[p]? = some x ∧
      x.2.verify (hegStatement r.protocol_output.R T x.1) = false := by
  unfold Round6.proceed at h
  simp only [Res.bind_eq_err, Res.mapErr_eq_err, reduceCtorEq, and_false, exists_false, or_false] at h
  rcases h with ⟨e', he, rfl⟩ | ⟨_, -, e', he, rfl⟩
  · unfold phase6_verify_proof at he
    rw [Res.bind_eq_err] at he
    rcases he with he | ⟨bad, hb, he⟩
    · exact absurd he phase6_bad_ne_err
    · split_ifs at he with hne
      obtain rfl := Res.err.inj he
      simp only [namedSigners, List.mem_map, Nat.add_right_cancel_iff, exists_eq_right] at hp
      obtain ⟨R, T, S, pf, h1, h2, h3, h4, h5⟩ := phase6_bad_false hb p hp
      simp only [List.getElem?_map, Option.map_eq_some_iff] at h3 h4
      obtain ⟨x, hx, rfl⟩ := h3
      obtain ⟨x', hx', rfl⟩ := h4
      rw [hx] at hx'
      cases hx'
      rw [List.getElem?_replicate] at h1
      split_ifs at h1 with hlt
      cases h1
      exact ⟨rfl, hlt, T, x, h2, hx, h5⟩
  · simp [namedSigners] at hp

variable {n : ℕ} {Y : Pt} {x : ℕ → Sc} {dk : ℕ → DecKey} {sts : List DLogStatement} {s_l : List ℕ} {k : ℕ}
  {key : LocalKey} {rnd : SignRandomness} {b : SignerMsgs}

theorem own_ek (h : HonestSigner n Y x dk sts s_l k key rnd) :
    key.paillier_key_vec[s_l.getD k 0 - 1]? = some (dk (s_l.getD k 0)).n := by
  have hm := h.members _ (getD_mem h.pos)
  rw [h.holds.eks, List.getElem?_map, List.getElem?_range (by omega), Option.map_some,
    Nat.sub_add_cancel hm.1]

theorem own_cipher (h : HonestSigner n Y x dk sts s_l k key rnd) {r1 : Round1} {o1}
    (h1 : At1 rnd k s_l key r1 o1) :
    r1.m_a.1.c = Paillier.encrypt (dk (s_l.getD k 0)).n rnd.k.val rnd.ra := by
  obtain ⟨-, -, -, -, -, -, -, -, -, N, hN, hc⟩ := at1_facts h1
  rw [h.holds.index, own_ek h] at hN
  cases hN
  exact hc

/-- The PDL proofs of an honest signer are accepted by whoever has the same `R`. -/
theorem own_pdl_ok (h : HonestSigner n Y x dk sts s_l k key rnd) {r1 : Round1} {o1}
    (h1 : At1 rnd k s_l key r1 o1) {r : Round5} {o} (h5 : At5 rnd k s_l key b r o) :
    phase5_verify_pdl r.phase5_proofs_vec r.R_dash r.R r1.m_a.1.c (dk (s_l.getD k 0)).n sts
      (zeroBased s_l) k = .ok () := by
  obtain ⟨r1', o1', r3, o3, h1', h3, -, -, -, -, -, -, -, -, -, -, hRd, -, hl, hp⟩ := at5_facts h.pos h5
  obtain rfl : r1' = r1 := (Prod.mk.inj (Res.ok.inj (h1'.symm.trans h1))).1
  have hc := own_cipher h h1
  unfold phase5_verify_pdl
  have hz : (zeroBased s_l).length = s_l.length := by simp [zeroBased]
  have hpos := h.pos
  rw [if_neg (by omega), if_neg (by rw [hz, hl]; simp)]
  have hall : allPush (phase5_pdl_test r.phase5_proofs_vec r.R_dash r.R r1'.m_a.1.c
      (dk (s_l.getD k 0)).n sts (zeroBased s_l) k) (List.range r.phase5_proofs_vec.length) =
      .ok (true, []) := by
    refine allPush_range_true.2 ⟨rfl, fun j hj => ?_⟩
    rw [hl] at hj
    obtain ⟨N, st, pf, hN, hst, hpf, hprove⟩ := hp j hj
    rw [own_ek h] at hN
    cases hN
    rw [h.holds.sts_eq] at hst
    have hj' := otherInd_lt (k := k) hj
    unfold phase5_pdl_test
    simp only
    rw [get_zeroBased hj', Res.bind_ok, Res.get_eq_ok.2 hst, Res.bind_ok, Res.get_eq_ok.2 hpf, Res.bind_ok]
    have hu := h.aux.usable st (List.mem_of_getElem? hst)
    obtain ⟨pf', hp1, hp2⟩ := pdl_complete (w := ⟨rnd.k, rnd.ra⟩)
      (st := pdlStatement r.R_dash r.R r1'.m_a.1.c (dk (s_l.getD k 0)).n st)
      (rnd := rnd.pdl (otherInd k j)) hu.1 hu.2.1 hu.2.2
      (h.moduli _ (h.members _ (getD_mem h.pos)).1 (h.members _ (getD_mem h.pos)).2) hRd h.ra_unit
      (by
        show Paillier.IsEnc _ r1'.m_a.1.c _ _
        rw [hc]
        exact Paillier.isEnc_encrypt _ _ _)
    rw [hprove] at hp1
    cases hp1
    rw [hp2]
    rfl
  rw [hall]
  rfl

theorem at1_unique {r r' : Round1} {o o'} (h : At1 rnd k s_l key r o) (h' : At1 rnd k s_l key r' o') :
    r = r' := (Prod.mk.inj (Res.ok.inj (h.symm.trans h'))).1

theorem at2_unique {r r' : Round2} {o o'} (h : At2 rnd k s_l key b r o) (h' : At2 rnd k s_l key b r' o') :
    r = r' := by
  obtain ⟨a, _, h1, h2⟩ := h
  obtain ⟨a', _, h1', h2'⟩ := h'
  obtain rfl := at1_unique h1 h1'
  exact (Prod.mk.inj (Res.ok.inj (h2.symm.trans h2'))).1

theorem at3_unique {r r' : Round3} {o o'} (h : At3 rnd k s_l key b r o) (h' : At3 rnd k s_l key b r' o') :
    r = r' := by
  obtain ⟨a, _, h1, h2⟩ := h
  obtain ⟨a', _, h1', h2'⟩ := h'
  obtain rfl := at2_unique h1 h1'
  exact (Prod.mk.inj (Res.ok.inj (h2.symm.trans h2'))).1

theorem at4_unique {r r' : Round4} {o o'} (h : At4 rnd k s_l key b r o) (h' : At4 rnd k s_l key b r' o') :
    r = r' := by
  obtain ⟨a, _, h1, h2⟩ := h
  obtain ⟨a', _, h1', h2'⟩ := h'
  obtain rfl := at3_unique h1 h1'
  exact (Prod.mk.inj (Res.ok.inj (h2.symm.trans h2'))).1

theorem at5_unique {r r' : Round5} {o o'} (h : At5 rnd k s_l key b r o) (h' : At5 rnd k s_l key b r' o') :
    r = r' := by
  obtain ⟨a, _, h1, h2⟩ := h
  obtain ⟨a', _, h1', h2'⟩ := h'
  obtain rfl := at4_unique h1 h1'
  exact (Prod.mk.inj (Res.ok.inj (h2.symm.trans h2'))).1

/-- The last proof of an honest signer is accepted by whoever has the same `R` and `T`. -/
theorem own_heg_ok (hk : k < s_l.length) {r : Round6} {o} (h6 : At6 rnd k s_l key b r o) {r3 : Round3} {o3}
    (h3 : At3 rnd k s_l key b r3 o3) :
    r.homo_elgamal_proof.verify (hegStatement r.protocol_output.R r3.t_i r.S_i) = true := by
  obtain ⟨r3', o3', r5, o5, h3', h5, -, -, -, hR, hS, -⟩ := at6_facts hk h6
  obtain rfl := at3_unique h3' h3
  obtain ⟨_, _, -, -, -, -, -, -, -, -, -, -, -, hT, -⟩ := at3_facts hk h3
  unfold phase6_compute_S_i at hS
  simp only [Prod.mk.injEq] at hS
  rw [hS.2, hS.1, hR]
  refine HomoElGamalProof.verify_prove _ _ _ _ _ ?_ rfl
  simp only [hegStatement]
  rw [hT, add_comm]

/-! ### What was sent -/

theorem sent1 {a : ℕ} {c : Option ℕ} {m : MessageA × SignBroadcastPhase1}
    (h : (⟨a, c, .M1 m⟩ : Msg Sign.M) ∈ (offlineLine rnd (k + 1) s_l key b).1) :
    ∃ r o, At1 rnd k s_l key r o ∧ m = (r.m_a.1, r.phase1_com) := by
  rcases sent_cases h with ⟨r, o, ho, hm⟩ | ⟨r, o, ho, hm⟩ | ⟨r, o, ho, hm⟩ | ⟨r, o, ho, hm⟩ | ⟨r, o, ho, hm⟩ |
    ⟨r, o, ho, hm⟩ <;> obtain ⟨m', hm', e⟩ := List.mem_map.1 hm <;>
    simp only [Msg.mapBody, Msg.mk.injEq, M.M1.injEq, reduceCtorEq, and_false] at e
  refine ⟨r, o, ho, ?_⟩
  rw [(at1_facts ho).2.2.2.1, List.mem_singleton] at hm'
  rw [← e.2.2, hm']

variable (hk : k < s_l.length)
include hk

theorem sent2 {a : ℕ} {c : Option ℕ} {m : MessageB × MessageB}
    (h : (⟨a, c, .M2 m⟩ : Msg Sign.M) ∈ (offlineLine rnd (k + 1) s_l key b).1) :
    m.1.b_proof.pk = rnd.gamma • G := by
  rcases sent_cases h with ⟨r, o, ho, hm⟩ | ⟨r, o, ho, hm⟩ | ⟨r, o, ho, hm⟩ | ⟨r, o, ho, hm⟩ | ⟨r, o, ho, hm⟩ |
    ⟨r, o, ho, hm⟩ <;> obtain ⟨m', hm', e⟩ := List.mem_map.1 hm <;>
    simp only [Msg.mapBody, Msg.mk.injEq, M.M2.injEq, reduceCtorEq, and_false] at e
  obtain ⟨_, _, -, -, -, -, -, -, -, -, -, hb⟩ := at2_facts hk ho
  rw [← e.2.2]
  exact hb m' hm'

theorem sent3 {a : ℕ} {c : Option ℕ} {m : TMsg}
    (h : (⟨a, c, .M3 m⟩ : Msg Sign.M) ∈ (offlineLine rnd (k + 1) s_l key b).1) :
    ∃ r o, At3 rnd k s_l key b r o ∧ m = ⟨r.delta_i, r.t_i, r.t_i_proof⟩ := by
  rcases sent_cases h with ⟨r, o, ho, hm⟩ | ⟨r, o, ho, hm⟩ | ⟨r, o, ho, hm⟩ | ⟨r, o, ho, hm⟩ | ⟨r, o, ho, hm⟩ |
    ⟨r, o, ho, hm⟩ <;> obtain ⟨m', hm', e⟩ := List.mem_map.1 hm <;>
    simp only [Msg.mapBody, Msg.mk.injEq, M.M3.injEq, reduceCtorEq, and_false] at e
  refine ⟨r, o, ho, ?_⟩
  obtain ⟨_, _, -, -, -, -, -, -, -, -, -, -, hb, -⟩ := at3_facts hk ho
  rw [hb, List.mem_singleton] at hm'
  rw [← e.2.2, hm']

theorem sent4 {a : ℕ} {c : Option ℕ} {m : SignDecommitPhase1}
    (h : (⟨a, c, .M4 m⟩ : Msg Sign.M) ∈ (offlineLine rnd (k + 1) s_l key b).1) :
    m = ⟨rnd.blind, rnd.gamma • G⟩ := by
  rcases sent_cases h with ⟨r, o, ho, hm⟩ | ⟨r, o, ho, hm⟩ | ⟨r, o, ho, hm⟩ | ⟨r, o, ho, hm⟩ | ⟨r, o, ho, hm⟩ |
    ⟨r, o, ho, hm⟩ <;> obtain ⟨m', hm', e⟩ := List.mem_map.1 hm <;>
    simp only [Msg.mapBody, Msg.mk.injEq, M.M4.injEq, reduceCtorEq, and_false] at e
  obtain ⟨r1, o1, r3, o3, h1, -, -, -, -, -, -, -, -, -, -, hb, -⟩ := at4_facts hk ho
  rw [hb, List.mem_singleton] at hm'
  rw [← e.2.2, hm']
  exact (at1_facts h1).2.2.2.2.2.2.2.1

theorem sent5 {a : ℕ} {c : Option ℕ} {m : Pt × List PDLwSlackProof}
    (h : (⟨a, c, .M5 m⟩ : Msg Sign.M) ∈ (offlineLine rnd (k + 1) s_l key b).1) :
    ∃ r o, At5 rnd k s_l key b r o ∧ m = (r.R_dash, r.phase5_proofs_vec) := by
  rcases sent_cases h with ⟨r, o, ho, hm⟩ | ⟨r, o, ho, hm⟩ | ⟨r, o, ho, hm⟩ | ⟨r, o, ho, hm⟩ | ⟨r, o, ho, hm⟩ |
    ⟨r, o, ho, hm⟩ <;> obtain ⟨m', hm', e⟩ := List.mem_map.1 hm <;>
    simp only [Msg.mapBody, Msg.mk.injEq, M.M5.injEq, reduceCtorEq, and_false] at e
  refine ⟨r, o, ho, ?_⟩
  obtain ⟨_, _, _, _, -, -, -, -, -, -, -, -, -, -, -, -, -, hb, -⟩ := at5_facts hk ho
  rw [hb, List.mem_singleton] at hm'
  rw [← e.2.2, hm']

theorem sent6 {a : ℕ} {c : Option ℕ} {m : Pt × HomoElGamalProof}
    (h : (⟨a, c, .M6 m⟩ : Msg Sign.M) ∈ (offlineLine rnd (k + 1) s_l key b).1) :
    ∃ r o, At6 rnd k s_l key b r o ∧ m = (r.S_i, r.homo_elgamal_proof) := by
  rcases sent_cases h with ⟨r, o, ho, hm⟩ | ⟨r, o, ho, hm⟩ | ⟨r, o, ho, hm⟩ | ⟨r, o, ho, hm⟩ | ⟨r, o, ho, hm⟩ |
    ⟨r, o, ho, hm⟩ <;> obtain ⟨m', hm', e⟩ := List.mem_map.1 hm <;>
    simp only [Msg.mapBody, Msg.mk.injEq, M.M6.injEq, reduceCtorEq, and_false] at e
  refine ⟨r, o, ho, ?_⟩
  obtain ⟨_, _, _, _, -, -, -, -, -, -, -, hb⟩ := at6_facts hk ho
  rw [hb, List.mem_singleton] at hm'
  rw [← e.2.2, hm']

omit hk [Crypto] in
theorem sum_views {α : Type} [AddCommMonoid α] {m v p : ℕ} {s : List ℕ} (hs : s.length = m) (hv : v < m)
    (hp : p < m) (hne : p ≠ v) {a c : α} {f g : ℕ → α} (h1 : f p = c) (h2 : g v = a)
    (h3 : ∀ j, j ≠ v → j ≠ p → f j = g j) :
    a + ((others m v).map f).sum = c + ((others m p).map g).sum := by
  subst hs
  rw [← sum_range_own hv, ← sum_range_own hp]
  congr 1
  refine List.map_congr_left fun j _ => ?_
  by_cases hjv : j = v
  · subst hjv
    rw [if_pos rfl, if_neg (Ne.symm hne), h2]
  · rw [if_neg hjv]
    by_cases hjp : j = p
    · subst hjp
      rw [if_pos rfl, h1]
    · rw [if_neg hjp, h3 j hjv hjp]

omit hk in
/-- The check of one signer's PDL proofs, given what the verifier holds of that signer. -/
theorem checkPdl_ok {r : Round5} {p : ℕ} {x : Pt × List PDLwSlackProof} {all : List (Pt × List PDLwSlackProof)}
    {mA : MessageA} {N : ℕ} {R : Pt} (hp : p < s_l.length) (hs : r.s_l = s_l) (hx : all[p]? = some x)
    (hm : r.m_a_vec[p]? = some mA) (hN : r.local_key.paillier_key_vec[s_l.getD p 0 - 1]? = some N)
    (hst : r.local_key.h1_h2_n_tilde_vec = sts) (hR : r.R = R)
    (h : phase5_verify_pdl x.2 x.1 R mA.c N sts (zeroBased s_l) p = .ok ()) :
    r.checkPdl all p = .ok () := by
  unfold Round5.checkPdl
  simp only
  rw [Res.get_eq_ok.2 hx, Res.bind_ok, Res.get_eq_ok.2 hm, Res.bind_ok, hs, get_zeroBased hp, Res.bind_ok,
    Res.get_eq_ok.2 hN, Res.bind_ok, hst, hR, h]
  rfl

omit hk [Crypto] in
theorem getElem?_views {α : Type} {m v p : ℕ} {own : α} {f : ℕ → α} (hp : p < m) :
    ((List.range m).map (fun j => if j = v then own else f j))[p]? = some (if p = v then own else f p) := by
  rw [List.getElem?_map, List.getElem?_range hp, Option.map_some]

omit hk in
theorem honest_not_named {v p : ℕ} {keyv keyp : LocalKey} {rndv rndp : SignRandomness} {bv bp : SignerMsgs}
    {e : SignError} (hv : HonestSigner n Y x dk sts s_l v keyv rndv)
    (hp : HonestSigner n Y x dk sts s_l p keyp rndp) (hne : p ≠ v)
    (h : (offlineLine rndv (v + 1) s_l keyv bv).2 = .err e)
    (hg : SignGenuineUpTo (failedAfter e) (offlineLine rndp (p + 1) s_l keyp bp).1 (v + 1) (p + 1) bv)
    (hs : 5 ≤ failedAfter e →
      SameBroadcasts (offlineLine rndv (v + 1) s_l keyv bv).1 (v + 1) (p + 1) bv bp) :
    p + 1 ∉ namedSigners e := by
  intro hmem
  obtain ⟨g1, g2, g3, g4, g5, g6⟩ := hg
  -- the two signers agree on the nonce point once both have reached round 5
  have hnonce : 5 ≤ failedAfter e → ∀ {r rp : Round5} {o op}, At5 rndv v s_l keyv bv r o →
      At5 rndp p s_l keyp bp rp op → r.R = rp.R := by
    intro h5 r rp o op ha hb
    obtain ⟨s3, s4, so⟩ := hs h5
    obtain ⟨r1, o1, r3, o3, a1, a3, -, -, -, -, -, -, -, -, -, aR, -⟩ := at5_facts hv.pos ha
    obtain ⟨r1', o1', r3', o3', b1, b3, -, -, -, -, -, -, -, -, -, bR, -⟩ := at5_facts hp.pos hb
    obtain ⟨r3v, o3v, c3, e3⟩ := sent3 hv.pos s3
    obtain ⟨r3p, o3p, d3, f3⟩ := sent3 hp.pos (g3 (by omega))
    obtain rfl := at3_unique c3 a3
    obtain rfl := at3_unique d3 b3
    have e4 := sent4 hv.pos s4
    have f4 := sent4 hp.pos (g4 (by omega))
    obtain ⟨-, -, -, -, -, -, -, av, -⟩ := at1_facts a1
    obtain ⟨-, -, -, -, -, -, -, bv', -⟩ := at1_facts b1
    rw [aR, bR]
    unfold noncePt
    congr 1
    · congr 1
      exact sum_views rfl hv.pos hp.pos hne (by rw [f3]) (by rw [e3])
        fun j h1 h2 => by rw [(so (j + 1) (by omega) (by omega)).1]
    · exact sum_views rfl hv.pos hp.pos hne (by rw [f4, bv']) (by rw [e4, av])
        fun j h1 h2 => by rw [(so (j + 1) (by omega) (by omega)).2]
  rcases err_cases h with rfl | rfl | rfl | ⟨r, o, ha, hr⟩ | ⟨r, o, ha, hr⟩ | ⟨r, o, ha, hr⟩
  · simp [namedSigners] at hmem
  · simp [namedSigners] at hmem
  · simp [namedSigners] at hmem
  · obtain ⟨_, _, _, _, -, -, hi, -⟩ := at4_facts hv.pos ha
    obtain ⟨-, -, -, j, -, rfl, -⟩ := round4_err hi hr
    obtain ⟨-, hev⟩ := offlineLine_err hv.pos h
    obtain ⟨i, -, -, hi, hbad⟩ := hev _ rfl
    simp only [namedSigners, List.map_cons, List.map_nil, List.mem_singleton, Nat.add_right_cancel_iff] at hmem
    simp only [List.cons.injEq, and_true] at hi
    have : p = i := hmem.trans hi
    subst this
    have hf : failedAfter (.Round5 ⟨"bad gamma_i decommit", [otherInd v j]⟩) = 4 := by simp [failedAfter]
    rw [hf] at g1 g2 g4
    obtain ⟨r1, o1, b1, e1⟩ := sent1 (g1 (by norm_num))
    have e2 := sent2 hp.pos (g2 (by norm_num))
    have e4 := sent4 hp.pos (g4 (by norm_num))
    obtain ⟨-, -, -, -, -, -, hcom, -⟩ := at1_facts b1
    exact hbad ⟨by rw [e2, e4], by rw [e4, e1, hcom]⟩
  · obtain ⟨hf, -, e', hc⟩ := round5_named hr hmem
    rw [hf] at g1 g5 hnonce
    obtain ⟨r1, o1, r3, o3, a1, a3, hi, hsl, hk, -, hma, -, -, -, -, aR, -⟩ := at5_facts hv.pos ha
    obtain ⟨rp, op, b5, e5⟩ := sent5 hp.pos (g5 le_rfl)
    obtain ⟨r1p, o1p, b1, e1⟩ := sent1 (g1 (by norm_num))
    rw [hi, intoVec_others hv.pos] at hc
    rw [checkPdl_ok (sts := sts) hp.pos hsl (getElem?_views hp.pos) (by rw [hma, getElem?_views hp.pos])
      (N := (dk (s_l.getD p 0)).n) (by
        have hm := hp.members _ (getD_mem hp.pos)
        rw [hk, hv.holds.eks, List.getElem?_map, List.getElem?_range (by omega), Option.map_some,
          Nat.sub_add_cancel hm.1]) (by rw [hk, hv.holds.sts_eq]) (hnonce le_rfl ha b5) (by
        rw [if_neg hne, if_neg hne, e5, e1]
        exact own_pdl_ok hp b1 b5)] at hc
    cases hc
  · obtain ⟨hf, -, T, x, hT, hx, hc⟩ := round6_named hr hmem
    rw [hf] at g3 g6 hnonce
    obtain ⟨r3, o3, r5, o5, a3, a5, hi, hsl, ht, hR, -⟩ := at6_facts hv.pos ha
    obtain ⟨rp, op, b6, e6⟩ := sent6 hp.pos (g6 le_rfl)
    obtain ⟨r3p, o3p, b3, e3⟩ := sent3 hp.pos (g3 (by norm_num))
    obtain ⟨_, _, r5p, o5p, -, b5, -, -, -, hRp, -⟩ := at6_facts hp.pos b6
    rw [ht, getElem?_views hp.pos, if_neg hne, e3] at hT
    rw [hi, intoVec_others hv.pos, getElem?_views hp.pos, if_neg hne, e6] at hx
    cases hT
    cases hx
    rw [hR, hnonce (by norm_num) a5 b5, ← hRp] at hc
    have := own_heg_ok hp.pos b6 b3
    rw [this] at hc
    cases hc

omit hk in
theorem not_itself {v : ℕ} {keyv : LocalKey} {rndv : SignRandomness} {bv : SignerMsgs}
    {e : SignError} (hv : HonestSigner n Y x dk sts s_l v keyv rndv)
    (h : (offlineLine rndv (v + 1) s_l keyv bv).2 = .err e) :
    v + 1 ∉ namedSigners e := by
  intro hmem
  rcases err_cases h with rfl | rfl | rfl | ⟨r, o, ha, hr⟩ | ⟨r, o, ha, hr⟩ | ⟨r, o, ha, hr⟩
  · simp [namedSigners] at hmem
  · simp [namedSigners] at hmem
  · simp [namedSigners] at hmem
  · obtain ⟨_, _, _, _, -, -, hi, -⟩ := at4_facts hv.pos ha
    obtain ⟨-, -, -, j, -, rfl, -⟩ := round4_err hi hr
    simp only [namedSigners, List.map_cons, List.map_nil, List.mem_singleton, Nat.add_right_cancel_iff] at hmem
    exact otherInd_ne hmem.symm
  · obtain ⟨-, -, e', hc⟩ := round5_named hr hmem
    obtain ⟨r1, o1, r3, o3, a1, a3, hi, hsl, hk, -, hma, -, -, -, -, aR, -⟩ := at5_facts hv.pos ha
    rw [hi, intoVec_others hv.pos] at hc
    rw [checkPdl_ok (sts := sts) hv.pos hsl (getElem?_views hv.pos) (by rw [hma, getElem?_views hv.pos])
      (N := (dk (s_l.getD v 0)).n) (by rw [hk, own_ek hv]) (by rw [hk, hv.holds.sts_eq]) rfl (by
        rw [if_pos rfl, if_pos rfl]
        exact own_pdl_ok hv a1 ha)] at hc
    cases hc
  · obtain ⟨-, -, T, x, hT, hx, hc⟩ := round6_named hr hmem
    obtain ⟨r3, o3, r5, o5, a3, a5, hi, hsl, ht, hR, -⟩ := at6_facts hv.pos ha
    rw [ht, getElem?_views hv.pos, if_pos rfl] at hT
    rw [hi, intoVec_others hv.pos, getElem?_views hv.pos, if_pos rfl] at hx
    cases hT
    cases hx
    have := own_heg_ok hv.pos ha a3
    rw [this] at hc
    cases hc

end Verif.GG20.Sign
