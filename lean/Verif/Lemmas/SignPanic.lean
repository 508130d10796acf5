import Verif.Lemmas.SignSMSpec
import Verif.Lemmas.SignRounds
import Verif.Lemmas.RoundMachineSim

/-! # When the rounds of one signer's offline stage can panic -/

namespace Verif

theorem Res.mapM_panic {ε α β : Type} {f : α → Res ε β} {l : List α} (h : Res.mapM f l = .panic) :
    ∃ a ∈ l, f a = .panic := by
  induction l with
  | nil => cases h
  | cons a l ih =>
    simp only [Res.mapM, Res.bind_eq_panic] at h
    rcases h with h | ⟨b, -, h | ⟨c, -, h⟩⟩
    · exact ⟨a, by simp, h⟩
    · obtain ⟨c, hc, h⟩ := ih h
      exact ⟨c, by simp [hc], h⟩
    · cases h

theorem Res.mapErr_eq_panic {ε ε' α : Type} {f : ε → ε'} {x : Res ε α} :
    x.mapErr f = .panic ↔ x = .panic := by cases x <;> simp

theorem Res.mapErr_eq_ok {ε ε' α : Type} {f : ε → ε'} {x : Res ε α} {a : α} :
    x.mapErr f = .ok a ↔ x = .ok a := by cases x <;> simp

theorem Res.assert_eq_panic {ε : Type} {b : Bool} : (Res.assert b : Res ε Unit) = .panic ↔ b = false := by
  cases b <;> simp

theorem intoVec_others {β : Type} {m k : ℕ} (hk : k < m) (b : ℕ → β) (own : β) :
    intoVecIncludingMe ((GG20.Sign.others m k).map b) (k + 1) own =
      (List.range m).map (fun j => if j = k then own else b j) := by
  have h := intoVecIncludingMe_filter hk (fun j => if j = k then own else b j)
  rw [if_pos rfl] at h
  rw [← h]
  congr 1
  refine List.map_congr_left fun j hj => ?_
  rw [if_neg (GG20.Sign.mem_others.1 hj).2]

theorem length_others {m k : ℕ} (hk : k < m) : (GG20.Sign.others m k).length = m - 1 := by
  unfold GG20.Sign.others; rw [← range_map_otherInd hk]; simp

/-- The peers of signer `k + 1`, counted from 0. -/
theorem peers_eq_others (m k : ℕ) : Spec.peers (k + 1) m = (GG20.Sign.others m k).map (· + 1) := by
  unfold Spec.peers GG20.Sign.others
  rw [List.range'_eq_map_range, List.filter_map]
  have : (fun x => 1 + x) = (fun x : ℕ => x + 1) := by funext x; omega
  rw [this]
  congr 1
  refine List.filter_congr fun j _ => ?_
  simp

open EC Crypto

variable [Crypto]

omit [Crypto] in
theorem modPow_some {b e m : ℤ} (hm : m ≠ 0) (he : 0 ≤ e) : ∃ x, modPow b e m = some x :=
  ⟨_, modPow_nonneg hm he⟩

/-- Alice's proof can only crash the verifier with a negative challenge. -/
theorem alice_verify_none {pf : AliceProof} {c : ℤ} {N : ℕ} {st : DLogStatement} (hst : st.Usable)
    (hN : 0 < N) (h : pf.verify c N st = none) : pf.e < 0 := by
  by_contra he
  have he : 0 ≤ pf.e := by omega
  have hNN : ((N : ℤ) * N) ≠ 0 := by positivity
  obtain ⟨M, hM, hstN, u1, u2, h1, h2⟩ := hst.units
  obtain ⟨ze, hze⟩ := modPow_some (b := pf.z) (m := st.N) hst.pos.ne' he
  obtain ⟨ce, hce⟩ := modPow_some (b := c) hNN he
  obtain ⟨sn, hsn⟩ := modPow_some (b := pf.s) (e := N) hNN (Int.natCast_nonneg N)
  unfold AliceProof.verify at h
  split at h
  · cases h
  · rw [hze] at h
    simp only [Option.bind_eq_bind, Option.bind_some] at h
    cases hi : modInv ze st.N with
    | none => rw [hi] at h; cases h
    | some zi =>
      rw [hi] at h
      simp only at h
      obtain ⟨a, ha, -⟩ := modPow_unit hM h1 pf.s1
      obtain ⟨b, hb, -⟩ := modPow_unit hM h2 pf.s2
      have hw : ∃ w, commitInts3 st pf.s1 pf.s2 zi = some w := by
        unfold commitInts3
        rw [hstN, ha, hb]
        exact ⟨_, rfl⟩
      obtain ⟨w, hw⟩ := hw
      rw [hw, hce, hsn] at h
      simp only [Option.bind_some] at h
      cases hj : modInv ce (N * N) with
      | none => rw [hj] at h; cases h
      | some ci => rw [hj] at h; cases h

/-- An accepted proof shows that the ciphertext is invertible, unless the challenge is 0. -/
theorem alice_verify_coprime {pf : AliceProof} {c : ℤ} {N : ℕ} {st : DLogStatement} (hN : 0 < N)
    (h : pf.verify c N st = some true) : Int.gcd c N = 1 ∨ pf.e = 0 := by
  by_contra hc
  push Not at hc
  obtain ⟨hg, he⟩ := hc
  have hNN : ((N : ℤ) * N) ≠ 0 := by positivity
  have hinv : ∀ ce ci, modPow c pf.e (N * N) = some ce → modInv ce (N * N) = some ci → False := by
    intro ce ci h1 h2
    rcases lt_or_gt_of_ne he with hneg | hpos
    · unfold modPow at h1
      rw [if_neg hNN, if_neg (by omega)] at h1
      cases hi : modInv c (N * N) with
      | none => rw [hi] at h1; cases h1
      | some ci =>
        exact hg (Paillier.gcd_mul_self.1 (modInv_isSome.1 (by rw [hi]; rfl)))
    · rw [modPow_nonneg hNN hpos.le] at h1
      cases h1
      have hg2 : Int.gcd (c ^ pf.e.toNat % (N * N)) (N * N) = 1 := modInv_isSome.1 (by rw [h2]; rfl)
      have hg3 : Int.gcd (c ^ pf.e.toNat) (N * N) = 1 := by
        rw [← hg2, Int.gcd_emod]
      have hg4 : IsCoprime (c ^ pf.e.toNat) ((N : ℤ) * N) := Int.isCoprime_iff_gcd_eq_one.2 hg3
      have hg5 := (IsCoprime.pow_left_iff (by omega)).1 hg4
      exact hg (Paillier.gcd_mul_self.1 (Int.isCoprime_iff_gcd_eq_one.1 hg5))
  unfold AliceProof.verify at h
  split at h
  · cases h
  · simp only [Option.bind_eq_bind, Option.bind_eq_some_iff] at h
    obtain ⟨ze, -, h⟩ := h
    cases hi : modInv ze st.N with
    | none => rw [hi] at h; simp at h
    | some zi =>
      rw [hi] at h
      simp only [Option.bind_eq_some_iff] at h
      obtain ⟨w, -, ce, h1, h⟩ := h
      cases hj : modInv ce (N * N) with
      | none => rw [hj] at h; simp at h
      | some ci => exact hinv ce ci h1 hj

theorem allVerify_none {c : ℤ} {N : ℕ} : ∀ {l : List (AliceProof × DLogStatement)},
    allVerify c N l = none → ∃ x ∈ l, x.1.verify c N x.2 = none
  | [], h => by cases h
  | (pf, st) :: l, h => by
    unfold allVerify at h
    rcases hv : pf.verify c N st with _ | v
    · exact ⟨(pf, st), by simp, hv⟩
    · rw [hv] at h
      cases v with
      | true =>
        obtain ⟨x, hx, hx'⟩ := allVerify_none (l := l) (by simpa using h)
        exact ⟨x, by simp [hx], hx'⟩
      | false => cases h

theorem MessageB.b_panic {b : Sc} {N : ℕ} {m_a : MessageA} {r beta_tag : ℤ}
    {sts : List DLogStatement} {t_b t_beta : Sc} (hst : ∀ st ∈ sts, st.Usable) (hN : 0 < N)
    (h : MessageB.b b N m_a r beta_tag sts t_b t_beta = .panic) :
    ∃ pf ∈ m_a.range_proofs, pf.e < 0 := by
  unfold MessageB.b at h
  split at h
  · cases h
  · split at h
    · rename_i hv
      obtain ⟨x, hx, hx'⟩ := allVerify_none hv
      exact ⟨x.1, (List.of_mem_zip hx).1, alice_verify_none (hst _ (List.of_mem_zip hx).2) hN hx'⟩
    · cases h
    · cases h

/-- A PDL proof can only crash the verifier with a commitment or ciphertext that is not invertible. -/
theorem pdl_verify_none {pf : PDLwSlackProof} {st : PDLwSlackStatement} (hpos : 0 < st.N_tilde)
    (hg1 : Int.gcd st.h1 st.N_tilde = 1) (hg2 : Int.gcd st.h2 st.N_tilde = 1) (hN : 0 < st.ek)
    (h : pf.verify st = none) : Int.gcd pf.z st.N_tilde ≠ 1 ∨ Int.gcd st.ciphertext st.ek ≠ 1 := by
  by_contra hc
  push Not at hc
  obtain ⟨M, hM, hstN, v1, v2, h1, h2⟩ :=
    (DLogStatement.Usable.mk (st := ⟨st.N_tilde, st.h1, st.h2⟩) hpos hg1 hg2).units
  simp only at hstN h1 h2
  obtain ⟨vz, hvz⟩ := unit_of_gcd (M := M) (b := pf.z) (hstN ▸ hc.1)
  obtain ⟨vc, hvc⟩ := unit_of_gcd (M := st.ek * st.ek) (b := st.ciphertext)
    (by push_cast; exact Paillier.gcd_mul_self.2 hc.2)
  obtain ⟨_, _, -, -, -, -, -, -, hv⟩ := pdl_verify_of_units hM hstN hN h1 h2 hvz hvc
  rw [hv] at h
  cases h

/-- The verifier of MtA never crashes on a message. -/
theorem MessageB.verify_no_panic {m : MessageB} {dk : DecKey} (hv : dk.Valid) (a : Sc) :
    m.verify_proofs_get_alpha dk a ≠ .panic := by
  obtain ⟨y, hy⟩ := Paillier.decrypt_isSome hv m.c
  unfold MessageB.verify_proofs_get_alpha
  rw [hy]
  simp only
  split <;> simp

/-! ### The rounds of one signer -/

omit [Crypto] in
theorem Res.get_panic {ε α : Type} {l : List α} {i : ℕ} (h : (Res.get l i : Res ε α) = .panic) :
    l.length ≤ i := by
  unfold Res.get at h
  rw [Res.ofOption_eq_panic] at h
  simpa using h

namespace GG20.Sign

open Spec

variable {n : ℕ} {Y : Pt} {x : ℕ → Sc} {dk : ℕ → DecKey} {sts : List DLogStatement}
  {s_l : List ℕ} {k : ℕ} {key : LocalKey} {rnd : SignRandomness}

/-- What an accepted first message says about its ciphertext. -/
def CipherOk (N : ℕ) (m : MessageA) : Prop := Int.gcd m.c N = 1 ∨ ∃ pf ∈ m.range_proofs, pf.e = 0

structure Inv1 (dk : ℕ → DecKey) (s_l : List ℕ) (k : ℕ) (key : LocalKey) (rnd : SignRandomness)
    (r : Round1) : Prop where
  i : r.i = k + 1
  sl : r.s_l = s_l
  key : r.local_key = key
  ra : r.m_a.2 = rnd.ra
  c : r.m_a.1.c = Paillier.encrypt (oN dk s_l k) rnd.k.val rnd.ra
  k_i : r.sign_keys.k_i = rnd.k

structure Inv2 (dk : ℕ → DecKey) (s_l : List ℕ) (k : ℕ) (key : LocalKey) (rnd : SignRandomness)
    (b1 : ℕ → MessageA × SignBroadcastPhase1) (r : Round2) : Prop where
  i : r.i = k + 1
  sl : r.s_l = s_l
  key : r.local_key = key
  ra : r.m_a.2 = rnd.ra
  c : r.m_a.1.c = Paillier.encrypt (oN dk s_l k) rnd.k.val rnd.ra
  k_i : r.sign_keys.k_i = rnd.k
  beta : r.beta_vec.length = s_l.length - 1
  ni : r.ni_vec.length = s_l.length - 1
  bc : r.bc_vec.length = s_l.length
  m_a_vec : r.m_a_vec = (List.range s_l.length).map (fun j => if j = k then r.m_a.1 else (b1 j).1)
  alice : ∀ j < s_l.length, j ≠ k → CipherOk (oN dk s_l j) (b1 j).1

structure Inv3 (dk : ℕ → DecKey) (s_l : List ℕ) (k : ℕ) (key : LocalKey) (rnd : SignRandomness)
    (b1 : ℕ → MessageA × SignBroadcastPhase1) (r : Round3) : Prop where
  i : r.i = k + 1
  sl : r.s_l = s_l
  key : r.local_key = key
  ra : r.m_a.2 = rnd.ra
  c : r.m_a.1.c = Paillier.encrypt (oN dk s_l k) rnd.k.val rnd.ra
  k_i : r.sign_keys.k_i = rnd.k
  mb : r.mb_gamma_s.length = s_l.length - 1
  bc : r.bc_vec.length = s_l.length
  m_a_vec : r.m_a_vec = (List.range s_l.length).map (fun j => if j = k then r.m_a.1 else (b1 j).1)
  alice : ∀ j < s_l.length, j ≠ k → CipherOk (oN dk s_l j) (b1 j).1
  t_i : r.t_i = r.t_i_proof.com

structure Inv4 (dk : ℕ → DecKey) (s_l : List ℕ) (k : ℕ) (key : LocalKey) (rnd : SignRandomness)
    (b1 : ℕ → MessageA × SignBroadcastPhase1) (r : Round4) : Prop where
  i : r.i = k + 1
  sl : r.s_l = s_l
  key : r.local_key = key
  ra : r.m_a.2 = rnd.ra
  c : r.m_a.1.c = Paillier.encrypt (oN dk s_l k) rnd.k.val rnd.ra
  k_i : r.sign_keys.k_i = rnd.k
  mb : r.mb_gamma_s.length = s_l.length - 1
  bc : r.bc_vec.length = s_l.length
  m_a_vec : r.m_a_vec = (List.range s_l.length).map (fun j => if j = k then r.m_a.1 else (b1 j).1)
  alice : ∀ j < s_l.length, j ≠ k → CipherOk (oN dk s_l j) (b1 j).1
  t_vec : r.t_vec.length = s_l.length

structure Inv5 (dk : ℕ → DecKey) (sts : List DLogStatement) (s_l : List ℕ) (k : ℕ) (key : LocalKey)
    (b1 : ℕ → MessageA × SignBroadcastPhase1) (r : Round5) : Prop where
  i : r.i = k + 1
  sl : r.s_l = s_l
  key : r.local_key = key
  t_vec : r.t_vec.length = s_l.length
  alice : ∀ j < s_l.length, j ≠ k → CipherOk (oN dk s_l j) (b1 j).1
  own : ∃ m_a : MessageA,
    r.m_a_vec = (List.range s_l.length).map (fun j => if j = k then m_a else (b1 j).1) ∧
    phase5_verify_pdl r.phase5_proofs_vec r.R_dash r.R m_a.c (oN dk s_l k) sts (zeroBased s_l) k ≠ .panic

structure Inv6 (s_l : List ℕ) (k : ℕ) (r : Round6) : Prop where
  i : r.i = k + 1
  sl : r.s_l = s_l
  t_vec : r.t_vec.length = s_l.length

section
variable (h : HonestSigner n Y x dk sts s_l k key rnd)
include h

theorem hs_usable {st : DLogStatement} (hst : st ∈ sts) : st.Usable :=
  ⟨(h.aux.usable st hst).1, (h.aux.usable st hst).2.1, (h.aux.usable st hst).2.2⟩

theorem hs_own_pos : 0 < oN dk s_l k :=
  h.moduli _ (h.members _ (getD_mem h.pos)).1 (h.members _ (getD_mem h.pos)).2

theorem hs_ek {ε : Type} {j : ℕ} (hj : j < s_l.length) :
    (Res.get key.paillier_key_vec (s_l.getD j 0 - 1) : Res ε ℕ) = .ok (oN dk s_l j) := by
  have hm := h.members _ (getD_mem hj)
  rw [h.holds.eks, Keygen.get_map_range (show s_l.getD j 0 - 1 < n by omega), Nat.sub_add_cancel hm.1]
  rfl

theorem hs_st {ε : Type} {j : ℕ} (hj : j < s_l.length) : ∃ st ∈ sts,
    (Res.get sts (s_l.getD j 0 - 1) : Res ε DLogStatement) = .ok st := by
  have hm := h.members _ (getD_mem hj)
  have hlt : s_l.getD j 0 - 1 < sts.length := by rw [h.aux.count]; omega
  exact ⟨_, List.getElem_mem hlt, Res.get_of_lt hlt⟩

theorem round0_inv : ∃ r out, Round0.proceed ⟨k + 1, s_l, key⟩ rnd = .ok (r, out) ∧
    Inv1 dk s_l k key rnd r := by
  have hm := h.members _ (getD_mem h.pos)
  obtain ⟨pfs, h1, h2, h3⟩ := aliceProofs_spec (rs := rnd.alice) (hs_own_pos h)
    (Int.natCast_nonneg rnd.k.val) h.ra_unit
    (Paillier.isEnc_encrypt (oN dk s_l k) rnd.k.val rnd.ra) 0
    (fun st hst => hs_usable h hst) h.alpha_nonneg
  have h4 : MessageA.a rnd.k (oN dk s_l k) rnd.ra sts rnd.alice =
      some ⟨Paillier.encrypt (oN dk s_l k) rnd.k.val rnd.ra, pfs⟩ := by
    unfold MessageA.a; simp only [h1]; rfl
  unfold Round0.proceed
  simp only [Nat.add_sub_cancel]
  have hget : (Res.get s_l k : Res SignError ℕ) = .ok (s_l.getD k 0) := by
    rw [Res.get_of_lt h.pos]; simp [h.pos]
  rw [hget, Res.bind_ok, h.holds.share, create_eq h.members h.nodup h.n_lt h.n_u16 h.pos, Res.bind_ok,
    h.holds.index, hs_ek h h.pos, Res.bind_ok, h.holds.sts_eq]
  simp only
  rw [h4, Res.ofOption_some, Res.bind_ok]
  exact ⟨_, _, rfl, rfl, rfl, rfl, rfl, rfl, rfl⟩

theorem round1_all {r : Round1} (hr : Inv1 dk s_l k key rnd r)
    (b1 : ℕ → MessageA × SignBroadcastPhase1) :
    intoVecIncludingMe ((others s_l.length k).map b1) r.i (r.m_a.1, r.phase1_com) =
      (List.range s_l.length).map (fun j => if j = k then (r.m_a.1, r.phase1_com) else b1 j) := by
  rw [hr.i, intoVec_others h.pos]

theorem round1_panic {r : Round1} (hr : Inv1 dk s_l k key rnd r)
    {b1 : ℕ → MessageA × SignBroadcastPhase1}
    (hp : r.proceed ((others s_l.length k).map b1) rnd = .panic) :
    ∃ j < s_l.length, j ≠ k ∧ ∃ pf ∈ (b1 j).1.range_proofs, pf.e < 0 := by
  unfold Round1.proceed at hp
  rw [round1_all h hr, hr.sl] at hp
  simp only [Res.bind_eq_panic, reduceCtorEq, and_false, exists_false, or_false] at hp
  obtain ⟨j, hj, hp⟩ := Res.mapM_panic hp
  have hj : j < s_l.length - 1 := by simpa using hj
  have hj' := otherInd_lt (k := k) hj
  have hm := h.members _ (getD_mem hj')
  have hst : ∀ st ∈ sts, st.Usable := fun st => hs_usable h
  have hN : 0 < oN dk s_l (otherInd k j) := h.moduli _ hm.1 hm.2
  refine ⟨otherInd k j, hj', otherInd_ne, ?_⟩
  unfold Round1.answer at hp
  simp only [hr.i, Nat.add_sub_cancel, hr.sl, hr.key, h.holds.sts_eq, List.map_map] at hp
  rw [get_zeroBased hj', Res.bind_ok, hs_ek h hj', Res.bind_ok, Keygen.get_map_range hj',
    Res.bind_ok] at hp
  simp only [Function.comp, if_neg (otherInd_ne (k := k) (j := j)), Res.bind_eq_panic,
    Res.mapErr_eq_panic, reduceCtorEq, and_false, exists_false, or_false] at hp
  rcases hp with hp | ⟨_, -, hp⟩
  · exact MessageB.b_panic hst hN hp
  · exact MessageB.b_panic hst hN hp

theorem round1_inv {r : Round1} (hr : Inv1 dk s_l k key rnd r)
    {b1 : ℕ → MessageA × SignBroadcastPhase1} {r' : Round2} {out : List (Msg (MessageB × MessageB))}
    (ho : r.proceed ((others s_l.length k).map b1) rnd = .ok (r', out)) :
    Inv2 dk s_l k key rnd b1 r' := by
  unfold Round1.proceed at ho
  rw [round1_all h hr, hr.sl] at ho
  simp only [Res.bind_eq_ok, Res.ok.injEq, Prod.mk.injEq] at ho
  obtain ⟨as, ha, rfl, -⟩ := ho
  have hl : as.length = s_l.length - 1 := by
    rw [← (Res.mapM_eq_ok.1 ha).length_eq]; simp
  refine ⟨hr.i, rfl, hr.key, hr.ra, hr.c, hr.k_i, by simpa using hl, by simpa using hl, by simp, ?_, ?_⟩
  · simp only [List.map_map]
    refine List.map_congr_left fun j _ => ?_
    simp only [Function.comp]
    split <;> rfl
  · intro j hj hjk
    have hjm : j ∈ (List.range (s_l.length - 1)).map (otherInd k) := by
      rw [range_map_otherInd h.pos]; simpa using ⟨hj, hjk⟩
    obtain ⟨i, hi, rfl⟩ := List.mem_map.1 hjm
    have hi : i < s_l.length - 1 := by simpa using hi
    have hj' := hj
    have hm := h.members _ (getD_mem hj')
    have hi' : i < as.length := by omega
    have hb := (List.forall₂_iff_get.1 (Res.mapM_eq_ok.1 ha)).2 i (by simpa using hi) hi'
    simp only [List.get_eq_getElem, List.getElem_range] at hb
    unfold Round1.answer at hb
    simp only [hr.i, Nat.add_sub_cancel, hr.sl, hr.key, h.holds.sts_eq, List.map_map] at hb
    rw [get_zeroBased hj', Res.bind_ok, hs_ek h hj', Res.bind_ok, Keygen.get_map_range hj',
      Res.bind_ok] at hb
    simp only [Function.comp, if_neg (otherInd_ne (k := k) (j := i)), Res.bind_eq_ok,
      Res.mapErr_eq_ok] at hb
    obtain ⟨g, hg, -⟩ := hb
    obtain ⟨hlen, hver, -⟩ := MessageB.b_ok_iff.1 hg
    have hpos : 0 < sts.length := by rw [h.aux.count]; omega
    obtain ⟨st, sts', hsts⟩ : ∃ st sts', sts = st :: sts' := by
      cases sts with
      | nil => simp at hpos
      | cons a l => exact ⟨a, l, rfl⟩
    obtain ⟨pf, pfs, hpfs⟩ : ∃ pf pfs, (b1 (otherInd k i)).1.range_proofs = pf :: pfs := by
      cases hc : (b1 (otherInd k i)).1.range_proofs with
      | nil => rw [hc] at hlen; simp at hlen; omega
      | cons a l => exact ⟨a, l, rfl⟩
    have := hver (pf, st) (by rw [hpfs, hsts]; simp)
    rcases alice_verify_coprime (h.moduli _ hm.1 hm.2) this with h' | h'
    · exact Or.inl h'
    · exact Or.inr ⟨pf, by rw [hpfs]; simp, h'⟩

theorem round2_gw {r : Round2} {b1 : ℕ → MessageA × SignBroadcastPhase1}
    (hr : Inv2 dk s_l k key rnd b1 r) :
    (SignKeys.g_w_vec r.local_key.pk_vec (zeroBased r.s_l) : Res SignError (List Pt)) =
      .ok ((List.range s_l.length).map (fun k => signShare x s_l k • G)) := by
  rw [hr.key, h.holds.pks, hr.sl, g_w_vec_eq h.members h.nodup h.n_lt h.n_u16]

theorem round2_panic {r : Round2} {b1 : ℕ → MessageA × SignBroadcastPhase1}
    (hr : Inv2 dk s_l k key rnd b1 r) {b2 : ℕ → MessageB × MessageB}
    (hp : r.proceed ((others s_l.length k).map b2) rnd = .panic) :
    ∃ j < s_l.length, j ≠ k ∧ (b2 j).2.b_proof.pk ≠ signShare x s_l j • G := by
  unfold Round2.proceed at hp
  rw [round2_gw h hr, Res.bind_ok, hr.sl, Res.bind_eq_panic] at hp
  rcases hp with hp | ⟨sh, hsh, hp⟩
  · obtain ⟨j, hj, hp⟩ := Res.mapM_panic hp
    have hj : j < s_l.length - 1 := by simpa using hj
    have hj' := otherInd_lt (k := k) hj
    refine ⟨otherInd k j, hj', otherInd_ne, fun he => ?_⟩
    unfold Round2.shares at hp
    simp only [hr.i, Nat.add_sub_cancel, hr.key, h.holds.dk_own] at hp
    rw [show others s_l.length k = (List.range s_l.length).filter (fun j => decide (j ≠ k)) from rfl,
      get_others h.pos hj, Res.bind_ok, Keygen.get_map_range hj'] at hp
    simp only [Res.bind_eq_panic, Res.mapErr_eq_panic, Res.bind_ok] at hp
    rcases hp with hp | ⟨_, -, hp | ⟨_, -, hp | ⟨_, -, hp⟩⟩⟩
    · exact MessageB.verify_no_panic h.dk_valid _ hp
    · exact MessageB.verify_no_panic h.dk_valid _ hp
    · rw [Res.assert_eq_panic, decide_eq_false_iff_not] at hp
      exact hp he
    · cases hp
  · have hl : sh.length = s_l.length - 1 := by
      rw [← (Res.mapM_eq_ok.1 hsh).length_eq]; simp
    unfold SignKeys.phase2_delta_i SignKeys.phase2_sigma_i at hp
    simp only [List.length_map, hl, hr.beta, hr.ni, decide_true, Res.assert_true, Res.bind_ok] at hp
    cases hp

theorem round2_inv {r : Round2} {b1 : ℕ → MessageA × SignBroadcastPhase1}
    (hr : Inv2 dk s_l k key rnd b1 r) {b2 : ℕ → MessageB × MessageB} {r' : Round3}
    {out : List (Msg TMsg)} (ho : r.proceed ((others s_l.length k).map b2) rnd = .ok (r', out)) :
    Inv3 dk s_l k key rnd b1 r' ∧ out = [⟨k + 1, none, ⟨r'.delta_i, r'.t_i, r'.t_i_proof⟩⟩] := by
  unfold Round2.proceed at ho
  simp only [Res.bind_eq_ok, Res.ok.injEq, Prod.mk.injEq] at ho
  obtain ⟨_, -, sh, -, d, -, s, -, rfl, rfl⟩ := ho
  exact ⟨⟨hr.i, hr.sl, hr.key, hr.ra, hr.c, hr.k_i, by simp [length_others h.pos], hr.bc, hr.m_a_vec,
    hr.alice, rfl⟩, by simp [hr.i]⟩

theorem round3_panic {r : Round3} {b1 : ℕ → MessageA × SignBroadcastPhase1}
    (hr : Inv3 dk s_l k key rnd b1 r) {b3 : ℕ → TMsg}
    (hp : r.proceed ((others s_l.length k).map b3) = .panic) :
    (∃ j < s_l.length, j ≠ k ∧ (b3 j).t_i ≠ (b3 j).t_i_proof.com) ∨
      r.delta_i + ((others s_l.length k).map (fun j => (b3 j).delta_i)).sum = 0 := by
  unfold Round3.proceed at hp
  rw [hr.i, intoVec_others h.pos] at hp
  simp only [Res.bind_eq_panic, Res.assert_eq_panic] at hp
  rcases hp with hp | ⟨_, -, hp | ⟨_, -, hp⟩⟩
  · rw [List.all_eq_false] at hp
    obtain ⟨m, hm, hp⟩ := hp
    obtain ⟨j, hj, rfl⟩ := List.mem_map.1 hm
    by_cases hjk : j = k
    · simp only [if_pos hjk, decide_eq_true_eq] at hp
      exact (hp hr.t_i).elim
    · simp only [if_neg hjk, decide_eq_true_eq] at hp
      exact Or.inl ⟨j, by simpa using hj, hjk, hp⟩
  · right
    unfold phase3_reconstruct_delta at hp
    rw [Res.ofOption_eq_panic, foldl_add_zero, List.map_map, sum_map_range_eq,
      ← sum_others h.pos] at hp
    by_contra hne
    have e : (((fun m : TMsg => m.delta_i) ∘ fun j => if j = k then
        (⟨r.delta_i, r.t_i, r.t_i_proof⟩ : TMsg) else b3 j) k) = r.delta_i := by simp
    have e2 : ((List.range s_l.length).filter (fun j => decide (j ≠ k))).map
        ((fun m : TMsg => m.delta_i) ∘ fun j => if j = k then
        (⟨r.delta_i, r.t_i, r.t_i_proof⟩ : TMsg) else b3 j) =
        (others s_l.length k).map (fun j => (b3 j).delta_i) := by
      refine List.map_congr_left fun j hj => ?_
      simp [(mem_others.1 hj).2]
    rw [e, e2, scInvert_of_ne hne] at hp
    cases hp
  · split at hp <;> cases hp

theorem round3_inv {r : Round3} {b1 : ℕ → MessageA × SignBroadcastPhase1}
    (hr : Inv3 dk s_l k key rnd b1 r) {b3 : ℕ → TMsg} {r' : Round4}
    {out : List (Msg SignDecommitPhase1)}
    (ho : r.proceed ((others s_l.length k).map b3) = .ok (r', out)) :
    Inv4 dk s_l k key rnd b1 r' := by
  unfold Round3.proceed at ho
  rw [hr.i, intoVec_others h.pos] at ho
  simp only [Res.bind_eq_ok] at ho
  obtain ⟨_, -, d, -, ho⟩ := ho
  split at ho
  · simp only [Res.ok.injEq, Prod.mk.injEq] at ho
    obtain ⟨rfl, -⟩ := ho
    exact ⟨rfl, hr.sl, hr.key, hr.ra, hr.c, hr.k_i, hr.mb, hr.bc, hr.m_a_vec, hr.alice, by simp⟩
  · cases ho

omit h in
theorem phase4_no_panic {m i : ℕ} (hi : i < m) {d : Sc} {bp : List DLogProof}
    {ds : List SignDecommitPhase1} {bc : List SignBroadcastPhase1} (h1 : bp.length = m - 1)
    (h2 : ds.length = m) (h3 : bc.length = m) : phase4 d bp ds bc i ≠ .panic := by
  intro hp
  unfold phase4 at hp
  rw [Res.bind_eq_panic] at hp
  rcases hp with hp | ⟨⟨ok, bad⟩, -, hp⟩
  · obtain ⟨j, hj, hp, -⟩ := allPush_range_panic.1 hp
    have hj' : otherInd i j < m := otherInd_lt (by omega)
    unfold phase4_test at hp
    simp only at hp
    rw [Res.get_of_lt hj, Res.bind_ok, Res.get_of_lt (h2 ▸ hj'), Res.bind_ok] at hp
    split at hp
    · rw [Res.get_of_lt (h3 ▸ hj'), Res.bind_ok] at hp
      cases hp
    · cases hp
  · cases ds with
    | nil => simp at h2; omega
    | cons a l => simp only at hp; split at hp <;> cases hp

/-- The signer's own PDL proofs. -/
theorem own_pdl {r : Round4} {b1 : ℕ → MessageA × SignBroadcastPhase1}
    (hr : Inv4 dk s_l k key rnd b1 r) (R : Pt) {j : ℕ} (hj : j < s_l.length) :
    ∃ st pf, (Res.get key.h1_h2_n_tilde_vec (s_l.getD j 0 - 1) : Res SignError _) = .ok st ∧
      (phase5_proof_pdl (r.sign_keys.k_i • R) R r.m_a.1.c (oN dk s_l k) r.sign_keys.k_i r.m_a.2 st
        (rnd.pdl j) : Res SignError _) = .ok pf ∧
      pf.verify (pdlStatement (r.sign_keys.k_i • R) R r.m_a.1.c (oN dk s_l k) st) = some true := by
  obtain ⟨st, hst, hg⟩ := hs_st (ε := SignError) h hj
  have hu := hs_usable h hst
  obtain ⟨pf, h1, h2⟩ := pdl_complete (w := ⟨rnd.k, rnd.ra⟩)
    (st := pdlStatement (r.sign_keys.k_i • R) R r.m_a.1.c (oN dk s_l k) st) (rnd := rnd.pdl j)
    hu.1 hu.2 hu.3 (hs_own_pos h) (by rw [hr.k_i]; rfl) h.ra_unit (by
      show Paillier.IsEnc (oN dk s_l k) r.m_a.1.c _ _
      rw [hr.c]
      exact Paillier.isEnc_encrypt _ _ _)
  refine ⟨st, pf, by rw [h.holds.sts_eq]; exact hg, ?_, h2⟩
  unfold phase5_proof_pdl
  rw [hr.ra, Res.ofOption_eq_ok]
  rw [hr.k_i] at h1 ⊢
  exact h1

theorem round4_proofs {r : Round4} {b1 : ℕ → MessageA × SignBroadcastPhase1}
    (hr : Inv4 dk s_l k key rnd b1 r) (R : Pt) : ∃ pf : ℕ → PDLwSlackProof,
    (Res.mapM (fun j => do
      let ind := otherInd (r.i - 1) j
      let me ← Res.get (zeroBased r.s_l) (r.i - 1)
      let ek ← Res.get r.local_key.paillier_key_vec me
      let si ← Res.get (zeroBased r.s_l) ind
      let st ← Res.get r.local_key.h1_h2_n_tilde_vec si
      phase5_proof_pdl (r.sign_keys.k_i • R) R r.m_a.1.c ek r.sign_keys.k_i r.m_a.2 st (rnd.pdl ind))
      (List.range (r.s_l.length - 1)) : Res SignError _) = .ok ((others s_l.length k).map pf) ∧
    ∀ j < s_l.length, ∃ st, (Res.get sts (s_l.getD j 0 - 1) : Res ErrorType _) = .ok st ∧
      (pf j).verify (pdlStatement (r.sign_keys.k_i • R) R r.m_a.1.c (oN dk s_l k) st) = some true := by
  have : ∀ j, ∃ pf : PDLwSlackProof, j < s_l.length → ∃ st,
      (Res.get key.h1_h2_n_tilde_vec (s_l.getD j 0 - 1) : Res SignError _) = .ok st ∧
      (phase5_proof_pdl (r.sign_keys.k_i • R) R r.m_a.1.c (oN dk s_l k) r.sign_keys.k_i r.m_a.2 st
        (rnd.pdl j) : Res SignError _) = .ok pf ∧
      pf.verify (pdlStatement (r.sign_keys.k_i • R) R r.m_a.1.c (oN dk s_l k) st) = some true := by
    intro j
    by_cases hj : j < s_l.length
    · obtain ⟨st, pf, h1, h2, h3⟩ := own_pdl h hr R hj
      exact ⟨pf, fun _ => ⟨st, h1, h2, h3⟩⟩
    · exact ⟨⟨0, 0, 0, 0, 0, 0, 0⟩, fun h' => absurd h' hj⟩
  choose pf hpf using this
  refine ⟨pf, ?_, fun j hj => ?_⟩
  · rw [hr.i, hr.sl, hr.key]
    refine mapM_others h.pos pf fun j hj => ?_
    have hj' := otherInd_lt (k := k) hj
    obtain ⟨st, h1, h2, -⟩ := hpf _ hj'
    simp only [Nat.add_sub_cancel]
    rw [get_zeroBased h.pos, Res.bind_ok, hs_ek h h.pos, Res.bind_ok, get_zeroBased hj', Res.bind_ok, h1,
      Res.bind_ok, h2]
  · obtain ⟨st, h1, -, h3⟩ := hpf j hj
    rw [h.holds.sts_eq, Res.get_eq_ok] at h1
    exact ⟨st, Res.get_eq_ok.2 h1, h3⟩

theorem round4_no_panic {r : Round4} {b1 : ℕ → MessageA × SignBroadcastPhase1}
    (hr : Inv4 dk s_l k key rnd b1 r) (b4 : ℕ → SignDecommitPhase1) :
    r.proceed ((others s_l.length k).map b4) rnd ≠ .panic := by
  intro hp
  unfold Round4.proceed at hp
  rw [Res.bind_eq_panic] at hp
  rcases hp with hp | ⟨bp, hbp, hp⟩
  · obtain ⟨j, hj, hp⟩ := Res.mapM_panic hp
    have hj : j < r.mb_gamma_s.length := by rw [hr.mb, ← hr.sl]; simpa using hj
    rw [Res.get_of_lt hj] at hp
    cases hp
  · have hl : bp.length = s_l.length - 1 := by
      rw [← (Res.mapM_eq_ok.1 hbp).length_eq]; simp [hr.sl]
    rw [Res.bind_eq_panic] at hp
    rcases hp with hp | ⟨R, -, hp⟩
    · rw [Res.mapErr_eq_panic, hr.i, Nat.add_sub_cancel] at hp
      refine phase4_no_panic h.pos hl ?_ hr.bc hp
      rw [intoVec_others h.pos]; simp
    · obtain ⟨pf, hpf, -⟩ := round4_proofs h hr R
      simp only at hp
      rw [hpf] at hp
      cases hp

theorem round4_inv {r : Round4} {b1 : ℕ → MessageA × SignBroadcastPhase1}
    (hr : Inv4 dk s_l k key rnd b1 r) {b4 : ℕ → SignDecommitPhase1} {r' : Round5}
    {out : List (Msg (Pt × List PDLwSlackProof))}
    (ho : r.proceed ((others s_l.length k).map b4) rnd = .ok (r', out)) :
    Inv5 dk sts s_l k key b1 r' := by
  unfold Round4.proceed at ho
  rw [Res.bind_eq_ok] at ho
  obtain ⟨bp, -, ho⟩ := ho
  rw [Res.bind_eq_ok] at ho
  obtain ⟨R, -, ho⟩ := ho
  obtain ⟨pf, hpf, hv⟩ := round4_proofs h hr R
  simp only at ho
  rw [hpf, Res.bind_ok] at ho
  simp only [Res.ok.injEq, Prod.mk.injEq] at ho
  obtain ⟨rfl, -⟩ := ho
  refine ⟨hr.i, hr.sl, hr.key, hr.t_vec, hr.alice, r.m_a.1, hr.m_a_vec, fun hp => ?_⟩
  unfold phase5_verify_pdl at hp
  have hz : (zeroBased s_l).length = s_l.length := by simp [zeroBased]
  have hpos := h.pos
  rw [hz, if_neg (by omega), if_neg (by simp [length_others h.pos]), Res.bind_eq_panic] at hp
  rcases hp with hp | ⟨⟨ok, bad⟩, -, hp⟩
  · obtain ⟨j, hj, hp, -⟩ := allPush_range_panic.1 hp
    have hj : j < s_l.length - 1 := by simpa [length_others h.pos] using hj
    have hj' := otherInd_lt (k := k) hj
    obtain ⟨st, h1, h2⟩ := hv _ hj'
    unfold phase5_pdl_test at hp
    simp only at hp
    rw [get_zeroBased hj', Res.bind_ok, h1, Res.bind_ok,
      show others s_l.length k = (List.range s_l.length).filter (fun j => decide (j ≠ k)) from rfl,
      get_others h.pos hj, Res.bind_ok, h2] at hp
    cases hp
  · simp only at hp; split at hp <;> cases hp

theorem round5_panic {r : Round5} {b1 : ℕ → MessageA × SignBroadcastPhase1}
    (hr : Inv5 dk sts s_l k key b1 r) {b5 : ℕ → Pt × List PDLwSlackProof}
    (hp : r.proceed ((others s_l.length k).map b5) rnd = .panic) :
    ∃ j < s_l.length, j ≠ k ∧ ((Int.gcd (b1 j).1.c (oN dk s_l j) ≠ 1 ∧
      ∃ pf ∈ (b1 j).1.range_proofs, pf.e = 0) ∨
      ∃ pf ∈ (b5 j).2, ∃ st ∈ sts, Int.gcd pf.z st.N ≠ 1) := by
  obtain ⟨m_a, hma, hown⟩ := hr.own
  unfold Round5.proceed at hp
  rw [hr.i, intoVec_others h.pos, hr.sl] at hp
  simp only [Res.bind_eq_panic] at hp
  rcases hp with hp | ⟨_, -, hp | ⟨_, -, hp⟩⟩
  · obtain ⟨j, hj, hp⟩ := Res.mapM_panic hp
    have hj : j < s_l.length := by simpa using hj
    have hm := h.members _ (getD_mem hj)
    unfold Round5.checkPdl at hp
    simp only [hr.sl, hr.key, hma, h.holds.sts_eq] at hp
    rw [Keygen.get_map_range hj, Res.bind_ok, Keygen.get_map_range hj, Res.bind_ok, get_zeroBased hj,
      Res.bind_ok, hs_ek h hj, Res.bind_ok, Res.mapErr_eq_panic] at hp
    by_cases hjk : j = k
    · subst hjk
      simp only [if_true] at hp
      exact (hown hp).elim
    · simp only [if_neg hjk] at hp
      refine ⟨j, hj, hjk, ?_⟩
      unfold phase5_verify_pdl at hp
      have hz : (zeroBased s_l).length = s_l.length := by simp [zeroBased]
      rw [hz, if_neg (by omega)] at hp
      split at hp
      · cases hp
      · rename_i hl
        have hl : (b5 j).2.length = s_l.length - 1 := by simpa using hl
        rw [Res.bind_eq_panic] at hp
        rcases hp with hp | ⟨⟨ok, bad⟩, -, hp⟩
        · obtain ⟨i, hi, hp, -⟩ := allPush_range_panic.1 hp
          have hi' : otherInd j i < s_l.length := otherInd_lt (by omega)
          obtain ⟨st, hst, hg⟩ := hs_st (ε := ErrorType) h hi'
          have hu := hs_usable h hst
          unfold phase5_pdl_test at hp
          simp only at hp
          rw [get_zeroBased hi', Res.bind_ok, hg, Res.bind_ok, Res.get_of_lt hi, Res.bind_ok,
            Res.ofOption_eq_panic] at hp
          rcases pdl_verify_none (st := pdlStatement _ _ _ _ st) hu.1 hu.2 hu.3
            (h.moduli _ hm.1 hm.2) hp with h1 | h1
          · exact Or.inr ⟨_, List.getElem_mem hi, st, hst, h1⟩
          · exact Or.inl ⟨h1, (hr.alice j hj hjk).resolve_left h1⟩
        · simp only at hp; split at hp <;> cases hp
  · rw [Res.mapErr_eq_panic] at hp
    unfold phase5_check_R_dash_sum at hp
    simp only at hp; split at hp <;> cases hp
  · cases hp

omit h in
theorem round5_inv {r : Round5} {b1 : ℕ → MessageA × SignBroadcastPhase1}
    (hr : Inv5 dk sts s_l k key b1 r) {b5 : ℕ → Pt × List PDLwSlackProof} {r' : Round6}
    {out : List (Msg (Pt × HomoElGamalProof))}
    (ho : r.proceed ((others s_l.length k).map b5) rnd = .ok (r', out)) : Inv6 s_l k r' := by
  unfold Round5.proceed at ho
  simp only [Res.bind_eq_ok, Res.ok.injEq, Prod.mk.injEq] at ho
  obtain ⟨_, -, _, -, rfl, -⟩ := ho
  exact ⟨hr.i, hr.sl, hr.t_vec⟩

omit h in
theorem phase6_bad_no_panic {ε : Type} {m : ℕ} {S T R : List Pt} {pf : List HomoElGamalProof}
    (h1 : S.length = m) (h2 : T.length = m) (h3 : R.length = m) (h4 : pf.length = m) :
    ∀ {l : List ℕ}, (∀ i ∈ l, i < m) → (phase6_bad S pf R T l : Res ε (List ℕ)) ≠ .panic
  | [], _ => by simp [phase6_bad]
  | i :: l, hl => by
    have hi : i < m := hl i (by simp)
    have ih := phase6_bad_no_panic (ε := ε) h1 h2 h3 h4 (l := l) (fun j hj => hl j (by simp [hj]))
    unfold phase6_bad
    rw [Res.get_of_lt (h3 ▸ hi), Res.bind_ok, Res.get_of_lt (h2 ▸ hi), Res.bind_ok,
      Res.get_of_lt (h1 ▸ hi), Res.bind_ok, Res.get_of_lt (h4 ▸ hi), Res.bind_ok]
    intro hp
    rw [Res.bind_eq_panic] at hp
    rcases hp with hp | ⟨_, -, hp⟩
    · exact ih hp
    · cases hp

theorem round6_no_panic {r : Round6} (hr : Inv6 s_l k r) (b6 : ℕ → Pt × HomoElGamalProof) :
    r.proceed ((others s_l.length k).map b6) ≠ .panic := by
  intro hp
  unfold Round6.proceed at hp
  rw [hr.i, intoVec_others h.pos] at hp
  simp only [Res.bind_eq_panic, Res.mapErr_eq_panic] at hp
  rcases hp with hp | ⟨_, -, hp | ⟨_, -, hp⟩⟩
  · unfold phase6_verify_proof at hp
    rw [Res.bind_eq_panic] at hp
    rcases hp with hp | ⟨_, -, hp⟩
    · refine phase6_bad_no_panic (m := s_l.length) ?_ hr.t_vec ?_ ?_ ?_ hp <;> simp [hr.sl]
    · split at hp <;> cases hp
  · unfold phase6_check_S_i_sum at hp
    simp only at hp; split at hp <;> cases hp
  · cases hp

/-- What a panicking straight-line execution received. -/
inductive LineCause (x : ℕ → Sc) (dk : ℕ → DecKey) (sts : List DLogStatement) (s_l : List ℕ) (k : ℕ)
    (body : (j : ℕ) → ℕ → Bd j) (out : List (Msg (proto rnd).Body)) : ℕ → Prop
  | r1 (j : ℕ) (hj : j < s_l.length) (hk : j ≠ k) (pf : AliceProof)
      (mem : pf ∈ (body 1 j : MessageA × SignBroadcastPhase1).1.range_proofs) (neg : pf.e < 0) :
      LineCause x dk sts s_l k body out 1
  | r2 (j : ℕ) (hj : j < s_l.length) (hk : j ≠ k)
      (ne : (body 2 j : MessageB × MessageB).2.b_proof.pk ≠ signShare x s_l j • G) :
      LineCause x dk sts s_l k body out 2
  | r3 (j : ℕ) (hj : j < s_l.length) (hk : j ≠ k)
      (ne : (body 3 j : TMsg).t_i ≠ (body 3 j : TMsg).t_i_proof.com) :
      LineCause x dk sts s_l k body out 3
  | r3' (own : TMsg) (mem : ⟨k + 1, none, ⟨3, own⟩⟩ ∈ out)
      (zero : own.delta_i + ((others s_l.length k).map (fun j => (body 3 j : TMsg).delta_i)).sum = 0) :
      LineCause x dk sts s_l k body out 3
  | r5 (j : ℕ) (hj : j < s_l.length) (hk : j ≠ k)
      (bad : Int.gcd (body 1 j : MessageA × SignBroadcastPhase1).1.c (oN dk s_l j) ≠ 1)
      (pf : AliceProof) (mem : pf ∈ (body 1 j : MessageA × SignBroadcastPhase1).1.range_proofs)
      (zero : pf.e = 0) :
      LineCause x dk sts s_l k body out 5
  | r5' (j : ℕ) (hj : j < s_l.length) (hk : j ≠ k) (pf : PDLwSlackProof)
      (mem : pf ∈ (body 5 j : Pt × List PDLwSlackProof).2) (st : DLogStatement) (hst : st ∈ sts)
      (bad : Int.gcd pf.z st.N ≠ 1) :
      LineCause x dk sts s_l k body out 5

omit [Crypto] h in
theorem straight_ok {P : Proto} {r0 : P.St 0} {v : (j : ℕ) → List (P.Bd j)} {j : ℕ}
    {r : P.St (j + 1)} {out : List (Msg P.Body)} (ho : P.straight r0 v (j + 1) = .ok (r, out)) :
    ∃ r1 out1 o, P.straight r0 v j = .ok (r1, out1) ∧
      P.fn j r1 (if j = 0 then [] else v j) = .ok (r, o) ∧ out = out1 ++ o.map (P.tag (j + 1)) := by
  unfold Proto.straight at ho
  rw [Res.bind_eq_ok] at ho
  obtain ⟨⟨r1, out1⟩, h1, ho⟩ := ho
  rw [Res.bind_eq_ok] at ho
  obtain ⟨⟨r2, o⟩, h2, ho⟩ := ho
  cases ho
  exact ⟨r1, out1, o, h1, h2, rfl⟩

variable {v : (j : ℕ) → List (Bd j)} {body : (j : ℕ) → ℕ → Bd j}

theorem straight_inv1 {r : Round1} {out : List (Msg (proto rnd).Body)}
    (ho : (proto rnd).straight (⟨k + 1, s_l, key⟩ : Round0) v 1 = .ok (r, out)) :
    Inv1 dk s_l k key rnd r := by
  obtain ⟨r0, out0, o, e0, e1, -⟩ := straight_ok (P := proto rnd) ho
  have e0 : (.ok (⟨k + 1, s_l, key⟩, []) : Res SignError (Round0 × List (Msg (proto rnd).Body))) =
    .ok (r0, out0) := e0
  cases e0
  obtain ⟨r', o', e, hi⟩ := round0_inv h
  have e1 : Round0.proceed ⟨k + 1, s_l, key⟩ rnd = .ok (r, o) := e1
  rw [e] at e1
  cases e1
  exact hi

theorem straight_inv2 {r : Round2} {out : List (Msg (proto rnd).Body)}
    (h1 : v 1 = (others s_l.length k).map (body 1))
    (ho : (proto rnd).straight (⟨k + 1, s_l, key⟩ : Round0) v 2 = .ok (r, out)) :
    Inv2 dk s_l k key rnd (body 1) r := by
  obtain ⟨r0, out0, o, e0, e1, -⟩ := straight_ok (P := proto rnd) ho
  have e1 : Round1.proceed r0 (v 1) rnd = .ok (r, o) := e1
  rw [h1] at e1
  exact round1_inv h (straight_inv1 h e0) e1

theorem straight_inv3 {r : Round3} {out : List (Msg (proto rnd).Body)}
    (h1 : v 1 = (others s_l.length k).map (body 1)) (h2 : v 2 = (others s_l.length k).map (body 2))
    (ho : (proto rnd).straight (⟨k + 1, s_l, key⟩ : Round0) v 3 = .ok (r, out)) :
    Inv3 dk s_l k key rnd (body 1) r ∧
      (⟨k + 1, none, ⟨3, (⟨r.delta_i, r.t_i, r.t_i_proof⟩ : TMsg)⟩⟩ : Msg (proto rnd).Body) ∈ out := by
  obtain ⟨r0, out0, o, e0, e1, rfl⟩ := straight_ok (P := proto rnd) ho
  have e1 : Round2.proceed r0 (v 2) rnd = .ok (r, o) := e1
  rw [h2] at e1
  obtain ⟨hi, e⟩ := round2_inv h (straight_inv2 h h1 e0) e1
  refine ⟨hi, List.mem_append_right _ ?_⟩
  exact List.mem_map.2 ⟨_, e ▸ List.mem_singleton_self _, rfl⟩

theorem straight_inv4 {r : Round4} {out : List (Msg (proto rnd).Body)}
    (hv : ∀ j, 1 ≤ j → j ≤ 3 → v j = (others s_l.length k).map (body j))
    (ho : (proto rnd).straight (⟨k + 1, s_l, key⟩ : Round0) v 4 = .ok (r, out)) :
    Inv4 dk s_l k key rnd (body 1) r := by
  obtain ⟨r0, out0, o, e0, e1, -⟩ := straight_ok (P := proto rnd) ho
  have e1 : Round3.proceed r0 (v 3) = .ok (r, o) := e1
  rw [hv 3 (by omega) (by omega)] at e1
  exact round3_inv h (straight_inv3 h (hv 1 (by omega) (by omega)) (hv 2 (by omega) (by omega)) e0).1 e1

theorem straight_inv5 {r : Round5} {out : List (Msg (proto rnd).Body)}
    (hv : ∀ j, 1 ≤ j → j ≤ 4 → v j = (others s_l.length k).map (body j))
    (ho : (proto rnd).straight (⟨k + 1, s_l, key⟩ : Round0) v 5 = .ok (r, out)) :
    Inv5 dk sts s_l k key (body 1) r := by
  obtain ⟨r0, out0, o, e0, e1, -⟩ := straight_ok (P := proto rnd) ho
  have e1 : Round4.proceed r0 (v 4) rnd = .ok (r, o) := e1
  rw [hv 4 (by omega) (by omega)] at e1
  exact round4_inv h (straight_inv4 h (fun j a b => hv j a (by omega)) e0) e1

theorem straight_inv6 {r : Round6} {out : List (Msg (proto rnd).Body)}
    (hv : ∀ j, 1 ≤ j → j ≤ 5 → v j = (others s_l.length k).map (body j))
    (ho : (proto rnd).straight (⟨k + 1, s_l, key⟩ : Round0) v 6 = .ok (r, out)) : Inv6 s_l k r := by
  obtain ⟨r0, out0, o, e0, e1, -⟩ := straight_ok (P := proto rnd) ho
  have e1 : Round5.proceed r0 (v 5) rnd = .ok (r, o) := e1
  rw [hv 5 (by omega) (by omega)] at e1
  exact round5_inv (straight_inv5 h (fun j a b => hv j a (by omega)) e0) e1

theorem line_cause {K : ℕ} (hK : K ≤ 6)
    (hv : ∀ j, 1 ≤ j → j ≤ K → v j = (others s_l.length k).map (body j)) {r : St K}
    {out : List (Msg (proto rnd).Body)}
    (ho : (proto rnd).straight (⟨k + 1, s_l, key⟩ : Round0) v K = .ok (r, out))
    (hp : fn rnd K r (if K = 0 then [] else v K) = .panic) :
    LineCause (rnd := rnd) x dk sts s_l k body out K := by
  match K, hK, hv, r, ho, hp with
  | 0, _, hv, r, ho, hp =>
    have ho : (.ok (⟨k + 1, s_l, key⟩, []) : Res SignError (Round0 × List (Msg (proto rnd).Body))) =
      .ok (r, out) := ho
    cases ho
    obtain ⟨r', o', e, -⟩ := round0_inv h
    have hp : Round0.proceed ⟨k + 1, s_l, key⟩ rnd = .panic := hp
    rw [e] at hp
    cases hp
  | 1, _, hv, r, ho, hp =>
    have hp : Round1.proceed r (v 1) rnd = .panic := hp
    rw [hv 1 (by omega) (by omega)] at hp
    obtain ⟨j, hj, hk, pf, hpf, he⟩ := round1_panic h (straight_inv1 h ho) hp
    exact .r1 j hj hk pf hpf he
  | 2, _, hv, r, ho, hp =>
    have hp : Round2.proceed r (v 2) rnd = .panic := hp
    rw [hv 2 (by omega) (by omega)] at hp
    obtain ⟨j, hj, hk, he⟩ := round2_panic h (straight_inv2 h (hv 1 (by omega) (by omega)) ho) hp
    exact .r2 j hj hk he
  | 3, _, hv, r, ho, hp =>
    have hp : Round3.proceed r (v 3) = .panic := hp
    rw [hv 3 (by omega) (by omega)] at hp
    obtain ⟨hi, hm⟩ := straight_inv3 h (hv 1 (by omega) (by omega)) (hv 2 (by omega) (by omega)) ho
    rcases round3_panic h hi hp with ⟨j, hj, hk, he⟩ | he
    · exact .r3 j hj hk he
    · exact .r3' _ hm he
  | 4, _, hv, r, ho, hp =>
    have hp : Round4.proceed r (v 4) rnd = .panic := hp
    rw [hv 4 (by omega) (by omega)] at hp
    exact (round4_no_panic h (straight_inv4 h (fun j a b => hv j a (by omega)) ho) _ hp).elim
  | 5, _, hv, r, ho, hp =>
    have hp : Round5.proceed r (v 5) rnd = .panic := hp
    rw [hv 5 (by omega) (by omega)] at hp
    obtain ⟨j, hj, hk, ⟨he, pf, hpf, h0⟩ | ⟨pf, hpf, st, hst, he⟩⟩ :=
      round5_panic h (straight_inv5 h (fun j a b => hv j a (by omega)) ho) hp
    · exact .r5 j hj hk he pf hpf h0
    · exact .r5' j hj hk pf hpf st hst he
  | 6, _, hv, r, ho, hp =>
    have hp : (do
      let k ← Round6.proceed r (v 6)
      .ok (k, []) : Res SignError (CompletedOfflineStage × List (Msg Unit))) = .panic := hp
    rw [hv 6 (by omega) (by omega), Res.bind_eq_panic] at hp
    rcases hp with hp | ⟨_, -, hp⟩
    · exact (round6_no_panic h (straight_inv6 h (fun j a b => hv j a (by omega)) ho) _ hp).elim
    · cases hp

end

/-! ### The state machine -/

theorem mem_tag {l : List (Msg M)} {p : ℕ} {rc : Option ℕ} {b : (proto rnd).Body}
    (hm : (⟨p, rc, b⟩ : Msg (proto rnd).Body) ∈ l.map (Msg.mapBody (tagM rnd))) :
    ∃ m, (⟨p, rc, m⟩ : Msg M) ∈ l ∧ tagM rnd m = b := by
  obtain ⟨⟨a, c, m⟩, h1, h2⟩ := List.mem_map.1 hm
  cases h2
  exact ⟨m, h1, rfl⟩

theorem tag1 {m : M} {b : Bd 1} (e : tagM rnd m = ⟨1, b⟩) : m = .M1 b := by
  cases m <;> cases e; rfl
theorem tag2 {m : M} {b : Bd 2} (e : tagM rnd m = ⟨2, b⟩) : m = .M2 b := by
  cases m <;> cases e; rfl
theorem tag3 {m : M} {b : Bd 3} (e : tagM rnd m = ⟨3, b⟩) : m = .M3 b := by
  cases m <;> cases e; rfl
theorem tag5 {m : M} {b : Bd 5} (e : tagM rnd m = ⟨5, b⟩) : m = .M5 b := by
  cases m <;> cases e; rfl

/-- A panic of the offline state machine has a cause among the accepted messages. -/
theorem panic_cause (h : HonestSigner n Y x dk sts s_l k key rnd) {s : State}
    (hnew : new (k + 1) s_l key = .ok s) {ops : List (Op M)}
    (hp : ((machine rnd).run s ops).panicked = true) :
    OfflinePanicCause x dk sts s_l (k + 1) ((machine rnd).run s ops).accepted
      ((machine rnd).sent ((machine rnd).run s ops)) := by
  obtain ⟨ha, h1, h2, hn⟩ := new_ok (rnd := rnd) hnew
  obtain ⟨K, hK, v, hv, r, ho, hf⟩ := (sim rnd).panic_spec ha h1 h2 hn ops hp
  have hK : K ≤ 6 := hK
  have hbody : ∀ j, ∃ b : ℕ → Bd j, 1 ≤ j → j ≤ K →
      v j = (Verif.others (k + 1) s_l.length).map b ∧
        ∀ p ∈ Verif.others (k + 1) s_l.length,
          (⟨p, if (proto rnd).p2p j then some (k + 1) else none, ⟨j, b p⟩⟩ : Msg (proto rnd).Body) ∈
            ((machine rnd).run s ops).accepted.map (Msg.mapBody (tagM rnd)) := by
    intro j
    by_cases hj : 1 ≤ j ∧ j ≤ K
    · obtain ⟨b, hb⟩ := hv j hj.1 hj.2
      exact ⟨b, fun _ _ => hb⟩
    · by_cases hj6 : 1 ≤ j ∧ j ≤ 6
      · exact ⟨fun _ => Classical.choice (by
          obtain ⟨a, b⟩ := hj6
          interval_cases j
          · exact ⟨((⟨0, []⟩, ⟨0⟩) : MessageA × SignBroadcastPhase1)⟩
          · exact ⟨((⟨0, ⟨0, 0, 0⟩, ⟨0, 0, 0⟩⟩, ⟨0, ⟨0, 0, 0⟩, ⟨0, 0, 0⟩⟩) : MessageB × MessageB)⟩
          · exact ⟨(⟨0, 0, PedersenProof.prove 0 0 0 0⟩ : TMsg)⟩
          · exact ⟨(⟨0, 0⟩ : SignDecommitPhase1)⟩
          · exact ⟨((0, []) : Pt × List PDLwSlackProof)⟩
          · exact ⟨((0, HomoElGamalProof.prove 0 0 (hegStatement 0 0 0) 0 0) : Pt × HomoElGamalProof)⟩),
          fun a b => absurd ⟨a, b⟩ hj⟩
      · match j with
        | 0 => exact ⟨fun _ => (), fun a b => absurd ⟨a, b⟩ hj⟩
        | 1 | 2 | 3 | 4 | 5 | 6 => omega
        | _ + 7 => exact ⟨fun _ => (), fun a b => absurd ⟨a, b⟩ hj⟩
  choose b hb using hbody
  have hoth : Verif.others (k + 1) s_l.length = (others s_l.length k).map (· + 1) := by
    rw [others_eq_peers h1 h2, peers_eq_others]
  have hmem : ∀ j < s_l.length, j ≠ k → j + 1 ∈ Verif.others (k + 1) s_l.length := by
    intro j hj hk
    rw [hoth]
    exact List.mem_map.2 ⟨j, mem_others.2 ⟨hj, hk⟩, rfl⟩
  have hc := line_cause h (body := fun j i => b j (i + 1)) hK (fun j a c => by
    rw [(hb j a c).1, hoth, List.map_map]; rfl) ho hf
  cases hc with
  | r1 j hj hk pf mem neg =>
    obtain ⟨m, hm, e⟩ := mem_tag ((hb 1 (by omega) (by omega)).2 _ (hmem j hj hk))
    cases tag1 e
    exact .negativeChallenge _ _ _ pf hm mem neg
  | r2 j hj hk ne =>
    obtain ⟨m, hm, e⟩ := mem_tag ((hb 2 (by omega) (by omega)).2 _ (hmem j hj hk))
    cases tag2 e
    exact .foreignShare _ _ _ hm (by simpa using ne)
  | r3 j hj hk ne =>
    obtain ⟨m, hm, e⟩ := mem_tag ((hb 3 (by omega) (by omega)).2 _ (hmem j hj hk))
    cases tag3 e
    exact .otherCommitment _ _ hm ne
  | r3' own mem zero =>
    obtain ⟨m, hm, e⟩ := mem_tag mem
    cases tag3 e
    refine .zeroDelta own (b 3) hm (fun p hp => ?_) ?_
    · rw [← others_eq_peers h1 h2] at hp
      obtain ⟨m, hm, e⟩ := mem_tag ((hb 3 (by omega) (by omega)).2 _ hp)
      cases tag3 e
      exact hm
    · rw [peers_eq_others, List.map_map]
      exact zero
  | r5 j hj hk bad pf mem zero =>
    obtain ⟨m, hm, e⟩ := mem_tag ((hb 1 (by omega) (by omega)).2 _ (hmem j hj hk))
    cases tag1 e
    exact .badCiphertext _ _ _ pf hm (by rw [Nat.add_sub_cancel]; exact bad) mem zero
  | r5' j hj hk pf mem st hst bad =>
    obtain ⟨m, hm, e⟩ := mem_tag ((hb 5 (by omega) (by omega)).2 _ (hmem j hj hk))
    cases tag5 e
    exact .badCommitment _ _ _ pf st hm mem hst bad

end GG20.Sign
end Verif
