import Verif.Lemmas.Leak
import Verif.Lemmas.SignPanic
import Verif.Props.SignPanic
import Verif.Props.GG18
import Verif.Secp256k1.Crypto
import Verif.Base.BigPrimes
import Verif.Model.Demo.GG18Sign
import Verif.Model.Lindell17.Keygen

/-!
# C89: what an MtA response discloses about the responder's secret
-/

namespace Verif.Props

open EC Crypto Spec GG20 GG20.Sign

section
variable [Crypto]

/-- **C89** (the plaintext alone).  Whatever Alice encrypted and whatever Bob's secret is, each number below `N` is
the plaintext of the response for exactly one choice of Bob's mask. -/
theorem C89_plaintext_partial {dk : DecKey} (hv : dk.Valid) {a ra r : ℤ} (hra : Int.gcd ra dk.n = 1)
    (hr : Int.gcd r dk.n = 1) {m_a : MessageA} (hc : Paillier.IsEnc dk.n m_a.c a ra) {sts : List DLogStatement}
    (b t_b t_beta : Sc) (hacc : ∃ out, MessageB.b b dk.n m_a r 0 sts t_b t_beta = .ok out) (y : ℤ) (hy : 0 ≤ y)
    (hy' : y < dk.n) :
    ∃! beta_tag : ℤ, (0 ≤ beta_tag ∧ beta_tag < dk.n) ∧
      ∃ m beta, MessageB.b b dk.n m_a r beta_tag sts t_b t_beta = .ok (m, beta) ∧
        Paillier.decrypt dk m.c = some y := by
  have hn : (0 : ℤ) < dk.n := by exact_mod_cast Nat.mul_pos hv.p_prime.pos hv.q_prime.pos
  obtain ⟨out, ho⟩ := hacc
  obtain ⟨h1, h2, -⟩ := MessageB.b_ok_iff.1 ho
  refine ⟨(y - b.val * a) % dk.n, ⟨⟨Int.emod_nonneg _ hn.ne', Int.emod_lt_of_pos _ hn⟩, _, _,
    MessageB.b_ok_iff.2 ⟨h1, h2, rfl⟩, ?_⟩, ?_⟩
  · rw [Paillier.decrypt_spec hv (MessageB.isEnc_b (MessageB.b_ok_iff.2 ⟨h1, h2, rfl⟩) hc)
      (gcd_pow_mul _ hra hr), Int.add_emod_emod, add_sub_cancel, Int.emod_eq_of_lt hy hy']
  · rintro bt ⟨⟨g0, g1⟩, m, beta, hm, hd⟩
    rw [Paillier.decrypt_spec hv (MessageB.isEnc_b hm hc) (gcd_pow_mul _ hra hr), Option.some.injEq] at hd
    rw [← hd, Int.emod_sub_emod, add_sub_cancel_left, Int.emod_eq_of_lt g0 g1]

/-- **C89 fails**: for every `L` prime to her modulus, Alice has a first message that Bob answers, whatever the
auxiliary statements and whatever he samples, and from the answer she reads off his secret modulo `L`. -/
theorem C89_residue_leaks {dk : DecKey} (hv : dk.Valid) (hq : q ≤ dk.n) (hqn : ¬ q ∣ dk.n) {L : ℕ} (hL0 : 0 < L)
    (hL : 2 * L ≤ q) (hco : Nat.Coprime L dk.n) :
    ∃ a : ℤ, ∀ (sts : List DLogStatement), (∀ st ∈ sts, 1 < st.N) → ∀ (b t_b t_beta : Sc) (r beta_tag : ℤ),
      Int.gcd r dk.n = 1 → 0 ≤ beta_tag → beta_tag < dk.n →
      ∃ m beta, MessageB.b b dk.n (forgedMessageA dk.n a sts.length) r beta_tag sts t_b t_beta = .ok (m, beta) ∧
        residueOf dk L m = some (b.val % L) := by
  have hn : 0 < dk.n := Nat.mul_pos hv.p_prime.pos hv.q_prime.pos
  obtain ⟨a, ha⟩ := Int.mod_coprime hco
  refine ⟨a, fun sts hst b t_b t_beta r bt hr h0 h1 => ?_⟩
  obtain ⟨⟨m, beta⟩, h⟩ := forged_answered hn (a := a) hst b r bt t_b t_beta
  have ha' : a * L ≡ 1 [ZMOD dk.n] := by rw [mul_comm]; exact ha
  have he : Paillier.IsEnc dk.n (forgedMessageA dk.n a sts.length).c a 1 := Paillier.isEnc_encrypt dk.n a 1
  have hone : Int.gcd 1 dk.n = 1 := Int.one_gcd
  have hres := residueOf_response hv hL0 hL hq hqn ha' hone hr h0 h1 he h
  exact ⟨m, beta, h, hres⟩

/-- **C89 fails** (several exchanges): with pairwise coprime moduli whose product reaches the order of the group, the
answers give away the whole secret. -/
theorem C89_secret_recovered {dk : DecKey} (hv : dk.Valid) (hq : q ≤ dk.n) (hqn : ¬ q ∣ dk.n) {Ls : List ℕ}
    (hLs : ∀ L ∈ Ls, 0 < L ∧ 2 * L ≤ q ∧ Nat.Coprime L dk.n)
    (co : Ls.Pairwise (Function.onFun Nat.Coprime id)) (hprod : q ≤ Ls.prod) :
    ∃ a : ℕ → ℤ, ∀ (sts : List DLogStatement), (∀ st ∈ sts, 1 < st.N) →
      ∀ (b : Sc) (t_b t_beta : ℕ → Sc) (r beta_tag : ℕ → ℤ), (∀ L, Int.gcd (r L) dk.n = 1) →
      (∀ L, 0 ≤ beta_tag L) → (∀ L, beta_tag L < dk.n) →
      ∃ (m : ℕ → MessageB) (beta : ℕ → Sc),
        (∀ L ∈ Ls, MessageB.b b dk.n (forgedMessageA dk.n (a L) sts.length) (r L) (beta_tag L) sts (t_b L)
          (t_beta L) = .ok (m L, beta L)) ∧
        recover dk Ls co m = b.val := by
  classical
  have hex : ∀ L : ℕ, ∃ a : ℤ, L ∈ Ls → ∀ (sts : List DLogStatement), (∀ st ∈ sts, 1 < st.N) →
      ∀ (b t_b t_beta : Sc) (r beta_tag : ℤ), Int.gcd r dk.n = 1 → 0 ≤ beta_tag → beta_tag < dk.n →
      ∃ m beta, MessageB.b b dk.n (forgedMessageA dk.n a sts.length) r beta_tag sts t_b t_beta = .ok (m, beta) ∧
        residueOf dk L m = some (b.val % L) := by
    intro L
    by_cases hL : L ∈ Ls
    · obtain ⟨h1, h2, h3⟩ := hLs L hL
      obtain ⟨a, ha⟩ := C89_residue_leaks hv hq hqn h1 h2 h3
      exact ⟨a, fun _ => ha⟩
    · exact ⟨0, fun h => absurd h hL⟩
  choose a ha using hex
  refine ⟨a, fun sts hst b t_b t_beta r bt hr h0 h1 => ?_⟩
  have hex2 : ∀ L : ℕ, ∃ mb : MessageB × Sc, L ∈ Ls →
      MessageB.b b dk.n (forgedMessageA dk.n (a L) sts.length) (r L) (bt L) sts (t_b L) (t_beta L) = .ok mb ∧
        residueOf dk L mb.1 = some (b.val % L) := by
    intro L
    by_cases hL : L ∈ Ls
    · obtain ⟨m, beta, h⟩ := ha L hL sts hst b (t_b L) (t_beta L) (r L) (bt L) (hr L) (h0 L) (h1 L)
      exact ⟨(m, beta), fun _ => h⟩
    · exact ⟨(⟨0, DLogProof.prove 0 0, DLogProof.prove 0 0⟩, 0), fun h => absurd h hL⟩
  choose mb hmb using hex2
  exact ⟨fun L => (mb L).1, fun L => (mb L).2, fun L hL => (hmb L hL).1,
    recover_eq (fun L hL => (hLs L hL).1) hprod fun L hL => (hmb L hL).2⟩

variable {n : ℕ} {Y : Pt} {x : ℕ → Sc} {dk : ℕ → DecKey} {sts : List DLogStatement}
  {s_l : List ℕ} {k : ℕ} {key : LocalKey} {rnd : SignRandomness}

theorem round0_sign_keys (h : HonestSigner n Y x dk sts s_l k key rnd) {r : Round1}
    {out : List (Msg (MessageA × SignBroadcastPhase1))} (ho : Round0.proceed ⟨k + 1, s_l, key⟩ rnd = .ok (r, out)) :
    r.sign_keys.gamma_i = rnd.gamma ∧ r.sign_keys.w_i = signShare x s_l k := by
  have hget : (Res.get s_l k : Res SignError ℕ) = .ok (s_l.getD k 0) := by
    rw [Res.get_of_lt h.pos]; simp [h.pos]
  unfold Round0.proceed at ho
  simp only [Nat.add_sub_cancel] at ho
  rw [hget, Res.bind_ok, h.holds.share, create_eq h.members h.nodup h.n_lt h.n_u16 h.pos, Res.bind_ok] at ho
  simp only [Res.bind_eq_ok, Res.ok.injEq, Prod.mk.injEq] at ho
  obtain ⟨_, -, _, -, rfl, -⟩ := ho
  exact ⟨rfl, rfl⟩

/-- **C89 fails** (GG20 offline signing).  The honest signer at position `k` gets the forged message from the signer
at position `p`, and first messages that it accepts from the others.  Its second message to `p` discloses its nonce
share and its share of the key, modulo `L`. -/
theorem C89_gg20_residues (h : HonestSigner n Y x dk sts s_l k key rnd) {p : ℕ} (hp : p < s_l.length) (hpk : p ≠ k)
    (hv : (dk (s_l.getD p 0)).Valid) (hq : q ≤ (dk (s_l.getD p 0)).n) (hqn : ¬ q ∣ (dk (s_l.getD p 0)).n)
    {L : ℕ} (hL0 : 0 < L) (hL : 2 * L ≤ q) {a : ℤ} (ha : a * L ≡ 1 [ZMOD (dk (s_l.getD p 0)).n])
    (hst : ∀ st ∈ sts, 1 < st.N)
    (hgr : Int.gcd (rnd.gammaR p) (dk (s_l.getD p 0)).n = 1) (hwr : Int.gcd (rnd.wR p) (dk (s_l.getD p 0)).n = 1)
    (hgb : 0 ≤ rnd.gammaBeta p ∧ rnd.gammaBeta p < (dk (s_l.getD p 0)).n)
    (hwb : 0 ≤ rnd.wBeta p ∧ rnd.wBeta p < (dk (s_l.getD p 0)).n)
    {b1 : ℕ → MessageA × SignBroadcastPhase1}
    (hforged : (b1 p).1 = forgedMessageA (dk (s_l.getD p 0)).n a sts.length)
    (hothers : ∀ j < s_l.length, j ≠ k → j ≠ p → (b1 j).1.range_proofs.length = sts.length ∧
      ∀ y ∈ (b1 j).1.range_proofs.zip sts, y.1.verify (b1 j).1.c (dk (s_l.getD j 0)).n y.2 = some true) :
    ∃ r out r2 msgs mg mw, Round0.proceed ⟨k + 1, s_l, key⟩ rnd = .ok (r, out) ∧
      r.proceed ((GG20.Sign.others s_l.length k).map b1) rnd = .ok (r2, msgs) ∧
      ⟨k + 1, some (p + 1), (mg, mw)⟩ ∈ msgs ∧
      residueOf (dk (s_l.getD p 0)) L mg = some (rnd.gamma.val % L) ∧
      residueOf (dk (s_l.getD p 0)) L mw = some ((signShare x s_l k).val % L) := by
  obtain ⟨r, out, hr0, hr⟩ := round0_inv h
  obtain ⟨hgam, hw⟩ := round0_sign_keys h hr0
  have hone : Int.gcd 1 (dk (s_l.getD p 0)).n = 1 := Int.one_gcd
  have hmp := h.members _ (getD_mem hp)
  have hacc : ∀ j < s_l.length, j ≠ k → (b1 j).1.range_proofs.length = sts.length ∧
      ∀ y ∈ (b1 j).1.range_proofs.zip sts, y.1.verify (b1 j).1.c (dk (s_l.getD j 0)).n y.2 = some true := by
    intro j hj hjk
    by_cases hjp : j = p
    · subst hjp
      obtain ⟨o, ho⟩ := forged_answered (h.moduli _ hmp.1 hmp.2) (a := a) hst 0 0 0 0 0
      rw [← hforged] at ho
      obtain ⟨h1, h2, -⟩ := MessageB.b_ok_iff.1 ho
      exact ⟨h1, h2⟩
    · exact hothers j hj hjk hjp
  have hex : ∀ j : ℕ, ∃ A : (MessageB × Sc) × (MessageB × Sc), j < s_l.length → j ≠ k →
      MessageB.b rnd.gamma (dk (s_l.getD j 0)).n (b1 j).1 (rnd.gammaR j) (rnd.gammaBeta j) sts (rnd.gammaT1 j)
        (rnd.gammaT2 j) = .ok A.1 ∧
      MessageB.b (signShare x s_l k) (dk (s_l.getD j 0)).n (b1 j).1 (rnd.wR j) (rnd.wBeta j) sts (rnd.wT1 j)
        (rnd.wT2 j) = .ok A.2 := by
    intro j
    by_cases hj : j < s_l.length ∧ j ≠ k
    · obtain ⟨h1, h2⟩ := hacc j hj.1 hj.2
      exact ⟨(_, _), fun _ _ => ⟨MessageB.b_ok_iff.2 ⟨h1, h2, rfl⟩, MessageB.b_ok_iff.2 ⟨h1, h2, rfl⟩⟩⟩
    · let d : MessageB × Sc := (⟨0, DLogProof.prove 0 0, DLogProof.prove 0 0⟩, 0)
      exact ⟨(d, d), fun g1 g2 => absurd ⟨g1, g2⟩ hj⟩
  choose A hA using hex
  have hans : Res.mapM (r.answer ((List.range s_l.length).map
      (fun j => if j = k then (r.m_a.1, r.phase1_com) else b1 j) |>.map Prod.fst) rnd)
      (List.range (s_l.length - 1)) = .ok ((GG20.Sign.others s_l.length k).map A) := by
    refine mapM_others h.pos A fun j hj => ?_
    have hj' := Verif.otherInd_lt (k := k) hj
    obtain ⟨h1, h2⟩ := hA _ hj' (otherInd_ne (k := k) (j := j))
    unfold Round1.answer
    simp only [hr.i, Nat.add_sub_cancel, hr.sl, hr.key, h.holds.sts_eq, List.map_map, hgam, hw]
    rw [get_zeroBased hj', Res.bind_ok, hs_ek h hj', Res.bind_ok, Keygen.get_map_range hj', Res.bind_ok]
    simp only [Function.comp, if_neg (otherInd_ne (k := k) (j := j))]
    have e : oN dk s_l (otherInd k j) = (dk (s_l.getD (otherInd k j) 0)).n := rfl
    rw [e, h1, h2]
    rfl
  have hpk' : p ∈ GG20.Sign.others s_l.length k := GG20.Sign.mem_others.2 ⟨hp, hpk⟩
  obtain ⟨hAg, hAw⟩ := hA p hp hpk
  rw [hforged] at hAg hAw
  have he : Paillier.IsEnc (dk (s_l.getD p 0)).n (forgedMessageA (dk (s_l.getD p 0)).n a sts.length).c a 1 :=
    Paillier.isEnc_encrypt _ a 1
  obtain ⟨r2, hproc⟩ : ∃ r2, r.proceed ((GG20.Sign.others s_l.length k).map b1) rnd = .ok (r2,
      ((((List.range s_l.length).map (· + 1)).filter (fun j => j ≠ r.i)).zip
        ((GG20.Sign.others s_l.length k).map A)).map
        (fun ja => (⟨r.i, some ja.1, (ja.2.1.1, ja.2.2.1)⟩ : Msg (MessageB × MessageB)))) := by
    unfold Round1.proceed
    rw [round1_all h hr, hr.sl]
    dsimp only
    rw [hans, Res.bind_ok]
    exact ⟨_, rfl⟩
  refine ⟨r, out, r2, _, (A p).1.1, (A p).2.1, hr0, hproc, ?_,
    residueOf_response hv hL0 hL hq hqn ha hone hgr hgb.1 hgb.2 he hAg,
    residueOf_response hv hL0 hL hq hqn ha hone hwr hwb.1 hwb.2 he hAw⟩
  have hrec : ((List.range s_l.length).map (· + 1)).filter (fun j => j ≠ r.i) =
      (GG20.Sign.others s_l.length k).map (· + 1) := by
    rw [hr.i, List.filter_map]; simp [GG20.Sign.others, Function.comp_def]
  rw [hrec, List.zip_map', List.map_map]
  refine List.mem_map.2 ⟨p, hpk', ?_⟩
  simp only [Function.comp, hr.i]

/-- **C89 fails** (GG18 signing).  No range proofs are asked for: a client whose peer sends a bare encryption of the
inverse of `L` answers, and the answers disclose its two secrets modulo `L`. -/
theorem C89_gg18_residues {ctx : Demo.Sign.Ctx} {rnd : Demo.Sign.Rand} {party_num j si : ℕ}
    {m_a_vec : List MessageA} {dk : DecKey} (hv : dk.Valid) (hq : q ≤ dk.n) (hqn : ¬ q ∣ dk.n) {L : ℕ} (hL0 : 0 < L)
    (hL : 2 * L ≤ q) {a : ℤ} (ha : a * L ≡ 1 [ZMOD dk.n])
    (hsi : ctx.signers_vec[otherInd (party_num - 1) j]? = some si)
    (hek : ctx.key.paillier_key_vector[si]? = some dk.n)
    (hm : m_a_vec[j]? = some ⟨Paillier.encrypt dk.n a 1, []⟩)
    (hgr : Int.gcd (rnd.gammaR (otherInd (party_num - 1) j + 1)) dk.n = 1)
    (hwr : Int.gcd (rnd.wR (otherInd (party_num - 1) j + 1)) dk.n = 1)
    (hgb : 0 ≤ rnd.gammaBeta (otherInd (party_num - 1) j + 1) ∧
      rnd.gammaBeta (otherInd (party_num - 1) j + 1) < dk.n)
    (hwb : 0 ≤ rnd.wBeta (otherInd (party_num - 1) j + 1) ∧ rnd.wBeta (otherInd (party_num - 1) j + 1) < dk.n) :
    ∃ mg mw bg bw, Demo.Sign.answer ctx rnd party_num m_a_vec j =
        .ok (otherInd (party_num - 1) j + 1, (mg, bg), (mw, bw)) ∧
      residueOf dk L mg = some (ctx.sign_keys.gamma_i.val % L) ∧
      residueOf dk L mw = some (ctx.sign_keys.w_i.val % L) := by
  have hone : Int.gcd 1 dk.n = 1 := Int.one_gcd
  have he : Paillier.IsEnc dk.n (⟨Paillier.encrypt dk.n a 1, []⟩ : MessageA).c a 1 :=
    Paillier.isEnc_encrypt dk.n a 1
  set i := otherInd (party_num - 1) j + 1 with hi
  obtain ⟨⟨mg, bg⟩, h1⟩ : ∃ o, MessageB.b ctx.sign_keys.gamma_i dk.n ⟨Paillier.encrypt dk.n a 1, []⟩
      (rnd.gammaR i) (rnd.gammaBeta i) [] (rnd.gammaT1 i) (rnd.gammaT2 i) = .ok o :=
    ⟨_, MessageB.b_ok_iff.2 ⟨rfl, by simp, rfl⟩⟩
  obtain ⟨⟨mw, bw⟩, h2⟩ : ∃ o, MessageB.b ctx.sign_keys.w_i dk.n ⟨Paillier.encrypt dk.n a 1, []⟩
      (rnd.wR i) (rnd.wBeta i) [] (rnd.wT1 i) (rnd.wT2 i) = .ok o :=
    ⟨_, MessageB.b_ok_iff.2 ⟨rfl, by simp, rfl⟩⟩
  have hres := residueOf_response hv hL0 hL hq hqn ha hone hgr hgb.1 hgb.2 he h1
  have hres2 := residueOf_response hv hL0 hL hq hqn ha hone hwr hwb.1 hwb.2 he h2
  refine ⟨mg, mw, bg, bw, ?_, hres, hres2⟩
  unfold Demo.Sign.answer
  simp only [Res.get, hsi, Res.ofOption_some, Res.bind_ok, hek, hm, ← hi]
  rw [h1, h2]
  rfl

/-- **C89 fails** (two-party conversion): party two's answer discloses its share modulo `L`. -/
theorem C89_two_party_residue {s : Lindell17.Party2Private} {dk : DecKey} (hv : dk.Valid) (hq : q ≤ dk.n)
    (hqn : ¬ q ∣ dk.n) {L : ℕ} (hL0 : 0 < L) (hL : 2 * L ≤ q) {a : ℤ} (ha : a * L ≡ 1 [ZMOD dk.n])
    {r beta_tag : ℤ} (hr : Int.gcd r dk.n = 1) (h0 : 0 ≤ beta_tag) (h1 : beta_tag < dk.n) (t_b t_beta : Sc) :
    ∃ m beta, s.to_mta_message_b dk.n (Paillier.encrypt dk.n a 1) r beta_tag t_b t_beta = .ok (m, beta) ∧
      residueOf dk L m = some (s.x2.val % L) := by
  have hone : Int.gcd 1 dk.n = 1 := Int.one_gcd
  have he : Paillier.IsEnc dk.n (⟨Paillier.encrypt dk.n a 1, []⟩ : MessageA).c a 1 :=
    Paillier.isEnc_encrypt dk.n a 1
  obtain ⟨⟨m, beta⟩, h2⟩ : ∃ o, MessageB.b s.x2 dk.n ⟨Paillier.encrypt dk.n a 1, []⟩ r beta_tag [] t_b t_beta =
      .ok o := ⟨_, MessageB.b_ok_iff.2 ⟨rfl, by simp, rfl⟩⟩
  have hres := residueOf_response hv hL0 hL hq hqn ha hone hr h0 h1 he h2
  refine ⟨m, beta, ?_, hres⟩
  unfold Lindell17.Party2Private.to_mta_message_b
  rw [h2]

end

/-! ### Examples -/

section
attribute [local instance] Toy.crypto

example := C89_plaintext_partial toyKey_valid (a := 9) (ra := 5) (r := 8) (by decide) (by decide)
  (m_a := ⟨Paillier.encrypt toyKey.n 9 5, []⟩) (Paillier.isEnc_encrypt toyKey.n 9 5) (sts := []) (20 : ZMod 31) (3 : ZMod 31)
  (4 : ZMod 31) ⟨_, MessageB.b_ok_iff.2 ⟨rfl, by simp, rfl⟩⟩ 1500 (by decide) (by decide)

example := C89_residue_leaks toyKey_valid (by decide) (by decide) (L := 5) (by decide) (by decide) (by decide)

/-- Two exchanges, modulo 5 and 7, on the 31-point curve. -/
example := C89_secret_recovered toyKey_valid (by decide) (by decide) (Ls := [5, 7])
  (by intro L h; fin_cases h <;> decide) (by unfold Function.onFun; decide) (by decide)

/-- Bob's secret is 23, his mask 1717; Alice learns `23 mod 5`. -/
example : (match MessageB.b (23 : ZMod 31) toyKey.n (forgedMessageA toyKey.n 1617 2) 8 1717 [toySt, toySt]
      (3 : ZMod 31) (4 : ZMod 31) with
    | .ok out => residueOf toyKey 5 out.1
    | _ => none) = some 3 := by decide +kernel

/-- Signer 1 of parties 3 and 1, whose peer sends the forged message. -/
example := C89_gg20_residues toySigner (p := 1) (by decide) (by decide) toyKey_valid (by decide) (by decide) (L := 5)
  (by decide) (by decide) (a := 1617) (by decide) (by decide) (by decide) (by decide) (by decide) (by decide)
  (b1 := fun _ => (forgedMessageA toyKey.n 1617 3, ⟨0⟩)) rfl (by intro j h1 h2 h3; simp at h1; omega)

/-- The client of party 1, signing with party 2 under the key of `C16`. -/
def toyLeakCtx : Demo.Sign.Ctx :=
  ⟨Demo.Keygen.kFile 1 3 toyKg 0, [0, 1], ⟨(9 : ZMod 31), (9 : ZMod 31), (3 : ZMod 31), (6 : ZMod 31), (6 : ZMod 31)⟩,
    [], ⟨0⟩, ⟨0, (6 : ZMod 31)⟩⟩

example := C89_gg18_residues (ctx := toyLeakCtx) (rnd := toyRoom 1) (party_num := 1) (j := 0) (si := 1)
  (m_a_vec := [⟨Paillier.encrypt toyKey3.n 60096038 1, []⟩]) toyKey3_valid (by decide) (by decide) (L := 5) (by decide)
  (by decide) (by decide) rfl rfl rfl (by decide) (by decide) (by decide) (by decide)

example := C89_two_party_residue (s := ⟨(23 : ZMod 31)⟩) toyKey_valid (by decide) (by decide) (L := 5) (by decide)
  (by decide) (a := 1617) (by decide) (r := 8) (beta_tag := 1717) (by decide) (by decide) (by decide) (3 : ZMod 31)
  (4 : ZMod 31)

end

section
attribute [local instance] Secp256k1.crypto

/-- Thirty-five exchanges on secp256k1 with a 2048-bit modulus, each costing Alice at most `2 * 317` comparisons. -/
def smallModuli : List ℕ := [131, 137, 139, 149, 151, 157, 163, 167, 173, 179, 181, 191, 193, 197, 199, 211, 223,
  227, 229, 233, 239, 241, 251, 257, 263, 269, 271, 277, 281, 283, 293, 307, 311,
  313, 317]

attribute [local irreducible] bigP bigQ in
example := C89_secret_recovered (dk := ⟨bigP, bigQ⟩) ⟨bigP_prime, bigQ_prime, bigP_ne_bigQ, big_coprime⟩
  (by decide +kernel) (by decide +kernel) (Ls := smallModuli) (by decide +kernel)
  (by unfold Function.onFun; decide +kernel) (by decide +kernel)

end

end Verif.Props
