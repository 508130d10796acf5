import Verif.Spec.StartedTwice
import Verif.Props.MixedCounts
import Verif.Props.MixedLists

/-!
# C132: a program that was started twice under one number in one session

Nothing in the messages tells two programs apart that were started under the same number, for instance a party that
has crashed and joins the running session again.
-/

namespace Verif.Props

open EC Crypto Spec GG20

theorem _root_.List.zip_nodup_unique {α β : Type} {l : List α} {l' : List β} (h : l.Nodup) {a : α} {b c : β}
    (hb : (a, b) ∈ l.zip l') (hc : (a, c) ∈ l.zip l') : b = c := by
  obtain ⟨i, hi, e⟩ := List.mem_iff_getElem.1 hb
  obtain ⟨j, hj, e'⟩ := List.mem_iff_getElem.1 hc
  rw [List.getElem_zip, Prod.mk.injEq] at e e'
  obtain rfl := (List.Nodup.getElem_inj_iff h).1 (e.1.trans e'.1.symm)
  exact e.2.symm.trans e'.2

section
variable [Crypto]

/-- The chance that a scalar other than zero is a given one. -/
theorem chance_one_scalar {event : {z : Sc // z ≠ 0} → Prop} (c : Sc) (h : ∀ u, event u → u.1 = c) :
    chance event ≤ 1 / ((q : ℚ) - 1) := by
  have hq := q_prime.out.one_lt
  have hsc : (Nat.card {z : Sc // z ≠ 0} : ℚ) = (q : ℚ) - 1 := by
    have : Fintype Sc := Fintype.ofFinite _
    classical
    rw [Nat.card_eq_fintype_card, Fintype.card_subtype_compl, Fintype.card_subtype_eq, ← Nat.card_eq_fintype_card,
      show Nat.card Sc = q from Nat.card_zmod q, Nat.cast_sub hq.le, Nat.cast_one]
  have := chance_mem (Ω := {z : Sc // z ≠ 0}) (f := Subtype.val) Subtype.val_injective [c] (n := 1) le_rfl
  rw [hsc, Nat.cast_one] at this
  refine le_trans ?_ this
  unfold chance
  refine div_le_div_of_nonneg_right (Nat.cast_le.2 ?_) (Nat.cast_nonneg _)
  exact Nat.card_mono (Set.toFinite {u : {z : Sc // z ≠ 0} | u.1 ∈ [c]}) fun u hu => List.mem_singleton.2 (h u hu)

section
variable {i m tA tB : ℕ} {t n : ℕ → ℕ} {rA rB : KeygenRandomness} {rnd : ℕ → KeygenRandomness}
  {sA sB : Keygen.State} {s : ℕ → Keygen.State} {opsA opsB : List (Op Keygen.M)} {ops : ℕ → List (Op Keygen.M)}

open GG20.Keygen in
/-- What the last check of a program that gets a key has compared. -/
theorem keygenAs_check (ho : OtherParties i m t n rnd s) (h : KeygenAs i tA m rA sA opsA rnd s ops) {key : LocalKey}
    (hk : key ∈ ((machine rA).run sA opsA).outputs) {p : ℕ} (hp : p ∈ peers i m) :
    ∃ b : DLogProof, ⟨p, none, .Round4 b⟩ ∈ (machine (rnd p)).sent ((machine (rnd p)).run (s p) (ops p)) ∧
      b.pk = (shareFor rA p + ∑ k ∈ (Finset.Icc 1 m).erase i, shareFor (rnd k) p) • (G : Pt) := by
  obtain ⟨r, hr⟩ := h.new
  obtain ⟨-, -, hi, him, -, -, ht⟩ := new_ok hr
  obtain ⟨b1, b2, b3, b4, hb, hl⟩ := C22_output_correct hr opsA hk
  obtain ⟨hp1, hp2, hp3⟩ := mem_peers.1 hp
  refine ⟨b4 p, h.genuine p hp _ (hb p hp).2.2.2 rfl, ?_⟩
  obtain ⟨w, rfl⟩ : ∃ w, i = w + 1 := ⟨i - 1, by omega⟩
  obtain ⟨bcs, ys, all, pfs, hs⟩ := keygenLine_seen ht (by omega) (congrArg Prod.snd hl)
  obtain ⟨pf, g1, -, g2⟩ := hs.proofs (p - 1) (by omega)
  rw [hs.pfs_eq, assemble_get _ _ (by omega), if_neg (by omega), Nat.sub_add_cancel hp1, Option.some.injEq] at g1
  subst g1
  have deal : ∀ k ∈ peers (w + 1) m, feldmanEval (b3 k).1.commitments (p : Sc) = shareFor (rnd k) p • (G : Pt) := by
    intro k hk
    obtain ⟨r', hr'⟩ := ho k hk
    obtain ⟨-, -, -, e⟩ := sent_round3 hr' (ops k) (h.genuine k hk _ (hb k hk).2.2.1 rfl)
    rw [e]
    simp only [ownDeal, feldmanEval_map, shareFor]
  rw [g2, hs.all_eq, assemble, List.map_map, List.map_map, sum_map_range_eq]
  have e : ∑ k ∈ (Finset.Icc 1 m).erase (w + 1), shareFor (rnd k) p =
      ∑ k ∈ (Finset.range m).erase w, shareFor (rnd (k + 1)) p := by
    refine (Finset.sum_bij (fun k _ => k + 1) ?_ ?_ ?_ ?_).symm
    · intro k hk
      simp only [Finset.mem_erase, Finset.mem_range, Finset.mem_Icc] at hk ⊢
      omega
    · intro a _ b _ e
      omega
    · intro k hk
      simp only [Finset.mem_erase, Finset.mem_Icc] at hk
      exact ⟨k - 1, by simp only [Finset.mem_erase, Finset.mem_range]; omega, by omega⟩
    · intro k _
      rfl
  rw [e, ← Finset.add_sum_erase _ _ (Finset.mem_range.2 (show w < m by omega)), add_smul, Finset.sum_smul]
  congr 1
  · simp only [Function.comp_apply, if_pos, Nat.sub_add_cancel hp1, shareFor, feldmanEval_map]
  · refine Finset.sum_congr rfl fun k hk => ?_
    simp only [Finset.mem_erase, Finset.mem_range] at hk
    simp only [Function.comp_apply, if_neg hk.1, Nat.sub_add_cancel hp1]
    exact deal (k + 1) (mem_peers.2 ⟨by omega, by omega, by omega⟩)

open GG20.Keygen in
/-- **C132** (key generation). Two programs were started as party `i` and both get a key.  Then their dealings agree:
the share of each other party is the same. -/
theorem C132_keygen (ho : OtherParties i m t n rnd s) (hA : KeygenAs i tA m rA sA opsA rnd s ops)
    (hB : KeygenAs i tB m rB sB opsB rnd s ops) {keyA keyB : LocalKey}
    (ka : keyA ∈ ((machine rA).run sA opsA).outputs) (kb : keyB ∈ ((machine rB).run sB opsB).outputs) {p : ℕ}
    (hp : p ∈ peers i m) : shareFor rA p = shareFor rB p := by
  obtain ⟨a, a1, a2⟩ := keygenAs_check ho hA ka hp
  obtain ⟨b, b1, b2⟩ := keygenAs_check ho hB kb hp
  obtain ⟨r, hr⟩ := ho p hp
  obtain rfl := sent_round4_unique hr (ops p) a1 b1
  have := smul_G_eq_zero.1 (show ((shareFor rA p + ∑ k ∈ (Finset.Icc 1 m).erase i, shareFor (rnd k) p) -
    (shareFor rB p + ∑ k ∈ (Finset.Icc 1 m).erase i, shareFor (rnd k) p)) • (G : Pt) = 0 by
      rw [sub_smul, ← a2, ← b2, sub_self])
  linear_combination this

/-- **C132** (key generation, chance). Over the secret that one of two programs that were started as party `i` draws,
the chance that both get a key, in any schedule, is at most `1 / (q - 1)`. -/
theorem C132_keygen_chance (hi : ∃ p, p ∈ peers i m) :
    (chance fun u : {z : Sc // z ≠ 0} => ∃ s ops sA opsA sB opsB, OtherParties i m t n rnd s ∧
      KeygenAs i tA m { rA with u := u } sA opsA rnd s ops ∧ KeygenAs i tB m rB sB opsB rnd s ops ∧
      ((Keygen.machine { rA with u := u.1 }).run sA opsA).outputs ≠ [] ∧
      ((Keygen.machine rB).run sB opsB).outputs ≠ []) ≤ 1 / ((q : ℚ) - 1) := by
  obtain ⟨p, hp⟩ := hi
  refine chance_one_scalar (shareFor rB p - (p : Sc) * evalPoly rA.coefs (p : Sc)) ?_
  rintro u ⟨s, ops, sA, opsA, sB, opsB, ho, hA, hB, ka, kb⟩
  obtain ⟨keyA, ka⟩ := List.exists_mem_of_ne_nil _ ka
  obtain ⟨keyB, kb⟩ := List.exists_mem_of_ne_nil _ kb
  rw [← C132_keygen ho hA hB ka kb hp]
  simp only [shareFor, evalPoly_cons]
  ring

open GG20.Keygen in
/-- **C132** (key generation, exactness). If the dealings of two programs that were started as party `i` agree for all
other parties, both can get a key. -/
theorem C132_keygen_exact {T : ℕ} (hm : 2 ≤ m) (hT : 1 ≤ T) (hTm : T < m) (hi : 1 ≤ i) (him : i ≤ m)
    (hon : ∀ p ∈ peers i m, HonestRandomness T (rnd p)) (honA : HonestRandomness T rA) (honB : HonestRandomness T rB)
    (agree : ∀ p ∈ peers i m, shareFor rA p = shareFor rB p) :
    ∃ s ops sA opsA sB opsB, OtherParties i m (fun _ => T) (fun _ => m) rnd s ∧
      KeygenAs i T m rA sA opsA rnd s ops ∧ KeygenAs i T m rB sB opsB rnd s ops ∧
      ((machine rA).run sA opsA).outputs ≠ [] ∧ ((machine rB).run sB opsB).outputs ≠ [] := by
  have honW : ∀ r, HonestRandomness T r →
      ∀ k, 1 ≤ k → k ≤ m → HonestRandomness T (Function.update rnd i r k) := by
    intro r hr k k1 k2
    by_cases e : k = i
    · subst e
      rwa [Function.update_self]
    · rw [Function.update_of_ne e]
      exact hon k (mem_peers.2 ⟨k1, k2, e⟩)
  obtain ⟨s, hs⟩ := world_new hm hT hTm (Function.update rnd i rA)
  obtain ⟨s', hs'⟩ := world_new hm hT hTm (Function.update rnd i rB)
  have up : ∀ r p, p ≠ i → Function.update rnd i r p = rnd p := fun r p e => Function.update_of_ne e _ _
  have hA := hs i hi him
  have hB := hs' i hi him
  have wA := (world_party hTm (honW rA honA) hi him hA).1
  have wB := (world_party hTm (honW rB honB) hi him hB).1
  rw [Function.update_self] at hA hB wA wB
  have gen : ∀ r, (∀ p ∈ peers i m, shareFor rA p = shareFor r p) →
      ∀ p ∈ peers i m, ∀ msg, .deliver msg ∈ worldCalls T m (Function.update rnd i r) i → msg.sender = p →
      msg ∈ (machine (rnd p)).sent ((machine (rnd p)).run (s p) (worldCalls T m (Function.update rnd i rA) p)) := by
    intro r hr p hp msg hmsg hsend
    obtain ⟨p1, p2, p3⟩ := mem_peers.1 hp
    obtain ⟨-, w1, w2, w3, w4⟩ := world_party hTm (honW rA honA) p1 p2 (hs p p1 p2)
    rw [up _ _ p3] at w1 w2 w3 w4
    have hu : ∀ r, Function.update rnd i r (p - 1 + 1) = rnd p := fun r => by
      rw [Nat.sub_add_cancel p1]; exact up _ _ p3
    have hX : rX m (fun k => Function.update rnd i r (k + 1)) (p - 1) =
        rX m (fun k => Function.update rnd i rA (k + 1)) (p - 1) := by
      unfold rX rShare
      refine congrArg List.sum (List.map_congr_left fun j hj => ?_)
      by_cases e : j + 1 = i
      · subst e
        have := hr p hp
        simp only [shareFor] at this
        simp only [Function.update_self, Nat.sub_add_cancel p1]
        exact this.symm
      · simp only [up _ _ e]
    obtain ⟨j, hj, e | e | e | e⟩ := worldCalls_deliver hmsg <;> subst e <;> obtain rfl : j = p := hsend
    · simp only [rBc, rKeys, hu] at w1 ⊢
      exact w1
    · simp only [rDec, rKeys, hu] at w2 ⊢
      exact w2
    · have w3 := w3 i hi him (Ne.symm p3)
      simp only [rVss, rShare, hu] at w3 ⊢
      exact w3
    · simp only [rPf, hu, hX] at w4 ⊢
      exact w4
  refine ⟨s, worldCalls T m (Function.update rnd i rA), s i, worldCalls T m (Function.update rnd i rA) i, s' i,
    worldCalls T m (Function.update rnd i rB) i, ?_, ⟨⟨_, hA⟩, ?_⟩, ⟨⟨_, hB⟩, ?_⟩, wA, wB⟩
  · intro p hp
    obtain ⟨p1, p2, p3⟩ := mem_peers.1 hp
    have := hs p p1 p2
    rw [up _ _ p3] at this
    exact ⟨_, this⟩
  · exact fun p hp msg hmsg => gen rA (fun _ _ => rfl) p hp msg (accepted_delivered _ _ _ _ hmsg)
  · exact fun p hp msg hmsg => gen rB agree p hp msg (accepted_delivered _ _ _ _ hmsg)

end

section
variable {i p : ℕ} {s_l s_l' lp : List ℕ} {keyA keyB keyp : LocalKey} {rA rB rp : SignRandomness}
  {sA sB sp : Sign.State} {opsA opsB opsp : List (Op Sign.M)}

open GG20.Sign in
/-- A signer sends one message to each other signer in round 2, and the first answer in it is about the nonce mask that
it drew. -/
theorem sent_answer (hnew : Sign.new p lp keyp = .ok sp) {a b : MessageB × MessageB}
    (ha : ⟨p, some i, .M2 a⟩ ∈ (machine rp).sent ((machine rp).run sp opsp))
    (hb : ⟨p, some i, .M2 b⟩ ∈ (machine rp).sent ((machine rp).run sp opsp)) :
    a = b ∧ a.1.b_proof.pk = rp.gamma • (G : Pt) := by
  obtain ⟨habs, h1, h2, hn⟩ := new_ok (rnd := rp) hnew
  obtain ⟨v, r1, q1, r2, out, -, hst, hfn, hx, hx'⟩ := (sim rp).sent_pair habs h1 h2 hn opsp (k := 1)
    (b := a) (b' := b) rfl rfl ha hb
  have hfn : Round1.proceed r1 (v 1) rp = .ok (r2, out) := hfn
  have hg : r1.sign_keys.gamma_i = rp.gamma := by
    obtain ⟨r0', q0, o, h0, c⟩ := Proto.straight_succ (k := 0) hst
    obtain rfl := (Prod.mk.inj (Res.ok.inj h0)).1
    change Round0.proceed ⟨p, lp, keyp⟩ rp = .ok (r1, o) at c
    simp only [Round0.proceed, SignKeys.create, Res.bind_eq_ok, Res.ok.injEq] at c
    obtain ⟨own, -, sk, ⟨_, -, _, -, _, -, rfl⟩, ek, -, ma, -, e⟩ := c
    obtain ⟨rfl, -⟩ := Prod.mk.inj e
    rfl
  simp only [Round1.proceed, Res.bind_eq_ok, Res.ok.injEq] at hfn
  obtain ⟨as, has, e⟩ := hfn
  obtain ⟨-, rfl⟩ := Prod.mk.inj e
  obtain ⟨⟨j, x⟩, hjx, e1⟩ := List.mem_map.1 hx
  obtain ⟨⟨j', x'⟩, hjx', e2⟩ := List.mem_map.1 hx'
  injection e1 with _ e1 e1'
  injection e2 with _ e2 e2'
  obtain rfl := Option.some.inj e1
  obtain rfl := Option.some.inj e2
  have hxx : x = x' := by
    refine List.zip_nodup_unique ?_ hjx hjx'
    exact ((List.nodup_range).map (fun _ _ e => Nat.add_right_cancel e)).filter _
  subst hxx
  refine ⟨Eq.trans e1'.symm e2', ?_⟩
  obtain ⟨y, -, hb⟩ := Res.mem_mapM has (List.of_mem_zip hjx).2
  unfold Round1.answer at hb
  simp only [Res.bind_eq_ok, Res.mapErr_eq_ok, Res.ok.injEq] at hb
  obtain ⟨_, -, _, -, _, -, g, hg', w, -, rfl⟩ := hb
  obtain ⟨-, -, rfl⟩ := MessageB.b_ok_iff.1 hg'
  rw [← hg]
  obtain rfl := e1'
  rfl

open GG20.Sign in
/-- A signer that gets a presignature has decrypted the first answer of every other signer consistently with its own
nonce. -/
theorem signsAs_check (h : SignsAs i s_l keyA rA sA opsA p rp sp opsp) (hp : p ∈ peers i s_l.length)
    (hc : ((machine rA).run sA opsA).outputs ≠ []) :
    ∃ (a : MessageB × MessageB) (x : ℤ), ⟨p, some i, .M2 a⟩ ∈ (machine rp).sent ((machine rp).run sp opsp) ∧
      Paillier.decrypt keyA.paillier_dk a.1.c = some x ∧
      rA.k • a.1.b_proof.pk + a.1.beta_tag_proof.pk = (x : Sc) • (G : Pt) := by
  obtain ⟨c, hc⟩ := List.exists_mem_of_ne_nil _ hc
  obtain ⟨b, hb, hl⟩ := C50_output_correct h.new opsA hc
  obtain ⟨-, ⟨i1, i2⟩, -, -⟩ := (C37_new_accepts_partial i s_l keyA).1 ⟨sA, h.new⟩
  obtain ⟨hp1, hp2, hp3⟩ := mem_peers.1 hp
  obtain ⟨k, rfl⟩ : ∃ k, i = k + 1 := ⟨i - 1, by omega⟩
  have hk : k < s_l.length := by omega
  rw [offlineLine_eq] at hl
  obtain ⟨r6, o, h6, -⟩ := Script.step_ok hl
  obtain ⟨o6, r5, o5, ⟨r4, o4, ⟨r3, o3, ⟨r2, o2, h2, h3⟩, -⟩, -⟩, -⟩ := line6_ok (congrArg Prod.snd h6)
  obtain ⟨r1, o1, h1, f1, f2, f3, f4, -⟩ := at2_facts hk h2
  obtain ⟨-, -, -, -, g, -⟩ := at1_facts h1
  obtain ⟨-, -, -, -, -, -, -, -, -, ans, -⟩ := round2_ok hk f1 f2 f3 h3
  obtain ⟨⟨x, z⟩, -, e, -⟩ := ans (p - 1) (by omega) (by omega)
  rw [Nat.sub_add_cancel hp1, f4, g] at e
  obtain ⟨e1, rfl, -, -, e2⟩ := MessageB.verify_ok_iff.1 e
  exact ⟨b.b2 p, z, h.genuine _ (hb p hp).2.1 rfl, e1, e2⟩

open GG20.Sign in
/-- **C132** (signing). Two programs were started as signer `i` with the same Paillier key, and `p` is another signer,
which drew a mask other than zero.  If both get a presignature, they drew the same nonce. -/
theorem C132_sign (hA : SignsAs i s_l keyA rA sA opsA p rp sp opsp) (hB : SignsAs i s_l' keyB rB sB opsB p rp sp opsp)
    (newp : Sign.new p lp keyp = .ok sp) (hp : p ∈ peers i s_l.length) (hp' : p ∈ peers i s_l'.length)
    (same : keyA.paillier_dk = keyB.paillier_dk) (hg : rp.gamma ≠ 0)
    (ca : ((machine rA).run sA opsA).outputs ≠ []) (cb : ((machine rB).run sB opsB).outputs ≠ []) :
    rA.k = rB.k := by
  obtain ⟨a, x, a1, a2, a3⟩ := signsAs_check hA hp ca
  obtain ⟨b, y, b1, b2, b3⟩ := signsAs_check hB hp' cb
  obtain ⟨rfl, e⟩ := sent_answer newp a1 b1
  rw [same, b2] at a2
  obtain rfl := Option.some.inj a2
  rw [← b3, add_left_inj, e, ← mul_smul, ← mul_smul] at a3
  have := smul_G_eq_zero.1 (show (rA.k * rp.gamma - rB.k * rp.gamma) • (G : Pt) = 0 by rw [sub_smul, a3, sub_self])
  exact mul_right_cancel₀ hg (sub_eq_zero.1 this)

/-- **C132** (signing, chance). Over the nonce that one of two programs that were started as signer `i` draws, the
chance that both get a presignature, in any schedule, is at most `1 / (q - 1)`. -/
theorem C132_sign_chance (hp : p ∈ peers i s_l.length) (hp' : p ∈ peers i s_l'.length)
    (same : keyA.paillier_dk = keyB.paillier_dk) (hg : rp.gamma ≠ 0) :
    (chance fun k : {z : Sc // z ≠ 0} => ∃ sp opsp sA opsA sB opsB, Sign.new p lp keyp = .ok sp ∧
      SignsAs i s_l keyA { rA with k := k } sA opsA p rp sp opsp ∧ SignsAs i s_l' keyB rB sB opsB p rp sp opsp ∧
      ((Sign.machine { rA with k := k.1 }).run sA opsA).outputs ≠ [] ∧
      ((Sign.machine rB).run sB opsB).outputs ≠ []) ≤ 1 / ((q : ℚ) - 1) := by
  refine chance_one_scalar rB.k ?_
  rintro k ⟨sp, opsp, sA, opsA, sB, opsB, hn, hA, hB, ca, cb⟩
  exact C132_sign hA hB hn hp hp' same hg ca cb

end

end

/-! ### Examples on the 31-point group -/

section
attribute [local instance] Toy.crypto

/-- Two programs that were started as party 1 of two, with different secrets 5 and 9 but the same share for party 2,
both get a key: the hypotheses of `C132_keygen` are met. -/
example : ∃ (rA rB : KeygenRandomness) (rnd : ℕ → KeygenRandomness), rA.u = (5 : ZMod 31) ∧ rB.u = (9 : ZMod 31) ∧
    ∃ s ops sA opsA sB opsB, OtherParties 1 2 (fun _ => 1) (fun _ => 2) rnd s ∧
      KeygenAs 1 1 2 rA sA opsA rnd s ops ∧ KeygenAs 1 1 2 rB sB opsB rnd s ops ∧
      ((Keygen.machine rA).run sA opsA).outputs ≠ [] ∧ ((Keygen.machine rB).run sB opsB).outputs ≠ [] := by
  obtain ⟨rA, hA, a1, a2⟩ := honestRandomness_exists 1 (5 : ZMod 31) [(3 : ZMod 31)] rfl
  obtain ⟨rB, hB, b1, b2⟩ := honestRandomness_exists 1 (9 : ZMod 31) [(1 : ZMod 31)] rfl
  refine ⟨rA, rB, fun _ => rA, a1, b1, C132_keygen_exact (by decide) (by decide) (by decide) (by decide) (by decide)
    (fun _ _ => hA) hA hB fun p hp => ?_⟩
  obtain rfl : p = 2 := by
    have := mem_peers.1 hp
    omega
  simp only [shareFor, a1, a2, b1, b2]
  decide

/-- With secrets 5 and 9 and the same further coefficient, at most one of them gets a key. -/
example (rA rB : KeygenRandomness) (rnd : ℕ → KeygenRandomness) (hA : rA.u = (5 : ZMod 31)) (hB : rB.u = (9 : ZMod 31))
    (cA : rA.coefs = [(3 : ZMod 31)]) (cB : rB.coefs = [(3 : ZMod 31)]) (s : ℕ → Keygen.State)
    (ops : ℕ → List (Op Keygen.M)) (sA sB : Keygen.State) (opsA opsB : List (Op Keygen.M))
    (ho : OtherParties 1 2 (fun _ => 1) (fun _ => 2) rnd s) (a : KeygenAs 1 1 2 rA sA opsA rnd s ops)
    (b : KeygenAs 1 1 2 rB sB opsB rnd s ops) (ka : ((Keygen.machine rA).run sA opsA).outputs ≠ []) :
    ((Keygen.machine rB).run sB opsB).outputs = [] := by
  by_contra kb
  obtain ⟨keyA, ka⟩ := List.exists_mem_of_ne_nil _ ka
  obtain ⟨keyB, kb⟩ := List.exists_mem_of_ne_nil _ kb
  have := C132_keygen ho a b ka kb (p := 2) (mem_peers.2 (by decide))
  simp only [shareFor, hA, hB, cA, cB] at this
  exact absurd this (by decide)

/-- Signer 1 of three, with signer 2 as the other one, gets a presignature: the hypotheses of `C132_sign` are met. -/
example : ∃ sv sp, SignsAs 1 tri (triKey 0) (toySign 0) sv (triOps 0) 2 (toySign 1) sp (triOps 1) ∧
    Sign.new 2 tri (triKey 1) = .ok sp ∧ 2 ∈ peers 1 tri.length ∧ (toySign 1).gamma ≠ 0 ∧
    ((Sign.machine (toySign 0)).run sv (triOps 0)).outputs ≠ [] := by
  obtain ⟨sv, sp, c, c', hv, hp, g, ho, -, -, -⟩ := tri_machines
  exact ⟨sv, sp, ⟨hv, g⟩, hp, mem_peers.2 (by decide), by decide, ho ▸ List.cons_ne_nil _ _⟩

end

end Verif.Props
