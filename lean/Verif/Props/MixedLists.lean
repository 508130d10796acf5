import Verif.Lemmas.SentRounds
import Verif.Props.SignChecks
import Verif.Props.NonceAgreement

/-!
# C129: signers that were started with different lists of signers

`OfflineStage::new` gets the list of the signers, the own position in it and the key from its caller, and nothing
that is sent mentions the list.  A signer that completes the offline stage has nevertheless compared the signing
share of each of the others, which depends on that signer's own list and key, with the one that follows from its
own list.
-/

namespace Verif.Props

open EC Crypto Spec GG20 GG20.Sign

section
variable [Crypto]

/-- The share that a signer proves knowledge of in round 2 is its key share times the Lagrange coefficient of its
place in the list it was started with. -/
theorem sent_share {rnd : GG20.SignRandomness} {i : ℕ} {s_l : List ℕ} {key : LocalKey} {s : Sign.State}
    (hq : key.n < q) (hu : key.n < 65536) (hnew : Sign.new i s_l key = .ok s) (ops : List (Op M)) {p : ℕ}
    {m : MessageB × MessageB}
    (hm : ⟨i, some p, .M2 m⟩ ∈ (machine rnd).sent ((machine rnd).run s ops)) :
    m.2.b_proof.pk =
      (lagrangeCoeff s_l.toFinset (s_l.getD (i - 1) 0) * key.keys_linear.x_i) • (G : Pt) := by
  obtain ⟨-, ⟨h1, h2⟩, hmem, hnd⟩ := (C37_new_accepts_partial i s_l key).1 ⟨s, hnew⟩
  obtain ⟨v, rk, qk, r', out, -, hst, hfn, hx⟩ := sent_fn (k := 1) (f := M.M2) hnew ops (fun _ => rfl) hm
  change Round1.proceed rk (v 1) rnd = .ok (r', out) at hfn
  have hw : rk.sign_keys.w_i = lagrangeCoeff s_l.toFinset (s_l.getD (i - 1) 0) * key.keys_linear.x_i := by
    obtain ⟨r0', q0, o, h0, c⟩ := Proto.straight_succ (k := 0) hst
    obtain rfl := (Prod.mk.inj (Res.ok.inj h0)).1
    change Round0.proceed ⟨i, s_l, key⟩ rnd = .ok (rk, o) at c
    simp only [Round0.proceed, Res.bind_eq_ok, Res.ok.injEq] at c
    obtain ⟨own, hown, sk, hsk, ek, -, ma, -, e⟩ := c
    obtain ⟨rfl, -⟩ := Prod.mk.inj e
    have hi : i - 1 < s_l.length := by omega
    obtain rfl : own = s_l.getD (i - 1) 0 := by
      rw [Res.get_of_lt hi, Res.ok.injEq] at hown
      rw [← hown, List.getD_eq_getElem?_getD, List.getElem?_eq_getElem hi, Option.getD_some]
    rw [create_eq (x := fun _ => key.keys_linear.x_i) hmem hnd hq hu hi] at hsk
    rw [← Res.ok.inj hsk]
    rfl
  simp only [Round1.proceed, Res.bind_eq_ok, Res.ok.injEq] at hfn
  obtain ⟨as, ha, e⟩ := hfn
  obtain ⟨-, rfl⟩ := Prod.mk.inj e
  obtain ⟨⟨j, a⟩, hja, e⟩ := List.mem_map.1 hx
  simp only at e
  obtain ⟨-, -, rfl⟩ := Msg.mk.inj e
  obtain ⟨y, -, hb⟩ := Res.mem_mapM ha (List.of_mem_zip hja).2
  unfold Round1.answer at hb
  simp only [Res.bind_eq_ok, Res.mapErr_eq_ok, Res.ok.injEq] at hb
  obtain ⟨_, -, _, -, _, -, g, -, w, hw', rfl⟩ := hb
  obtain ⟨-, -, rfl⟩ := MessageB.b_ok_iff.1 hw'
  rw [← hw]
  rfl

variable {n : ℕ} {x : ℕ → Sc} {s_l s_l' : List ℕ} {v p : ℕ} {keyv keyp : LocalKey} {rv rp : GG20.SignRandomness}
  {sv sp : Sign.State} {opsv opsp : List (Op M)} {c : CompletedOfflineStage}

/-- **C129.** Signers `v + 1` and `p + 1` run the program, each with its own list of signers and its own key; the
others do anything.  Whatever `v + 1` accepted in the name of `p + 1` was sent by `p + 1`.  If `v + 1` completes the
offline stage, then the share with which `p + 1` signs, computed from its own list and key, is the one of the party
that is at `p`'s place in the list of `v + 1`, among the parties of that list. -/
theorem C129_share (hn : n < q) (hu : n < 65536) (hnv : keyv.n = n) (hnp : keyp.n = n)
    (pks : keyv.pk_vec = (List.range n).map (fun j => x (j + 1) • (G : Pt)))
    (newv : Sign.new (v + 1) s_l keyv = .ok sv) (newp : Sign.new (p + 1) s_l' keyp = .ok sp)
    (hne : p ≠ v) (hp : p < s_l.length)
    (genuine : ∀ m ∈ ((machine rv).run sv opsv).accepted, m.sender = p + 1 →
      m ∈ (machine rp).sent ((machine rp).run sp opsp))
    (hc : c ∈ ((machine rv).run sv opsv).outputs) :
    lagrangeCoeff s_l'.toFinset (s_l'.getD p 0) * keyp.keys_linear.x_i =
      lagrangeCoeff s_l.toFinset (s_l.getD p 0) * x (s_l.getD p 0) := by
  obtain ⟨-, -, hmem, hnd⟩ := (C37_new_accepts_partial (v + 1) s_l keyv).1 ⟨sv, newv⟩
  rw [hnv] at hmem
  obtain ⟨b, own, hb, -, -, -, -, -, hchk⟩ := C68_finished_has_checked newv opsv hc
  obtain ⟨-, a2, -⟩ := hb (p + 1) (by
    simp only [peers, List.mem_filter, List.mem_range'_1, decide_eq_true_eq]
    omega)
  have h1 := sent_share (hnp ▸ hn) (hnp ▸ hu) newp opsp (genuine _ a2 rfl)
  obtain ⟨gws, hg, hgw⟩ := hchk.share
  have h2 := hgw p hp (by simpa using hne)
  rw [pks, show s_l.map (· - 1) = zeroBased s_l from rfl, g_w_vec_eq hmem hnd hn hu] at hg
  rw [← Res.ok.inj hg, List.getElem?_map, List.getElem?_range hp, Option.map_some, Option.some.injEq, h1] at h2
  have h3 := smul_G_eq_zero.1 (show (signShare x s_l p -
      lagrangeCoeff s_l'.toFinset (s_l'.getD (p + 1 - 1) 0) * keyp.keys_linear.x_i) • (G : Pt) = 0 by
    rw [sub_smul, h2, sub_self])
  exact (sub_eq_zero.1 h3).symm

/-- **C129** (all signers). Every signer runs the program, the one at place `k` with its own list `lists k` and its own
key `key k`.  If the one at place `v`, whose own entry in its list is right, completes the offline stage, then the
shares with which they all sign add up to the secret key `d`, provided that it listed enough parties. -/
theorem C129_sum {t : ℕ} {d : Sc} {lists : ℕ → List ℕ} {key : ℕ → LocalKey} {rnd : ℕ → GG20.SignRandomness}
    {s : ℕ → Sign.State} {ops : ℕ → List (Op M)} (hn : n < q) (hu : n < 65536)
    (hx : Reconstructs t n x d) (ht : t + 1 ≤ (lists v).length)
    (hkn : ∀ k < (lists v).length, (key k).n = n)
    (pks : (key v).pk_vec = (List.range n).map (fun j => x (j + 1) • (G : Pt)))
    (own : (key v).keys_linear.x_i = x ((lists v).getD v 0)) (hv : v < (lists v).length)
    (new : ∀ k < (lists v).length, Sign.new (k + 1) (lists k) (key k) = .ok (s k))
    (genuine : ∀ k < (lists v).length, k ≠ v → ∀ m ∈ ((machine (rnd v)).run (s v) (ops v)).accepted,
      m.sender = k + 1 → m ∈ (machine (rnd k)).sent ((machine (rnd k)).run (s k) (ops k)))
    (hc : c ∈ ((machine (rnd v)).run (s v) (ops v)).outputs) :
    ∑ k ∈ Finset.range (lists v).length,
      lagrangeCoeff (lists k).toFinset ((lists k).getD k 0) * (key k).keys_linear.x_i = d := by
  obtain ⟨-, -, hmem, hnd⟩ := (C37_new_accepts_partial (v + 1) (lists v) (key v)).1 ⟨_, new v hv⟩
  rw [hkn v hv] at hmem
  rw [← signShare_sum hmem hnd hx ht]
  refine Finset.sum_congr rfl fun k hk => ?_
  have hk := Finset.mem_range.1 hk
  by_cases hkv : k = v
  · subst hkv
    rw [own]
    rfl
  · exact C129_share hn hu (hkn v hv) (hkn k hk) pks (new v hv) (new k hk) hkv hk (genuine k hk hkv) hc

/-- **C129** (two signers). If one of two signers completes the offline stage and the other one, with a key share
other than zero, is the party that both lists have at its place, then both were started with the same list. -/
theorem C129_two (hn : n < q) (hu : n < 65536) (hnv : keyv.n = n) (hnp : keyp.n = n)
    (pks : keyv.pk_vec = (List.range n).map (fun j => x (j + 1) • (G : Pt)))
    (newv : Sign.new (v + 1) s_l keyv = .ok sv) (newp : Sign.new (p + 1) s_l' keyp = .ok sp)
    (hne : p ≠ v) (hl : s_l.length = 2) (hl' : s_l'.length = 2)
    (same : s_l.getD p 0 = s_l'.getD p 0) (own : keyp.keys_linear.x_i = x (s_l.getD p 0))
    (hx : x (s_l.getD p 0) ≠ 0)
    (genuine : ∀ m ∈ ((machine rv).run sv opsv).accepted, m.sender = p + 1 →
      m ∈ (machine rp).sent ((machine rp).run sp opsp))
    (hc : c ∈ ((machine rv).run sv opsv).outputs) :
    s_l = s_l' := by
  obtain ⟨-, ⟨-, hv⟩, hmem, hnd⟩ := (C37_new_accepts_partial (v + 1) s_l keyv).1 ⟨sv, newv⟩
  obtain ⟨-, ⟨-, hp⟩, hmem', hnd'⟩ := (C37_new_accepts_partial (p + 1) s_l' keyp).1 ⟨sp, newp⟩
  rw [hnv] at hmem
  rw [hnp] at hmem'
  have h := C129_share hn hu hnv hnp pks newv newp hne (by omega) genuine hc
  rw [← same, own] at h
  have h := mul_right_cancel₀ hx h
  obtain ⟨a, b, rfl⟩ := List.length_eq_two.1 hl
  obtain ⟨a', b', rfl⟩ := List.length_eq_two.1 hl'
  have key : ∀ {a b c : ℕ}, 1 ≤ a → a < q → b < q → c < q → a ≠ b → a ≠ c →
      (c : Sc) / ((c : Sc) - a) = b / (b - a) → b = c := by
    intro a b c h1 ha hb hc hab hac e
    have ha0 : (a : Sc) ≠ 0 := fun h0 => by
      have := natCast_inj_of_lt ha (by omega) (h0.trans Nat.cast_zero.symm)
      omega
    have hb0 : (b : Sc) - a ≠ 0 := fun h0 => hab (natCast_inj_of_lt hb ha (sub_eq_zero.1 h0)).symm
    have hc0 : (c : Sc) - a ≠ 0 := fun h0 => hac (natCast_inj_of_lt hc ha (sub_eq_zero.1 h0)).symm
    rw [div_eq_div_iff hc0 hb0] at e
    refine natCast_inj_of_lt hb hc (mul_right_cancel₀ ha0 ?_)
    linear_combination e
  have hab : a ≠ b := by simpa using hnd
  have hab' : a' ≠ b' := by simpa using hnd'
  have ma := hmem a (by simp)
  have mb := hmem b (by simp)
  have ma' := hmem' a' (by simp)
  have mb' := hmem' b' (by simp)
  simp only [List.length_cons, List.length_nil] at hv hp
  have e1 : ∀ {a b : ℕ}, a ≠ b → lagrangeCoeff ([a, b] : List ℕ).toFinset a = (b : Sc) / ((b : Sc) - a) := by
    intro a b h
    unfold lagrangeCoeff
    rw [show ([a, b] : List ℕ).toFinset.erase a = {b} by
      ext z
      simp only [List.toFinset_cons, List.toFinset_nil, Finset.mem_erase, Finset.mem_insert, Finset.mem_singleton,
        insert_empty_eq]
      omega]
    exact Finset.prod_singleton _ _
  have e2 : ∀ {a b : ℕ}, a ≠ b → lagrangeCoeff ([a, b] : List ℕ).toFinset b = (a : Sc) / ((a : Sc) - b) := by
    intro a b h
    unfold lagrangeCoeff
    rw [show ([a, b] : List ℕ).toFinset.erase b = {a} by
      ext z
      simp only [List.toFinset_cons, List.toFinset_nil, Finset.mem_erase, Finset.mem_insert, Finset.mem_singleton,
        insert_empty_eq]
      omega]
    exact Finset.prod_singleton _ _
  obtain rfl | rfl : p = 0 ∨ p = 1 := by omega
  · simp only [List.getD_cons_zero] at same h
    subst same
    rw [e1 hab, e1 hab'] at h
    rw [key (a := a) (b := b) (c := b') (by omega) (by omega) (by omega) (by omega) hab hab' h]
  · simp only [List.getD_cons_succ, List.getD_cons_zero] at same h
    subst same
    rw [e2 hab, e2 hab'] at h
    rw [key (a := b) (b := a) (c := a') (by omega) (by omega) (by omega) (by omega) hab.symm hab'.symm h]

end

/-! ### Examples on the 31-point group -/

section
attribute [local instance] Toy.crypto

theorem toyLocal_pks (i : ℕ) : (toyLocal i).pk_vec = (List.range 3).map (fun j => toyX (j + 1) • (G : Pt)) := rfl

/-- Signers 1 and 2 of three, started with the same list, meet the hypotheses. -/
example : ∃ sv c, c ∈ ((machine (toySign 0)).run sv (triOps 0)).outputs ∧
    lagrangeCoeff tri.toFinset (tri.getD 1 0) * (triKey 1).keys_linear.x_i =
      lagrangeCoeff tri.toFinset (tri.getD 1 0) * toyX (tri.getD 1 0) := by
  obtain ⟨sv, sp, c, c', hv, hp, g, ho, -, -, -⟩ := tri_machines
  have hc : c ∈ ((machine (toySign 0)).run sv (triOps 0)).outputs := ho ▸ List.mem_singleton.2 rfl
  exact ⟨sv, c, hc, C129_share (n := 3) (p := 1) (v := 0) (x := toyX) (keyv := triKey 0) (keyp := triKey 1)
    (opsp := triOps 1) (by decide) (by decide) rfl rfl (toyLocal_pks _) hv hp (by decide) (by decide) g hc⟩

/-- All three signers meet the hypotheses, and the shares add up to the key 5. -/
example : ∑ k ∈ Finset.range 3, lagrangeCoeff tri.toFinset (tri.getD k 0) * (triKey k).keys_linear.x_i = 5 := by
  obtain ⟨sv, sp, c, c', hv, hp, g, ho, -, -, -⟩ := tri_machines
  obtain ⟨sr, hr⟩ := (C37_new_accepts_partial 3 tri (triKey 2)).2 ⟨by decide, by decide, by decide, by decide⟩
  have g' : ∀ m ∈ ((machine (toySign 0)).run sv (triOps 0)).accepted, m.sender = 3 →
      m ∈ (machine (toySign 2)).sent ((machine (toySign 2)).run sr (triOps 2)) := by
    have hv' := hv
    have hr' := hr
    unfold Sign.new at hv' hr'
    split_ifs at hv' hr'
    simp only [Except.ok.injEq] at hv' hr'
    rw [← hv', ← hr']
    decide +kernel
  refine C129_sum (t := 1) (n := 3) (v := 0) (x := toyX) (d := 5) (lists := fun _ => tri) (key := triKey) (rnd := toySign)
    (s := fun k => if k = 0 then sv else if k = 1 then sp else sr) (ops := triOps) (c := c) (by decide) (by decide)
    (by simpa using toyX_poly.reconstructs (by decide)) (by decide) (fun _ _ => rfl) (toyLocal_pks _) rfl (by decide)
    (fun k hk => ?_) (fun k hk hne => ?_) (ho ▸ List.mem_singleton.2 rfl)
  · have hk : k < 3 := hk
    interval_cases k
    · exact hv
    · exact hp
    · exact hr
  · have hk : k < 3 := hk
    interval_cases k
    · exact absurd rfl hne
    · exact g
    · exact g'

/-- Party 3 was started with the list `[3, 1]` and party 1 with the list `[2, 1]`: party 3 does not complete the
offline stage, whatever is delivered in whatever order. -/
example (opsv opsp : List (Op M)) : ∃ sv sp, Sign.new 1 [3, 1] (toyLocal 3) = .ok sv ∧
    Sign.new 2 [2, 1] (toyLocal 1) = .ok sp ∧
    ((∀ m ∈ ((machine (toySign 0)).run sv opsv).accepted, m.sender = 2 →
      m ∈ (machine (toySign 1)).sent ((machine (toySign 1)).run sp opsp)) →
    ((machine (toySign 0)).run sv opsv).outputs = []) := by
  obtain ⟨sv, hv⟩ := (C37_new_accepts_partial 1 [3, 1] (toyLocal 3)).2 ⟨by decide, by decide, by decide, by decide⟩
  obtain ⟨sp, hp⟩ := (C37_new_accepts_partial 2 [2, 1] (toyLocal 1)).2 ⟨by decide, by decide, by decide, by decide⟩
  refine ⟨sv, sp, hv, hp, fun g => ?_⟩
  rw [List.eq_nil_iff_forall_not_mem]
  intro c hc
  exact absurd (C129_two (n := 3) (v := 0) (p := 1) (by decide) (by decide) rfl rfl (toyLocal_pks _) hv hp (by decide)
    rfl rfl rfl rfl (by decide) g hc) (by decide)

end
end Verif.Props
