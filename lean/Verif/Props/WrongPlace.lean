import Verif.Props.MixedKeys
import Verif.Spec.WrongPlace

/-!
# C135: a signer that is started at the place of another party

`OfflineStage::new` takes the place of a signer in the list and its key; it does not compare the two.
-/

namespace Verif.Props

open EC Crypto Spec GG20 GG20.Sign

section
variable [Crypto] {t n : ℕ} {rnd : ℕ → KeygenRandomness} {keys : List LocalKey} {s_l : List ℕ}
  {v p : ℕ} {keyv keyp : LocalKey} {x : ℕ → Sc}

/-- A signer that has sent its message of round 3 has compared the share of every other signer with the one that it
has recorded. -/
theorem sent_checked {rp : SignRandomness} {sp : Sign.State} (hn : n < q) (hu : n < 65536) (hnp : keyp.n = n)
    (pks : keyp.pk_vec = (List.range n).map (fun j => x (j + 1) • (G : Pt)))
    (newp : Sign.new (p + 1) s_l keyp = .ok sp) (ops : List (Op M)) {d : TMsg}
    (hd : ⟨p + 1, none, .M3 d⟩ ∈ (machine rp).sent ((machine rp).run sp ops)) {j : ℕ} (hj : j < s_l.length)
    (hne : j ≠ p) :
    ∃ b, ⟨j + 1, some (p + 1), .M2 b⟩ ∈ ((machine rp).run sp ops).accepted ∧
      b.2.b_proof.pk = signShare x s_l j • G := by
  obtain ⟨-, ⟨-, h2⟩, hmem, hnd⟩ := (C37_new_accepts_partial (p + 1) s_l keyp).1 ⟨sp, newp⟩
  rw [hnp] at hmem
  obtain ⟨w, r2, q2, r3, out, hw, hst, hfn, -⟩ := sent_fn (k := 2) (f := M.M3) newp ops (fun _ => rfl) hd
  obtain ⟨c2, e2, a2⟩ := hw 2 (by decide) (by decide)
  have h3 : r2.i = p + 1 ∧ r2.s_l = s_l ∧ r2.local_key = keyp := by
    obtain ⟨r1, q1, o1, hs1, c1⟩ := Proto.straight_succ (k := 1) hst
    obtain ⟨r0', q0, o0, hs0, c0⟩ := Proto.straight_succ (k := 0) hs1
    obtain rfl := (Prod.mk.inj (Res.ok.inj hs0)).1
    change Round0.proceed ⟨p + 1, s_l, keyp⟩ rp = .ok (r1, o0) at c0
    change Round1.proceed r1 (w 1) rp = .ok (r2, o1) at c1
    simp only [Round0.proceed, Res.bind_eq_ok, Res.ok.injEq] at c0
    obtain ⟨_, -, _, -, _, -, _, -, e0⟩ := c0
    obtain ⟨rfl, -⟩ := Prod.mk.inj e0
    simp only [Round1.proceed, Res.bind_eq_ok, Res.ok.injEq] at c1
    obtain ⟨_, -, e1⟩ := c1
    obtain ⟨rfl, -⟩ := Prod.mk.inj e1
    exact ⟨rfl, rfl, rfl⟩
  have e3 : w 2 = (Sign.others s_l.length p).map (fun j => c2 (j + 1)) := by
    rw [e2, peers_eq_others, List.map_map]
    rfl
  have hfn' : fn rp 2 r2 ((Sign.others s_l.length p).map (fun j => c2 (j + 1))) = .ok (r3, out) := by
    rw [← e3]
    exact hfn
  obtain ⟨-, -, -, -, -, -, -, -, -, -, gws, hg, hgw⟩ := round2_ok (by omega) h3.1 h3.2.1 h3.2.2 hfn'
  rw [pks, show s_l.map (· - 1) = zeroBased s_l from rfl, g_w_vec_eq hmem hnd hn hu] at hg
  have h4 := hgw j hj hne
  rw [← Res.ok.inj hg, List.getElem?_map, List.getElem?_range hj, Option.map_some, Option.some.injEq] at h4
  obtain ⟨m, hm, f⟩ := List.mem_map.1 (a2 (j + 1) (by
    simp only [peers, List.mem_filter, List.mem_range'_1, decide_eq_true_eq]
    omega))
  have g : m = ⟨j + 1, some (p + 1), .M2 (c2 (j + 1))⟩ :=
    (sim rp).mapBody_inj (m := m) (m' := ⟨j + 1, some (p + 1), .M2 (c2 (j + 1))⟩) f
  exact ⟨c2 (j + 1), g ▸ hm, h4.symm⟩

/-- **C135** (any keys). The signers at places `v` and `p` have recorded the same public shares, those of `x`.  If `v`
gets a presignature, then both of them sign with the share of the party at their place. -/
theorem C135_shares (hn : n < q) (hu : n < 65536) (hnv : keyv.n = n) (hnp : keyp.n = n)
    (pksv : keyv.pk_vec = (List.range n).map (fun j => x (j + 1) • (G : Pt)))
    (pksp : keyp.pk_vec = (List.range n).map (fun j => x (j + 1) • (G : Pt))) (hne : p ≠ v) (hv : v < s_l.length)
    (hp : p < s_l.length) (h : SignsBoth s_l v p keyv keyp) :
    keyv.keys_linear.x_i = x (s_l.getD v 0) ∧ keyp.keys_linear.x_i = x (s_l.getD p 0) := by
  obtain ⟨rv, rp, sv, sp, opsv, opsp, newv, newp, gv, gp, ho⟩ := h
  refine ⟨?_, C133_recorded hn hu hnv hnp pksv hne hp ⟨rv, rp, sv, sp, opsv, opsp, newv, newp, gv, ho⟩⟩
  obtain ⟨c, hc⟩ := List.exists_mem_of_ne_nil _ ho
  obtain ⟨b, own, hb, -⟩ := C68_finished_has_checked newv opsv hc
  obtain ⟨-, -, a3, -⟩ := hb (p + 1) (by
    simp only [peers, List.mem_filter, List.mem_range'_1, decide_eq_true_eq]
    omega)
  obtain ⟨b2, acc, e⟩ := sent_checked hn hu hnp pksp newp opsp (gv _ a3 rfl) hv hne.symm
  have h1 := sent_share (hnv ▸ hn) (hnv ▸ hu) newv opsv (gp _ acc rfl)
  rw [e, ← sub_eq_zero, ← sub_smul, smul_G_eq_zero, sub_eq_zero] at h1
  have hmem := ((C37_new_accepts_partial (v + 1) s_l keyv).1 ⟨sv, newv⟩).2.2.1
  rw [hnv] at hmem
  refine (mul_left_cancel₀ (lagrangeCoeff_ne_zero (S := s_l.toFinset) (fun i hi => ?_) ?_) h1).symm
  · have := hmem i (List.mem_toFinset.1 hi)
    omega
  · rw [List.mem_toFinset, List.getD_eq_getElem?_getD, List.getElem?_eq_getElem hv, Option.getD_some]
    exact List.getElem_mem hv

/-- **C135.** The signers at places `v` and `p` have their keys from one key generation; they are the parties `i + 1`
and `j + 1`.  If one of them gets a presignature, each of them has the share of the party at whose place it was
started. -/
theorem C135_place (h : OneKeygen t n rnd keys) (hn : n < q) (hu : n < 65536) {i j : ℕ}
    (hi : keys[i]? = some keyv) (hj : keys[j]? = some keyp) (hne : p ≠ v) (hv : v < s_l.length)
    (hp : p < s_l.length) (hs : SignsBoth s_l v p keyv keyp) :
    ∃ kv kp, keys[s_l.getD v 0 - 1]? = some kv ∧ keys[s_l.getD p 0 - 1]? = some kp ∧
      keyv.keys_linear.x_i = kv.keys_linear.x_i ∧ keyp.keys_linear.x_i = kp.keys_linear.x_i := by
  obtain rfl := Res.ok.inj (h.result.symm.trans (Keygen.run_eq h.threshold h.honest))
  obtain ⟨h1, rfl⟩ := List.getElem?_eq_some_iff.1 hi
  obtain ⟨h2, rfl⟩ := List.getElem?_eq_some_iff.1 hj
  simp only [List.getElem_map, List.getElem_range] at hs ⊢
  have hmem : ∀ y ∈ s_l, 1 ≤ y ∧ y ≤ n := by
    obtain ⟨_, _, sv, _, _, _, newv, -⟩ := hs
    exact ((C37_new_accepts_partial (v + 1) s_l _).1 ⟨sv, newv⟩).2.2.1
  have ha := hmem _ (getD_mem hv)
  have hb := hmem _ (getD_mem hp)
  obtain ⟨e1, e2⟩ := C135_shares (n := n) (x := fun i => Keygen.rX n rnd (i - 1)) hn hu rfl rfl rfl rfl hne hv hp hs
  exact ⟨Keygen.rKey t n rnd (s_l.getD v 0 - 1), Keygen.rKey t n rnd (s_l.getD p 0 - 1),
    by rw [List.getElem?_map, List.getElem?_range (by omega)]; rfl,
    by rw [List.getElem?_map, List.getElem?_range (by omega)]; rfl, e1, e2⟩

/-- Two parties get the same share for at most one value of the first coefficient of each party. -/
theorem same_share_coef (hn : n < q) {c : ℕ} (hc : c < n) (rest : List Sc) {i k : ℕ} (hi : i < n) (hk : k < n)
    (hne : i ≠ k) : ∃ b : Sc, ∀ a : Sc,
      Keygen.rX n (Function.update rnd c { rnd c with coefs := a :: rest }) i =
        Keygen.rX n (Function.update rnd c { rnd c with coefs := a :: rest }) k → a = b := by
  have hd : ((i + 1 : ℕ) : Sc) - ((k + 1 : ℕ) : Sc) ≠ 0 := fun h0 => hne (by
    have := natCast_inj_of_lt (by omega : i + 1 < q) (by omega : k + 1 < q) (sub_eq_zero.1 h0)
    omega)
  have hX : ∀ (a : Sc) (l : ℕ), Keygen.rX n (Function.update rnd c { rnd c with coefs := a :: rest }) l =
      (rnd c).u + ((l + 1 : ℕ) : Sc) * (a + ((l + 1 : ℕ) : Sc) * evalPoly rest ((l + 1 : ℕ) : Sc)) +
        ∑ j ∈ (Finset.range n).erase c, Keygen.rShare rnd j l := by
    intro a l
    unfold Keygen.rX
    rw [sum_map_range_eq, ← Finset.add_sum_erase _ _ (Finset.mem_range.2 hc), Finset.sum_congr rfl
      (g := fun j => Keygen.rShare rnd j l) (fun j hj => by
        unfold Keygen.rShare
        rw [Function.update_of_ne (Finset.ne_of_mem_erase hj)])]
    congr 1
    unfold Keygen.rShare
    rw [Function.update_self]
    simp only [evalPoly_cons]
  refine ⟨((((k + 1 : ℕ) : Sc) * (((k + 1 : ℕ) : Sc) * evalPoly rest ((k + 1 : ℕ) : Sc)) +
      ∑ j ∈ (Finset.range n).erase c, Keygen.rShare rnd j k) -
    (((i + 1 : ℕ) : Sc) * (((i + 1 : ℕ) : Sc) * evalPoly rest ((i + 1 : ℕ) : Sc)) +
      ∑ j ∈ (Finset.range n).erase c, Keygen.rShare rnd j i)) / (((i + 1 : ℕ) : Sc) - ((k + 1 : ℕ) : Sc)),
    fun a h => ?_⟩
  rw [hX, hX] at h
  rw [eq_div_iff hd]
  linear_combination h

/-- **C135** (chance). The parties `i + 1` and `j + 1` sign, and at least one of them was started at the place of
another party.  Over the first coefficient that any one party draws in the key generation, the chance that one of them
can get a presignature is at most `1 / (q - 1)`. -/
theorem C135_chance (hn : n < q) (hu : n < 65536) (hne : p ≠ v) (hv : v < s_l.length) (hp : p < s_l.length)
    {i j : ℕ} (hw : i + 1 ≠ s_l.getD v 0 ∨ j + 1 ≠ s_l.getD p 0) {c : ℕ} (hc : c < n) (rest : List Sc) :
    (chance fun a : {z : Sc // z ≠ 0} => ∃ keys keyv keyp,
      OneKeygen t n (Function.update rnd c { rnd c with coefs := a.1 :: rest }) keys ∧
      keys[i]? = some keyv ∧ keys[j]? = some keyp ∧ SignsBoth s_l v p keyv keyp) ≤ 1 / ((q : ℚ) - 1) := by
  obtain ⟨i', k', hik, hb⟩ : ∃ i' k', (i' = i ∧ k' + 1 = s_l.getD v 0 ∨ i' = j ∧ k' + 1 = s_l.getD p 0 ∨
      s_l.getD v 0 = 0 ∨ s_l.getD p 0 = 0) ∧ i' ≠ k' := by
    rcases hw with hw | hw
    · by_cases h0 : s_l.getD v 0 = 0
      · exact ⟨0, 1, .inr (.inr (.inl h0)), by decide⟩
      · exact ⟨i, s_l.getD v 0 - 1, .inl ⟨rfl, by omega⟩, by omega⟩
    · by_cases h0 : s_l.getD p 0 = 0
      · exact ⟨0, 1, .inr (.inr (.inr h0)), by decide⟩
      · exact ⟨j, s_l.getD p 0 - 1, .inr (.inl ⟨rfl, by omega⟩), by omega⟩
  by_cases hin : i' < n ∧ k' < n
  · obtain ⟨b, hb⟩ := same_share_coef (rnd := rnd) hn hc rest hin.1 hin.2 hb
    refine chance_one_scalar b ?_
    rintro a ⟨keys, keyv, keyp, h, hi, hj, hs⟩
    refine hb a.1 ?_
    have hmem : ∀ y ∈ s_l, 1 ≤ y := by
      obtain ⟨_, _, sv, _, _, _, newv, -⟩ := hs
      exact fun y hy => (((C37_new_accepts_partial (v + 1) s_l _).1 ⟨sv, newv⟩).2.2.1 y hy).1
    have h1 := hmem _ (getD_mem hv)
    have h2 := hmem _ (getD_mem hp)
    obtain ⟨kv, kp, g1, g2, e1, e2⟩ := C135_place h hn hu hi hj hne hv hp hs
    obtain rfl := Res.ok.inj (h.result.symm.trans (Keygen.run_eq h.threshold h.honest))
    obtain ⟨_, rfl⟩ := List.getElem?_eq_some_iff.1 hi
    obtain ⟨_, rfl⟩ := List.getElem?_eq_some_iff.1 hj
    obtain ⟨_, rfl⟩ := List.getElem?_eq_some_iff.1 g1
    obtain ⟨_, rfl⟩ := List.getElem?_eq_some_iff.1 g2
    simp only [List.getElem_map, List.getElem_range] at e1 e2
    obtain ⟨rfl, e⟩ | ⟨rfl, e⟩ | e | e := hik
    · obtain rfl : k' = s_l.getD v 0 - 1 := by omega
      exact e1
    · obtain rfl : k' = s_l.getD p 0 - 1 := by omega
      exact e2
    · omega
    · omega
  · refine chance_one_scalar 0 ?_
    rintro a ⟨keys, keyv, keyp, h, hi, hj, hs⟩
    exfalso
    have hmem : ∀ y ∈ s_l, 1 ≤ y := by
      obtain ⟨_, _, sv, _, _, _, newv, -⟩ := hs
      exact fun y hy => (((C37_new_accepts_partial (v + 1) s_l _).1 ⟨sv, newv⟩).2.2.1 y hy).1
    have h1 := hmem _ (getD_mem hv)
    have h2 := hmem _ (getD_mem hp)
    obtain ⟨kv, kp, g1, g2, -, -⟩ := C135_place h hn hu hi hj hne hv hp hs
    obtain rfl := Res.ok.inj (h.result.symm.trans (Keygen.run_eq h.threshold h.honest))
    have l1 := (List.getElem?_eq_some_iff.1 hi).1
    have l2 := (List.getElem?_eq_some_iff.1 hj).1
    have l3 := (List.getElem?_eq_some_iff.1 g1).1
    have l4 := (List.getElem?_eq_some_iff.1 g2).1
    simp only [List.length_map, List.length_range] at l1 l2 l3 l4
    omega

/-- **C135** (right places). Signers that were started at their own places can get a presignature. -/
theorem C135_right_places {d : Sc} {dk : ℕ → DecKey} {sts : List DLogStatement} {key : ℕ → LocalKey}
    {srnd : ℕ → SignRandomness} {start : ℕ → Sign.State} (h : HonestSigners n (d • G) x dk sts s_l key srnd)
    (hx : Reconstructs t n x d) (hlen : t + 1 ≤ s_l.length)
    (hnew : ∀ i, 1 ≤ i → i ≤ s_l.length → Sign.new i s_l (key (i - 1)) = .ok (start i)) (hv : v < s_l.length)
    (hp : p < s_l.length) : SignsBoth s_l v p (key v) (key p) := by
  obtain ⟨evs, ha, hq, -⟩ := C65_offline_completes h hx hlen hnew (evs := []) (by intro pre i m post h; simp at h)
  rw [List.nil_append] at ha hq
  obtain ⟨cs, h1, h2, -, -⟩ := C39_honest_signing h hx hlen
  have hc : cs[v + 1 - 1]? = some cs[v] := List.getElem?_eq_getElem (h2 ▸ hv)
  have done := C65_offline_no_deadlock h hx hlen hnew h1 ha hq (by omega) hc
  have sound := C65_offline_sound h hx hlen hnew h1 ha (by omega) hc
  refine ⟨srnd v, srnd p, start (v + 1), start (p + 1), callsOf (v + 1) evs ++ [.pick], callsOf (p + 1) evs,
    hnew _ (by omega) hv, hnew _ (by omega) hp, fun m hm hs => ?_, fun m hm hs => ?_, ?_⟩
  · have hd := accepted_delivered _ _ _ m hm
    simp only [List.mem_append, List.mem_singleton, reduceCtorEq, or_false] at hd
    have := (ha.delivered_sent (fun j a b => (Sign.sim (srnd (j - 1))).sent_mono (start j) a b) hd).2
    rw [hs] at this
    exact this
  · have hd := accepted_delivered _ _ _ m hm
    have := (ha.delivered_sent (fun j a b => (Sign.sim (srnd (j - 1))).sent_mono (start j) a b) hd).2
    rw [hs] at this
    exact (Sign.sim (srnd v)).sent_mono (start (v + 1)) _ [.pick] _ this
  · have e : (Sign.machine (srnd v)).run (start (v + 1)) (callsOf (v + 1) evs ++ [.pick]) = (Sign.machine (srnd v)).step
        ((Sign.network s_l.length srnd start).hist evs (v + 1)) .pick := by
      unfold StateMachine.run
      rw [List.foldl_append]
      rfl
    rw [e]
    exact outputs_step_pick sound.no_panic (done.imp_right And.right)

end

/-! ### Examples: the 31-point group -/

section
attribute [local instance] Toy.crypto

/-- Parties 3 and 1 of three, at their own places: the hypotheses of `C135_place` and `C135_right_places` are met. -/
example : ∃ (rnd : ℕ → KeygenRandomness) (keys : List LocalKey) (keyv keyp kp : LocalKey),
    OneKeygen 1 3 rnd keys ∧ keys[2]? = some keyv ∧ keys[0]? = some keyp ∧ SignsBoth [3, 1] 0 1 keyv keyp ∧
    keys[0]? = some kp ∧ keyp.keys_linear.x_i = kp.keys_linear.x_i := by
  obtain ⟨rnd, keys, key, x, d, dk, sts, start, h, h1, h2, hH, hrec, hstart⟩ := toyKeygenSigners
  have hs : SignsBoth [3, 1] 0 1 (key 0) (key 1) :=
    C135_right_places hH hrec (by decide) hstart (v := 0) (p := 1) (by decide) (by decide)
  have ho : OneKeygen 1 3 rnd keys := ⟨h.threshold, h.honest, h.first⟩
  obtain ⟨kv, kp, -, g, -, e⟩ := C135_place (v := 0) (p := 1) ho (by decide) (by decide) h1 h2 (by decide) (by decide)
    (by decide) hs
  exact ⟨rnd, keys, _, _, kp, ho, h1, h2, hs, g, e⟩

/-- Party 2 is started at the place of party 1: the chance of a presignature is at most 1/30. -/
example (rnd : ℕ → KeygenRandomness) : (chance fun a : {z : ZMod 31 // z ≠ 0} => ∃ keys keyv keyp,
    OneKeygen 1 3 (Function.update rnd 0 { rnd 0 with coefs := [a.1] }) keys ∧
      keys[2]? = some keyv ∧ keys[1]? = some keyp ∧ SignsBoth [3, 1] 0 1 keyv keyp) ≤ 1 / ((31 : ℕ) - 1) :=
  C135_chance (s_l := [3, 1]) (v := 0) (p := 1) (by decide) (by decide) (by decide) (by decide) (by decide)
    (i := 2) (j := 1) (.inr (by decide)) (c := 0) (by decide) []

end
end Verif.Props
