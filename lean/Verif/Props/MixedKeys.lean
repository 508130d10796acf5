import Verif.Props.MixedLists
import Verif.Props.StartedTwice
import Verif.Props.EndToEnd
import Verif.Lemmas.SentMono
import Verif.Spec.MixedKeys

/-!
# C133: signers whose keys come from different key generations

A party that missed a refresh, or that takes the wrong key file, signs with a share that does not belong to the
public shares that the others have recorded.
-/

namespace Verif.Props

open EC Crypto Spec GG20 GG20.Sign

/-- A machine that holds its output hands it out when asked. -/
theorem outputs_step_pick {σ β ω ε : Type} {M : StateMachine σ β ω ε} {h : History σ β ω ε} {o : ω}
    (hp : h.panicked = false) (ho : h.outputs = [o] ∨ (M.pick_output h.st).2 = some (.ok o)) :
    (M.step h .pick).outputs ≠ [] := by
  unfold StateMachine.step
  rw [if_neg (by rw [hp]; decide)]
  simp only
  rcases ho with ho | ho
  · split <;> simp [ho]
  · rw [ho]
    simp

section
variable [Crypto] {t t' n : ℕ} {rnd rnd' : ℕ → KeygenRandomness} {keys keys' : List LocalKey} {s_l : List ℕ}
  {v p : ℕ} {keyv keyp : LocalKey}

/-- The Lagrange coefficients of distinct parties are not zero. -/
theorem lagrangeCoeff_ne_zero {S : Finset ℕ} (hS : ∀ i ∈ S, 1 ≤ i ∧ i < q) {i : ℕ} (hi : i ∈ S) :
    lagrangeCoeff S i ≠ 0 := by
  unfold lagrangeCoeff
  refine Finset.prod_ne_zero_iff.2 fun j hj => ?_
  obtain ⟨hne, hj⟩ := Finset.mem_erase.1 hj
  have h1 := hS i hi
  have h2 := hS j hj
  refine div_ne_zero (fun h0 => ?_) (fun h0 => ?_)
  · have := natCast_inj_of_lt h2.2 (by omega) (h0.trans Nat.cast_zero.symm)
    omega
  · exact hne (natCast_inj_of_lt h2.2 h1.2 (sub_eq_zero.1 h0))

/-- **C133.** The signers at places `v` and `p` were started with the same list, and `v` gets a presignature.  Then
the share of `p` is the one that belongs to the public share that `v` has recorded for the party at place `p`. -/
theorem C133_recorded {x : ℕ → Sc} (hn : n < q) (hu : n < 65536) (hnv : keyv.n = n) (hnp : keyp.n = n)
    (pks : keyv.pk_vec = (List.range n).map (fun j => x (j + 1) • (G : Pt))) (hne : p ≠ v) (hp : p < s_l.length)
    (h : SignsWith s_l v p keyv keyp) : keyp.keys_linear.x_i = x (s_l.getD p 0) := by
  obtain ⟨rv, rp, sv, sp, opsv, opsp, newv, newp, genuine, ho⟩ := h
  obtain ⟨c, hc⟩ := List.exists_mem_of_ne_nil _ ho
  have hmem := ((C37_new_accepts_partial (v + 1) s_l keyv).1 ⟨sv, newv⟩).2.2.1
  rw [hnv] at hmem
  have h := C129_share hn hu hnv hnp pks newv newp hne hp genuine hc
  refine mul_left_cancel₀ (lagrangeCoeff_ne_zero (S := s_l.toFinset) (fun i hi => ?_) ?_) h
  · have := hmem i (List.mem_toFinset.1 hi)
    omega
  · rw [List.mem_toFinset, List.getD_eq_getElem?_getD, List.getElem?_eq_getElem hp, Option.getD_some]
    exact List.getElem_mem hp

/-- **C133** (two key generations). The signer at place `v` has its key from one key generation and the one at place
`p` from another one among the same parties, for instance from before and from after a refresh.  If `v` gets a
presignature, then party `p` got the same share in both key generations. -/
theorem C133_same_share (h : TwoKeygens t t' n rnd rnd' keys keys') (hn : n < q) (hu : n < 65536) (hne : p ≠ v)
    (hp : p < s_l.length) (hkv : keys[s_l.getD v 0 - 1]? = some keyv)
    (hkp : keys'[s_l.getD p 0 - 1]? = some keyp) (hs : SignsWith s_l v p keyv keyp) :
    ∃ key, keys[s_l.getD p 0 - 1]? = some key ∧ key.keys_linear.x_i = keyp.keys_linear.x_i := by
  obtain rfl := Res.ok.inj (h.first.symm.trans (Keygen.run_eq h.threshold h.honest))
  obtain rfl := Res.ok.inj (h.second.symm.trans (Keygen.run_eq h.threshold' h.honest'))
  obtain ⟨h1, rfl⟩ := List.getElem?_eq_some_iff.1 hkv
  obtain ⟨h2, rfl⟩ := List.getElem?_eq_some_iff.1 hkp
  simp only [List.getElem_map, List.getElem_range] at hs ⊢
  rw [List.length_map, List.length_range] at h2
  refine ⟨Keygen.rKey t n rnd (s_l.getD p 0 - 1), by rw [List.getElem?_map, List.getElem?_range h2]; rfl, ?_⟩
  exact (C133_recorded (n := n) (x := fun i => Keygen.rX n rnd (i - 1)) hn hu rfl rfl rfl hne hp hs).symm

/-- **C133** (chance). Over the first coefficient `a` that one party `c + 1` draws in the second key generation, the
chance that the signer at place `v` can get a presignature together with the one at place `p`, one of them with its
key from the first and the other with its key from the second key generation, is at most `1 / (q - 1)`. -/
theorem C133_chance (hn : n < q) (hu : n < 65536) (hne : p ≠ v) (hp : p < s_l.length)
    {c : ℕ} (hc : c < n) (rest : List Sc) :
    (chance fun a : {z : Sc // z ≠ 0} => ∃ keys keys' keyv keyp,
      TwoKeygens t t' n rnd (Function.update rnd' c { rnd' c with coefs := a.1 :: rest }) keys keys' ∧
      (keys[s_l.getD v 0 - 1]? = some keyv ∧ keys'[s_l.getD p 0 - 1]? = some keyp ∨
        keys'[s_l.getD v 0 - 1]? = some keyv ∧ keys[s_l.getD p 0 - 1]? = some keyp) ∧
      SignsWith s_l v p keyv keyp) ≤ 1 / ((q : ℚ) - 1) := by
  set k := s_l.getD p 0 - 1 with hk
  set b : Sc := (Keygen.rX n rnd k - ∑ j ∈ (Finset.range n).erase c, Keygen.rShare rnd' j k -
    ((rnd' c).u + ((k + 1 : ℕ) : Sc) * (((k + 1 : ℕ) : Sc) * evalPoly rest ((k + 1 : ℕ) : Sc)))) /
      ((k + 1 : ℕ) : Sc) with hb
  refine chance_one_scalar b ?_
  rintro a ⟨keys, keys', keyv, keyp, h, hkeys, hs⟩
  have key : k < n → Keygen.rX n (Function.update rnd' c { rnd' c with coefs := a.1 :: rest }) k =
      Keygen.rX n rnd k → a.1 = b := by
    intro hkn hx
    have hk0 : ((k + 1 : ℕ) : Sc) ≠ 0 := fun h0 => by
      have := natCast_inj_of_lt (by omega : k + 1 < q) (by omega) (h0.trans Nat.cast_zero.symm)
      omega
    unfold Keygen.rX at hx
    rw [sum_map_range_eq, ← Finset.add_sum_erase _ _ (Finset.mem_range.2 hc), Finset.sum_congr rfl
      (g := fun j => Keygen.rShare rnd' j k) (fun j hj => by
        unfold Keygen.rShare
        rw [Function.update_of_ne (Finset.ne_of_mem_erase hj)])] at hx
    rw [hb, eq_div_iff hk0, Keygen.rX, ← hx]
    unfold Keygen.rShare
    rw [Function.update_self]
    simp only [evalPoly_cons]
    ring
  obtain rfl := Res.ok.inj (h.first.symm.trans (Keygen.run_eq h.threshold h.honest))
  obtain rfl := Res.ok.inj (h.second.symm.trans (Keygen.run_eq h.threshold' h.honest'))
  obtain ⟨hkv, hkp⟩ | ⟨hkv, hkp⟩ := hkeys
  · obtain ⟨key', e1, e2⟩ := C133_same_share h hn hu hne hp hkv hkp hs
    obtain ⟨h1, rfl⟩ := List.getElem?_eq_some_iff.1 e1
    obtain ⟨h2, rfl⟩ := List.getElem?_eq_some_iff.1 hkp
    rw [List.length_map, List.length_range] at h2
    simp only [List.getElem_map, List.getElem_range] at e2
    exact key h2 e2.symm
  · obtain ⟨key', e1, e2⟩ := C133_same_share ⟨h.threshold', h.threshold, h.honest', h.honest, h.second, h.first⟩
      hn hu hne hp hkv hkp hs
    obtain ⟨h1, rfl⟩ := List.getElem?_eq_some_iff.1 e1
    obtain ⟨h2, rfl⟩ := List.getElem?_eq_some_iff.1 hkp
    rw [List.length_map, List.length_range] at h2
    simp only [List.getElem_map, List.getElem_range] at e2
    exact key h2 e2

/-- **C133** (keys that belong together). Signers whose keys fit together, as the keys of one key generation do, can
get a presignature: what the theorems above exclude is due to the keys only. -/
theorem C133_fitting_keys {x : ℕ → Sc} {d : Sc} {dk : ℕ → DecKey} {sts : List DLogStatement} {key : ℕ → LocalKey}
    {srnd : ℕ → SignRandomness} {start : ℕ → Sign.State} (h : HonestSigners n (d • G) x dk sts s_l key srnd)
    (hx : Reconstructs t n x d) (hlen : t + 1 ≤ s_l.length)
    (hnew : ∀ i, 1 ≤ i → i ≤ s_l.length → Sign.new i s_l (key (i - 1)) = .ok (start i)) (hv : v < s_l.length)
    (hp : p < s_l.length) : SignsWith s_l v p (key v) (key p) := by
  obtain ⟨evs, ha, hq, -⟩ := C65_offline_completes h hx hlen hnew (evs := []) (by intro pre i m post h; simp at h)
  rw [List.nil_append] at ha hq
  obtain ⟨cs, h1, h2, -, -⟩ := C39_honest_signing h hx hlen
  have hc : cs[v + 1 - 1]? = some cs[v] := List.getElem?_eq_getElem (h2 ▸ hv)
  have done := C65_offline_no_deadlock h hx hlen hnew h1 ha hq (by omega) hc
  have sound := C65_offline_sound h hx hlen hnew h1 ha (by omega) hc
  refine ⟨srnd v, srnd p, start (v + 1), start (p + 1), callsOf (v + 1) evs ++ [.pick], callsOf (p + 1) evs,
    hnew _ (by omega) hv, hnew _ (by omega) hp, fun m hm hs => ?_, ?_⟩
  · have hd := accepted_delivered _ _ _ m hm
    simp only [List.mem_append, List.mem_singleton, reduceCtorEq, or_false] at hd
    have := (ha.delivered_sent (fun j a b => (Sign.sim (srnd (j - 1))).sent_mono (start j) a b) hd).2
    rw [hs] at this
    exact this
  · have e : (Sign.machine (srnd v)).run (start (v + 1)) (callsOf (v + 1) evs ++ [.pick]) = (Sign.machine (srnd v)).step
        ((Sign.network s_l.length srnd start).hist evs (v + 1)) .pick := by
      unfold StateMachine.run
      rw [List.foldl_append]
      rfl
    rw [e]
    exact outputs_step_pick sound.no_panic (done.imp_right And.right)

end

/-! ### Examples: the 31-point group -/

section
attribute [local instance] Toy.crypto

/-- The first of three signers meets the hypotheses with the second one. -/
example : SignsWith tri 0 1 (triKey 0) (triKey 1) ∧ (triKey 1).keys_linear.x_i = toyX (tri.getD 1 0) := by
  obtain ⟨sv, sp, c, c', hv, hp, g, ho, -, -, -⟩ := tri_machines
  have h : SignsWith tri 0 1 (triKey 0) (triKey 1) :=
    ⟨_, _, sv, sp, triOps 0, triOps 1, hv, hp, g, by rw [ho]; exact List.cons_ne_nil _ _⟩
  exact ⟨h, C133_recorded (n := 3) (p := 1) (v := 0) (x := toyX) (by decide) (by decide) rfl rfl (toyLocal_pks _)
    (by decide) (by decide) h⟩

/-- Parties 3 and 1 are about to sign with the keys of one key generation among three parties. -/
theorem toyKeygenSigners : ∃ (rnd : ℕ → KeygenRandomness) (keys : List LocalKey) (key : ℕ → LocalKey)
    (x : ℕ → ZMod 31) (d : ZMod 31) (dk : ℕ → DecKey) (sts : List DLogStatement) (start : ℕ → Sign.State),
    TwoKeygens 1 1 3 rnd rnd keys keys ∧ keys[2]? = some (key 0) ∧ keys[0]? = some (key 1) ∧
    HonestSigners 3 (d • (G : Pt)) x dk sts [3, 1] key toySign ∧ Reconstructs 1 3 x d ∧
    ∀ i, 1 ≤ i → i ≤ 2 → Sign.new i [3, 1] (key (i - 1)) = .ok (start i) := by
  have hex := fun k : ℕ => honestRandomness_exists 1 ((k + 2 : ℕ) : ZMod 31) [(7 : ZMod 31)] rfl
  choose krnd hon _ _ using hex
  have hrun := Keygen.run_eq (t := 1) (n := 3) (by decide) (fun k _ => hon k)
  have hkn : ∀ i, ∃ s, 1 ≤ i → i ≤ 2 →
      Sign.new i [3, 1] (Keygen.rKey 1 3 krnd ([3, 1].getD (i - 1) 0 - 1)) = .ok s := by
    intro i
    by_cases h : 1 ≤ i ∧ i ≤ 2
    · obtain ⟨s, hs⟩ := (C37_new_accepts_partial i [3, 1]
        (Keygen.rKey 1 3 krnd ([3, 1].getD (i - 1) 0 - 1))).2
        ⟨by decide, h, by
          have : (Keygen.rKey 1 3 krnd ([3, 1].getD (i - 1) 0 - 1)).n = 3 := rfl
          rw [this]
          decide, by decide⟩
      exact ⟨s, fun _ _ => hs⟩
    · obtain ⟨s, -⟩ := (C37_new_accepts_partial 1 [3, 1] (toyLocal 3)).2 (by decide)
      exact ⟨s, fun h1 h2 => absurd ⟨h1, h2⟩ h⟩
  choose start' hstart' using hkn
  have hs : ∀ k < 2, HonestSample 2
      (fun j => (krnd ([3, 1].getD j 0 - 1)).dk.n) (fun j => (toySign j).k)
      (signShare (fun i => Keygen.rX 3 krnd (i - 1)) [3, 1])
      ((List.range 3).map (fun j => (Keygen.rBc krnd j).dlog_statement)) k (toySign k) := by
    intro k hk
    refine toySample ?_ (auxOk_rBc (fun k _ => hon k)).usable _ hk
    intro j _
    by_contra hlt
    have h1 : Nat.size (krnd ([3, 1].getD j 0 - 1)).dk.n ≤ 11 := Nat.size_le.2 (by omega)
    have h2 := (hon ([3, 1].getD j 0 - 1)).dk_size
    rw [bitLength, Int.natAbs_natCast] at h2
    omega
  obtain ⟨d, -, hrec, hH⟩ := keygen_honestSigners (t := 1) (n := 3) (by decide) (by decide) (by decide)
    (fun k _ => hon k) hrun (s_l := [3, 1]) (by decide) (by decide)
    (key := fun k => Keygen.rKey 1 3 krnd ([3, 1].getD k 0 - 1))
    (fun k i hi => by
      have hm : i = [3, 1].getD k 0 := by rw [List.getD_eq_getElem?_getD, hi]; rfl
      have hm' : i = 3 ∨ i = 1 := by simpa using List.mem_of_getElem? hi
      rw [← hm]
      obtain rfl | rfl := hm' <;> rfl)
    (x := fun i => Keygen.rX 3 krnd (i - 1))
    (fun i k hk => by
      rw [List.getElem?_map] at hk
      obtain ⟨j, hj, rfl⟩ := Option.map_eq_some_iff.1 hk
      obtain ⟨h1, rfl⟩ := List.getElem?_eq_some_iff.1 hj
      simp only [List.getElem_range]
      rfl)
    (sts := (List.range 3).map (fun j => (Keygen.rBc krnd j).dlog_statement))
    (fun k hk => by
      obtain ⟨i, -, rfl⟩ := List.mem_map.1 hk
      rfl) hs (by decide +kernel) (by decide +kernel)
  exact ⟨krnd, _, _, _, d, _, _, start', ⟨by decide, by decide, fun k _ => hon k, fun k _ => hon k, hrun, hrun⟩,
    rfl, rfl, hH, hrec, hstart'⟩

/-- The hypotheses of `C133_fitting_keys` and of `C133_same_share` are met. -/
theorem toySignsWith : ∃ (rnd : ℕ → KeygenRandomness) (keys : List LocalKey) (keyv keyp : LocalKey),
    TwoKeygens 1 1 3 rnd rnd keys keys ∧ keys[2]? = some keyv ∧ keys[0]? = some keyp ∧
    SignsWith [3, 1] 0 1 keyv keyp := by
  obtain ⟨rnd, keys, key, x, d, dk, sts, start, h, h1, h2, hH, hrec, hstart⟩ := toyKeygenSigners
  exact ⟨rnd, keys, _, _, h, h1, h2,
    C133_fitting_keys hH hrec (by decide) hstart (v := 0) (p := 1) (by decide) (by decide)⟩

/-- `C133_same_share` applies to them. -/
example : ∃ (keys : List LocalKey) (keyv keyp key : LocalKey), SignsWith [3, 1] 0 1 keyv keyp ∧ keys[0]? = some key ∧
    key.keys_linear.x_i = keyp.keys_linear.x_i := by
  obtain ⟨rnd, keys, keyv, keyp, h, hv, hp, hs⟩ := toySignsWith
  obtain ⟨key, h1, h2⟩ := C133_same_share h (by decide) (by decide) (s_l := [3, 1]) (v := 0) (p := 1) (by decide)
    (by decide) hv hp hs
  exact ⟨keys, keyv, keyp, key, hs, h1, h2⟩

/-- After a refresh among three parties the chance is at most 1/30, whatever else the parties draw. -/
example (rnd rnd' : ℕ → KeygenRandomness) : (chance fun a : {z : ZMod 31 // z ≠ 0} => ∃ keys keys' keyv keyp,
    TwoKeygens 1 1 3 rnd (Function.update rnd' 0 { rnd' 0 with coefs := [a.1] }) keys keys' ∧
      (keys[2]? = some keyv ∧ keys'[0]? = some keyp ∨ keys'[2]? = some keyv ∧ keys[0]? = some keyp) ∧
      SignsWith [3, 1] 0 1 keyv keyp) ≤ 1 / ((31 : ℕ) - 1) :=
  C133_chance (s_l := [3, 1]) (v := 0) (p := 1) (by decide) (by decide) (by decide) (by decide) (c := 0) (by decide) []

end
end Verif.Props
