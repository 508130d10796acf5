import Verif.Props.GG18Clients
import Verif.Props.GG18Malicious
import Verif.Props.MixedKeys
import Verif.Spec.MixedFiles

/-!
# C133: GG18 demo clients whose key files come from different key generations
-/

namespace Verif.Props

open EC Crypto Spec Spec.GG18 GG18

section
variable [Crypto]

/-- A Lagrange coefficient that the library computes for points other than zero is not zero. -/
theorem mapShareToNewParams_ne_zero {i : ℕ} {s : List ℕ} {li : Sc} (h : mapShareToNewParams i s = some li)
    (hs : ∀ x ∈ s, x + 1 < q) : li ≠ 0 := by
  unfold mapShareToNewParams at h
  split at h
  · cases h
  unfold lagrangeBasisAtZero at h
  obtain ⟨xj, -, h⟩ := Option.bind_eq_some_iff.1 h
  simp only at h
  split at h
  · cases h
  rename_i hne
  obtain rfl := Option.some.inj h
  refine mul_ne_zero ?_ (inv_ne_zero hne)
  rw [ne_eq, List.prod_eq_zero_iff]
  intro h0
  obtain ⟨x, hx, hx0⟩ := List.mem_map.1 h0
  obtain ⟨y, hy, rfl⟩ := List.mem_map.1 (List.mem_of_mem_eraseIdx hx)
  rw [zero_sub, neg_eq_zero] at hx0
  exact natCast_ne_zero_of (by omega) (hs y hy) hx0

/-- The signing share of a client. -/
theorem round1_share {t k : ℕ} (hk : k < t + 1) {rnd : ℕ → Demo.Sign.Rand} {key : Demo.Keygen.KeyFile} {b0 : ℕ → ℕ}
    {ctx : Demo.Sign.Ctx} {out : List (Msg (SignBroadcastPhase1 × MessageA))}
    (h : Demo.Sign.round1 t rnd (k + 1) key (Demo.poll (k + 1) (t + 1) b0) = .ok (ctx, out)) :
    ∃ li, mapShareToNewParams (key.party_id - 1) ((Demo.fill (t + 1) k key.party_id b0).map (· - 1)) = some li ∧
      ctx.sign_keys.w_i = li * key.shared_keys.x_i := by
  obtain ⟨-, hsv', -⟩ := Demo.Sign.round1_inv h
  unfold Demo.Sign.round1 at h
  simp only [Demo.reassemble_poll, Res.bind_ok] at h
  obtain ⟨sv, hsv, h⟩ := Res.bind_eq_ok.1 h
  obtain ⟨me, hme, h⟩ := Res.bind_eq_ok.1 h
  obtain ⟨_, -, h⟩ := Res.bind_eq_ok.1 h
  obtain ⟨sk, hsk, h⟩ := Res.bind_eq_ok.1 h
  obtain ⟨xi, hxi, h⟩ := Res.bind_eq_ok.1 h
  obtain ⟨ma, -, h⟩ := Res.bind_eq_ok.1 h
  simp only [Res.ok.injEq, Prod.mk.injEq] at h
  obtain ⟨rfl, -⟩ := h
  simp only at hsv'
  unfold SignKeys.create at hsk
  obtain ⟨li, hli, hsk⟩ := Res.bind_eq_ok.1 hsk
  injection hsk with hsk
  subst hsk
  rw [Res.ofOption_eq_ok] at hli
  rw [Nat.add_sub_cancel, Res.get_eq_ok, hsv', List.getElem?_map, Demo.fill_own hk, Option.map_some] at hme
  obtain rfl := Option.some.inj hme
  exact ⟨li, hsv' ▸ hli, rfl⟩

/-- The second answer proves knowledge of the signing share. -/
theorem round2_answer {t p i : ℕ} {rnd : ℕ → Demo.Sign.Rand} {ctx : Demo.Sign.Ctx}
    {ans : List (SignBroadcastPhase1 × MessageA)} {st2 : Demo.Sign.St2} {o2 : List (Msg (MessageB × MessageB))}
    (h : Demo.Sign.round2 t rnd p ctx ans = .ok (st2, o2)) {m : MessageB × MessageB} (hm : ⟨p, some i, m⟩ ∈ o2) :
    m.2.b_proof.pk = ctx.sign_keys.w_i • G := by
  unfold Demo.Sign.round2 at h
  obtain ⟨_, -, h⟩ := Res.bind_eq_ok.1 h
  obtain ⟨_, -, h⟩ := Res.bind_eq_ok.1 h
  obtain ⟨out, hout, h⟩ := Res.bind_eq_ok.1 h
  simp only [Res.ok.injEq, Prod.mk.injEq] at h
  obtain ⟨-, rfl⟩ := h
  obtain ⟨⟨i', g, w⟩, ho, e⟩ := List.mem_map.1 hm
  injection e with _ _ e
  subst e
  obtain ⟨j, hj, hjo⟩ := Res.mem_mapM hout ho
  unfold Demo.Sign.answer at hjo
  obtain ⟨_, -, hjo⟩ := Res.bind_eq_ok.1 hjo
  obtain ⟨_, -, hjo⟩ := Res.bind_eq_ok.1 hjo
  obtain ⟨_, -, hjo⟩ := Res.bind_eq_ok.1 hjo
  obtain ⟨_, -, hjo⟩ := Res.bind_eq_ok.1 hjo
  obtain ⟨w', hw, hjo⟩ := Res.bind_eq_ok.1 hjo
  simp only [Res.ok.injEq, Prod.mk.injEq] at hjo
  obtain ⟨-, -, rfl⟩ := hjo
  rw [Res.unwrap_eq_ok] at hw
  unfold MessageB.b at hw
  split at hw
  · cases hw
  split at hw
  · cases hw
  · cases hw
  · injection hw with hw
    rw [← hw]
    rfl

variable {A : Aead} {t t' n v p : ℕ} {filev filep : Demo.Keygen.KeyFile}

/-- **C133** (GG18). A client releases its partial signature only if the share in the key file of every other client
that runs the program belongs to the public share that its own key file gives to that party. -/
theorem C133_gg18_recorded (hv1 : 1 ≤ v) (hv2 : v ≤ t + 1) (hp1 : 1 ≤ p) (hp2 : p ≤ t + 1) (hne : p ≠ v)
    (hiv : filev.party_id < q) (hip : filep.party_id < q) (h : ReleasesWith t v p filev filep) :
    filep.shared_keys.x_i • G =
      (filev.vss_scheme_vec.map (fun w => feldmanEval w.commitments (filep.party_id : Sc))).sum := by
  obtain ⟨message, rv, rp, bv, bp, st, out, ctx, o1, st2, o2, hrel, hr1, hr2, gp, gv, g2, hids⟩ := h
  have gp : bv.b0 p = filep.party_id := by
    have := List.mem_singleton.1 gp
    injection this
  have gv : bp.b0 v = filev.party_id := by
    have := List.mem_singleton.1 gv
    injection this
  obtain ⟨own6, own8, R, hc, -⟩ := C76_release hv1 hv2 hrel
  obtain ⟨k, rfl⟩ : ∃ k, p = k + 1 := ⟨p - 1, by omega⟩
  obtain ⟨li, hli, hw⟩ := round1_share (by omega) hr1
  have hs := hc.share (k + 1) (mem_peers.2 ⟨by omega, by omega, hne⟩)
  have hlist : (List.range' 1 (t + 1)).map (fun p => if p = v then filev.party_id else bv.b0 p) =
      Demo.fill (t + 1) k filep.party_id bp.b0 := by
    rw [Demo.range'_one, List.map_map]
    refine List.map_congr_left fun j hj => ?_
    have hj := List.mem_range.1 hj
    simp only [Function.comp]
    split_ifs with e1 e2 e2
    · omega
    · rw [e1, gv]
    · rw [e2, gp]
    · exact ((hids (j + 1) (mem_peers.2 ⟨by omega, by omega, e1⟩) (by omega)).1).symm
  have hlt : ∀ x ∈ (Demo.fill (t + 1) k filep.party_id bp.b0).map (· - 1), x + 1 < q := by
    intro x hx
    rw [← hlist, List.map_map] at hx
    obtain ⟨j, hj, rfl⟩ := List.mem_map.1 hx
    have hj := List.mem_range'_1.1 hj
    have hq : 1 < q := EC.q_prime.out.one_lt
    simp only [Function.comp]
    split_ifs with e1
    · omega
    · by_cases e2 : j = k + 1
      · rw [e2, gp]; omega
      · have := (hids j (mem_peers.2 ⟨by omega, by omega, e1⟩) e2).2
        omega
  unfold shareCommitment at hs
  rw [gp, hlist, hli, Option.map_some, round2_answer hr2 g2, hw, mul_smul] at hs
  exact (smul_right_injective Pt (mapShareToNewParams_ne_zero hli hlt) (Option.some.inj hs)).symm

/-- The public share that the key file of a client that followed the protocol gives to a party -/
theorem kFile_public (t n : ℕ) (rnd : ℕ → Demo.Keygen.Rand) (k l : ℕ) :
    ((Demo.Keygen.kFile t n rnd k).vss_scheme_vec.map (fun w => feldmanEval w.commitments ((l + 1 : ℕ) : Sc))).sum =
      Demo.Keygen.kX n rnd l • (G : Pt) := by
  unfold Demo.Keygen.kFile Demo.Keygen.kX
  rw [List.map_map, sum_map_range_eq, sum_map_range_eq, Finset.sum_smul]
  refine Finset.sum_congr rfl fun j _ => ?_
  simp only [Function.comp, Demo.Keygen.kVss, feldmanEval_map]
  rfl

/-- **C133** (GG18, two key generations). Clients `v` and `p` of the signing room are the parties `i` and `j` of two
key generations; `v` has its key file from the first and `p` from the second one.  If `v` releases its partial
signature, then party `j` got the same share in both. -/
theorem C133_gg18_same_share {rnd rnd' : ℕ → Demo.Keygen.Rand} {files files' : List Demo.Keygen.KeyFile} {s i j : ℕ}
    (h : TwoFiles A t t' n rnd rnd' files files') (hn : n < q) (hv1 : 1 ≤ v) (hv2 : v ≤ s + 1) (hp1 : 1 ≤ p)
    (hp2 : p ≤ s + 1) (hne : p ≠ v) (hfv : files[i]? = some filev) (hfp : files'[j]? = some filep)
    (hs : ReleasesWith s v p filev filep) :
    ∃ file, files[j]? = some file ∧ file.shared_keys.x_i = filep.shared_keys.x_i := by
  obtain rfl := Res.ok.inj (h.first.symm.trans (Demo.Keygen.run_eq A h.threshold h.honest))
  obtain rfl := Res.ok.inj (h.second.symm.trans (Demo.Keygen.run_eq A h.threshold' h.honest'))
  obtain ⟨h1, rfl⟩ := List.getElem?_eq_some_iff.1 hfv
  obtain ⟨h2, rfl⟩ := List.getElem?_eq_some_iff.1 hfp
  rw [List.length_map, List.length_range] at h1 h2
  simp only [List.getElem_map, List.getElem_range] at hs ⊢
  refine ⟨Demo.Keygen.kFile t n rnd j, by rw [List.getElem?_map, List.getElem?_range h2]; rfl, ?_⟩
  have := C133_gg18_recorded hv1 hv2 hp1 hp2 hne (show i + 1 < q by omega) (show j + 1 < q by omega) hs
  exact (smul_G_inj.1 (this.trans (kFile_public t n rnd i j))).symm

/-- **C133** (GG18, chance). Over the first coefficient `a` that client `c` draws in the second key generation, the
chance that client `v` can release a partial signature together with client `p`, one of them with its key file from the
first and the other with its key file from the second key generation, is at most `1 / (q - 1)`. -/
theorem C133_gg18_chance {rnd rnd' : ℕ → Demo.Keygen.Rand} {s i j : ℕ} (hn : n < q) (hv1 : 1 ≤ v) (hv2 : v ≤ s + 1)
    (hp1 : 1 ≤ p) (hp2 : p ≤ s + 1) (hne : p ≠ v) {c : ℕ} (hc1 : 1 ≤ c) (hc2 : c ≤ n) (rest : List Sc) :
    (chance fun a : {z : Sc // z ≠ 0} => ∃ files files' filev filep,
      TwoFiles A t t' n rnd (Function.update rnd' c { rnd' c with coefs := a.1 :: rest }) files files' ∧
      (files[i]? = some filev ∧ files'[j]? = some filep ∨ files'[i]? = some filev ∧ files[j]? = some filep) ∧
      ReleasesWith s v p filev filep) ≤ 1 / ((q : ℚ) - 1) := by
  set rest0 : Demo.Keygen.Rand := { rnd' c with coefs := 0 :: rest } with hrest0
  set b : Sc := (Demo.Keygen.kX n rnd j - Demo.Keygen.kX n (Function.update rnd' c rest0) j) / ((j + 1 : ℕ) : Sc) with hb
  refine chance_one_scalar b ?_
  rintro a ⟨files, files', filev, filep, h, hfiles, hs⟩
  have key : j < n → Demo.Keygen.kX n (Function.update rnd' c { rnd' c with coefs := a.1 :: rest }) j =
      Demo.Keygen.kX n rnd j → a.1 = b := by
    intro hj hx
    have hk0 : ((j + 1 : ℕ) : Sc) ≠ 0 := natCast_ne_zero_of (by omega) (by omega)
    have e : Function.update rnd' c { rnd' c with coefs := a.1 :: rest } =
        Function.update (Function.update rnd' c rest0) c { rnd' c with coefs := a.1 :: rest } := by
      rw [Function.update_idem]
    rw [e, kX_update hc1 hc2 (Function.update rnd' c rest0) { rnd' c with coefs := a.1 :: rest }
      (δ := ((j + 1 : ℕ) : Sc) * a.1) (by
        rw [Function.update_self, hrest0]
        simp only [evalPoly_cons]
        ring)] at hx
    rw [hb, eq_div_iff hk0, ← hx]
    ring
  obtain rfl := Res.ok.inj (h.first.symm.trans (Demo.Keygen.run_eq A h.threshold h.honest))
  obtain rfl := Res.ok.inj (h.second.symm.trans (Demo.Keygen.run_eq A h.threshold' h.honest'))
  obtain ⟨hfv, hfp⟩ | ⟨hfv, hfp⟩ := hfiles
  · obtain ⟨file, e1, e2⟩ := C133_gg18_same_share h hn hv1 hv2 hp1 hp2 hne hfv hfp hs
    obtain ⟨h1, rfl⟩ := List.getElem?_eq_some_iff.1 e1
    obtain ⟨h2, rfl⟩ := List.getElem?_eq_some_iff.1 hfp
    rw [List.length_map, List.length_range] at h2
    simp only [List.getElem_map, List.getElem_range] at e2
    exact key h2 e2.symm
  · obtain ⟨file, e1, e2⟩ := C133_gg18_same_share
      ⟨h.threshold', h.threshold, h.honest', h.honest, h.second, h.first⟩ hn hv1 hv2 hp1 hp2 hne hfv hfp hs
    obtain ⟨h1, rfl⟩ := List.getElem?_eq_some_iff.1 e1
    obtain ⟨h2, rfl⟩ := List.getElem?_eq_some_iff.1 hfp
    rw [List.length_map, List.length_range] at h2
    simp only [List.getElem_map, List.getElem_range] at e2
    exact key h2 e2

open Demo Demo.Sign in
/-- **C133** (GG18, key files that belong together). Clients whose key files fit together, as those of one key
generation do, can release partial signatures. -/
theorem C133_gg18_fitting_files {d : Sc} {x : ℕ → Sc} {dk : ℕ → DecKey} {s_l : List ℕ}
    {key : ℕ → Demo.Keygen.KeyFile} {rnd : ℕ → Demo.Sign.Rand} (h : HonestRoom n (d • G) x dk s_l key rnd)
    (hx : Reconstructs t n x d) (hlen : t + 1 ≤ s_l.length) (message : ℤ)
    (hm : ∀ xr y, coords ((∑ j ∈ Finset.range s_l.length, (rnd (j + 1)).k)⁻¹ • (G : Pt)) = some (xr, y) →
      (message : Sc) + (xr : Sc) * d ≠ 0) (hv1 : 1 ≤ v) (hv2 : v ≤ s_l.length) (hp1 : 1 ≤ p) (hp2 : p ≤ s_l.length)
    (hne : p ≠ v) : ReleasesWith (s_l.length - 1) v p (key v) (key p) := by
  obtain ⟨xr, y, hc, hse, hs0⟩ := honest_equation h hx hlen message hm
  obtain ⟨v, rfl⟩ : ∃ k, v = k + 1 := ⟨v - 1, by omega⟩
  obtain ⟨p, rfl⟩ : ∃ k, p = k + 1 := ⟨p - 1, by omega⟩
  let b : ℕ → Demo.Sign.Posted := fun k => ⟨fun j => (key j).party_id, fun j => (cCom rnd (j - 1), cMA dk s_l rnd (j - 1)),
    fun j => cB x dk s_l rnd (j - 1) k, fun j => GG20.Sign.oDelta s_l (conv rnd) (j - 1),
    fun j => cDec rnd (j - 1), fun j => cC1 x s_l rnd message xr (j - 1),
    fun j => cOpen x s_l rnd message xr (j - 1), fun j => cC2 x (d • G) s_l rnd message xr (j - 1),
    fun j => cD2 x (d • G) s_l rnd message xr (j - 1), fun j => cS x s_l rnd message xr (j - 1)⟩
  have hl : s_l.length - 1 + 1 = s_l.length := by omega
  have hv : v < s_l.length := by omega
  have hrel : ∃ st out, release (s_l.length - 1) message rnd (v + 1) (key (v + 1)) (b v) = .ok (st, out) := by
    refine ⟨?_, ?_, ?_⟩
    rotate_left 2
    · unfold release
      simp only [poll_eq, hl, Nat.add_sub_cancel, b]
      rw [show (start (v + 1) (key (v + 1))).1 = key (v + 1) from rfl, round1_ok h hv, Res.bind_ok,
        round2_ok h hv, Res.bind_ok, round3_ok h hv, Res.bind_ok, round4_ok h hv, Res.bind_ok,
        round5_ok h message hc hv, Res.bind_ok, round6_ok message hv, Res.bind_ok, round7_ok message hc hv,
        Res.bind_ok, round8_ok message hv, Res.bind_ok, round9_ok message hv hse]
  obtain ⟨st, out, hrel⟩ := hrel
  have h1 := round1_ok h (k := p) (by omega)
  have h2 := round2_ok h (k := p) (by omega)
  refine ⟨message, rnd, rnd, b v, b p, st, out, ?_, ?_, ?_, ?_, hrel, ?_, ?_, List.mem_singleton.2 rfl,
    List.mem_singleton.2 rfl, ?_, fun j hj _ => ⟨rfl, ?_⟩⟩
  rotate_left 4
  · simp only [poll_eq, hl, b]
    exact h1
  · simp only [poll_eq, hl, Nat.add_sub_cancel, b]
    exact h2
  · exact List.mem_map.2 ⟨v, GG20.Sign.mem_others.2 ⟨by omega, by omega⟩, rfl⟩
  · rw [hl] at hj
    obtain ⟨l, hl', -, rfl⟩ := Demo.mem_peers hj
    change (key (l + 1)).party_id < q
    rw [(h.holds l hl').index]
    have := h.n_lt
    have := h.members _ (GG20.Sign.getD_mem hl')
    omega

end

/-! ### Examples: the 31-point group -/

section
attribute [local instance] Toy.crypto

/-- Parties 3 and 1 sign with key files of one key generation: the hypotheses of all theorems are met. -/
example : ∃ filev filep file, ReleasesWith 1 1 2 filev filep ∧
    filev = Demo.Keygen.kFile 1 3 toyKg 2 ∧ filep = Demo.Keygen.kFile 1 3 toyKg 0 ∧
    filep.shared_keys.x_i • G =
      (filev.vss_scheme_vec.map (fun w => feldmanEval w.commitments (filep.party_id : ZMod 31))).sum ∧
    ((List.range 3).map (Demo.Keygen.kFile 1 3 toyKg))[0]? = some file ∧
    file.shared_keys.x_i = filep.shared_keys.x_i := by
  obtain ⟨x, dk, h, hx⟩ := toyRoom_room
  have hr := C133_gg18_fitting_files h hx (by decide) 10 toyRoom_message (v := 1) (p := 2) (by decide) (by decide)
    (by decide) (by decide) (by decide)
  have hon : ∀ k < 3, HonestKeygenRand 1 (toyKg (k + 1)) := fun k hk => toyKg_honest (by omega) (by omega)
  have hrun := Demo.Keygen.run_eq toyAead (t := 1) (n := 3) (by decide) hon
  obtain ⟨file, h1, h2⟩ := C133_gg18_same_share (i := 2) (j := 0) (s := 1)
    ⟨by decide, by decide, hon, hon, hrun, hrun⟩ (by decide) (by decide) (by decide) (by decide) (by decide) (by decide)
    rfl rfl hr
  exact ⟨_, _, file, hr, rfl, rfl, C133_gg18_recorded (t := 1) (by decide) (by decide) (by decide) (by decide)
    (by decide) (by decide) (by decide) hr, h1, h2⟩

/-- After another key generation among three parties the chance is at most 1/30, whatever else the clients draw. -/
example (rnd rnd' : ℕ → Demo.Keygen.Rand) : (chance fun a : {z : ZMod 31 // z ≠ 0} => ∃ files files' filev filep,
    TwoFiles toyAead 1 1 3 rnd (Function.update rnd' 1 { rnd' 1 with coefs := [a.1] }) files files' ∧
      (files[2]? = some filev ∧ files'[0]? = some filep ∨ files'[2]? = some filev ∧ files[0]? = some filep) ∧
      ReleasesWith 1 1 2 filev filep) ≤ 1 / ((31 : ℕ) - 1) :=
  C133_gg18_chance (by decide) (by decide) (by decide) (by decide) (by decide) (by decide) (by decide) (by decide) []

end
end Verif.Props
