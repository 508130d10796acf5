import Verif.Lemmas.Signing

/-!
# C98: the signing demo as a whole

`Demo.Signing.Steps T message k s` says that `k` steps of the clients of `gg20_signing.rs` lead to the state
`s` of the two rooms of the message server.  The index that a client gets in the online room depends on the
order in which the clients finish the offline stage.
-/

namespace Verif.Props

open EC Crypto Spec GG20 GG20.Sign Demo.Driver Demo.Signing

section
variable [Crypto]

/-- What C98 says of the clients `1 .. T.n`, which should return the signature `sig`. -/
structure SigningWorks {σ β ε : Type} (T : Setting σ β CompletedOfflineStage ε) (message : ℤ) (bound : ℕ)
    (sig : SignatureRecid) : Prop where
  /-- at any time a client that has the same index in both rooms has not returned or has returned `sig` -/
  sound : ∀ k s, Steps T message k s → ∀ i, (s.client i).index = some i →
    (s.client i).result = none ∨ (s.client i).result = some (.ok sig)
  /-- the clients cannot go on forever -/
  ends : ∀ k s, Steps T message k s → k ≤ bound
  /-- when no client can do anything, all have joined the online room and have returned, those that have the
  same index in both rooms `sig` -/
  complete : ∀ k s, Steps T message k s → (¬ ∃ s', Step T message s s') → ∀ i, 1 ≤ i → i ≤ T.n →
    ∃ o x, (s.client i).index = some o ∧ 1 ≤ o ∧ o ≤ T.n ∧ (s.client i).result = some x ∧
      (o = i → x = .ok sig)
  /-- different clients have different indices -/
  distinct : ∀ k s, Steps T message k s → ∀ i j o, (s.client i).index = some o →
    (s.client j).index = some o → i = j

/-- What a client returns depends on its index in the online room: it adds up its own partial signature and
those of the clients that have another index in the *offline* room. -/
def ResultByIndex {σ β ε : Type} (T : Setting σ β CompletedOfflineStage ε) (message : ℤ) (Y : Pt) (r : Sc)
    (p : ℕ → Sc) : Prop :=
  ∀ k s, Steps T message k s → ∀ i o x, (s.client i).index = some o → (s.client i).result = some x →
    ((∃ sig, x = .ok sig) ↔ EcdsaEq Y message r (p i + ((peers o T.n).map p).sum))

/-- Both, from presignatures that make a signature. -/
theorem signing_works {σ β ε : Type} {T : Setting σ β CompletedOfflineStage ε} {message : ℤ} {bound : ℕ}
    {cs : List CompletedOfflineStage} (W : RoomWorks T bound cs) (hn : cs.length = T.n) {k sigma : ℕ → Sc}
    {R Y : Pt} (hcs : ∀ i c, 1 ≤ i → cs[i - 1]? = some c → c = ⟨k i, R, sigma i, Y⟩) {x y : ℕ}
    (hR : coords R = some (x, y)) (he : EcdsaEq Y message (x : Sc)
      (∑ j ∈ Finset.range T.n, ((message : Sc) * k (j + 1) + (x : Sc) * sigma (j + 1)))) :
    SigningWorks T message (bound + T.n * (T.n + 2)) ⟨(x : Sc),
        normS (∑ j ∈ Finset.range T.n, ((message : Sc) * k (j + 1) + (x : Sc) * sigma (j + 1))),
        recidOf (∑ j ∈ Finset.range T.n, ((message : Sc) * k (j + 1) + (x : Sc) * sigma (j + 1))) y⟩ ∧
      ResultByIndex T message Y (x : Sc) (fun i => (message : Sc) * k i + (x : Sc) * sigma i) := by
  have hinv : ∀ {k' s}, Steps T message k' s →
      Inv T message cs (fun i => (message : Sc) * k i + (x : Sc) * sigma i) k' s := by
    refine fun h => inv W hn (fun i c hi hc => ?_) h
    obtain rfl := hcs i c hi hc
    exact ⟨_, new_eq (c := ⟨k i, R, sigma i, Y⟩) hR⟩
  have hown : ∀ {k' s}, Steps T message k' s → ∀ {i z}, (s.client i).index = some i →
      (s.client i).result = some z → z = .ok ⟨(x : Sc),
        normS (∑ j ∈ Finset.range T.n, ((message : Sc) * k (j + 1) + (x : Sc) * sigma (j + 1))),
        recidOf (∑ j ∈ Finset.range T.n, ((message : Sc) * k (j + 1) + (x : Sc) * sigma (j + 1))) y⟩ := by
    intro k' s hs i z hi hz
    obtain ⟨h1, h2, -⟩ := (hinv hs).ret i i hi
    obtain ⟨c, later, a1, a2, a3⟩ := (hinv hs).returned hi hz
    obtain rfl := hcs i c h1 a1
    obtain ⟨l, b1, b2⟩ := C63_collected ⟨h1, h2⟩ a2
    have hsum := sum_peers ⟨h1, h2⟩ (fun i => (message : Sc) * k i + (x : Sc) * sigma i)
    rw [← b2.sum_eq] at hsum
    unfold Demo.Client.online at a3
    simp only [b1, new_eq (c := ⟨k i, R, sigma i, Y⟩) hR, Option.bind_eq_bind, Option.bind_some,
      Res.bind_ok] at a3
    rw [← Option.some.inj a3, complete_eq (x := x) (y := y) hR]
    · dsimp only
      rw [hsum]
    · dsimp only
      rw [hsum]
      exact he
  refine ⟨⟨fun k' s hs i hi => ?_, fun k' s hs => (hinv hs).steps_le W, fun k' s hs hr i h1 h2 => ?_,
    fun k' s hs => (hinv hs).inj⟩, fun k' s hs i o z ho hz => ?_⟩
  · cases hz : (s.client i).result with
    | none => exact .inl rfl
    | some z => exact .inr (congrArg some (hown hs hi hz))
  · obtain ⟨o, z, a1, a2, a3, a4⟩ := (hinv hs).rest W hn hr h1 h2
    refine ⟨o, z, a1, a2, a3, a4, ?_⟩
    rintro rfl
    exact hown hs a1 a4
  · obtain ⟨h1, h2, h3, h4, -⟩ := (hinv hs).ret i o ho
    obtain ⟨c, later, a1, a2, a3⟩ := (hinv hs).returned ho hz
    obtain rfl := hcs i c h1 a1
    have := C63_other_index_result (i := i) (Y := Y) ⟨h3, h4.trans (hinv hs).joined_le⟩ hR a2
    rw [← this, a3]
    exact ⟨fun ⟨sig, e⟩ => ⟨sig, congrArg some e⟩, fun ⟨sig, e⟩ => ⟨sig, Option.some.inj e⟩⟩

/-- **C98.** Honest clients, in every interleaving of their requests: after boundedly many steps all have
returned, and every client that got the same index in both rooms has returned one and the same signature,
which is valid and has low `s`.  The property is violated for other clients, see `C98_violated`. -/
theorem C98_signing_partial {t n : ℕ} {x : ℕ → Sc} {d : Sc} {dk : ℕ → DecKey} {sts : List DLogStatement}
    {s_l : List ℕ} {key : ℕ → LocalKey} {rnd : ℕ → SignRandomness} {start : ℕ → Sign.State}
    (h : HonestSigners n (d • G) x dk sts s_l key rnd)
    (hx : Reconstructs t n x d) (hlen : t + 1 ≤ s_l.length)
    (hnew : ∀ i, 1 ≤ i → i ≤ s_l.length → Sign.new i s_l (key (i - 1)) = .ok (start i)) (message : ℤ)
    (hm : ∀ xr y, coords ((∑ j ∈ Finset.range s_l.length, (rnd j).k)⁻¹ • (G : Pt)) = some (xr, y) →
      (message : Sc) + (xr : Sc) * d ≠ 0) :
    ∃ sig, EcdsaEq (d • G) message sig.r sig.s ∧ LowS sig.s ∧
      (∃ xr y, coords ((∑ j ∈ Finset.range s_l.length, (rnd j).k)⁻¹ • (G : Pt)) = some (xr, y) ∧
        sig.r = (xr : Sc)) ∧
      SigningWorks (offlineRoom s_l.length rnd start) message ((s_l.length + 1) *
        (s_l.length * (s_l.length + 5)) + s_l.length * (s_l.length + 2)) sig ∧
      ResultByIndex (offlineRoom s_l.length rnd start) message (d • G) sig.r
        (fun i => (message : Sc) * (rnd (i - 1)).k + sig.r * oSigma x s_l rnd (i - 1)) := by
  have hd := signShare_sum h.members h.nodup hx hlen
  have hcs := offline_eq h hd rfl
  have W := C94_offline h hx hlen hnew hcs
  have hR := oR_eq h.gamma_sum
  have hne : oR s_l rnd ≠ 0 := by
    rw [hR]
    intro h0
    rw [smul_G_eq_zero] at h0
    exact inv_ne_zero h.k_sum h0
  obtain ⟨xr, y, hc⟩ := exists_coords hne
  have hmr := hm xr y (by rw [← hR]; exact hc)
  have hs : ∑ i ∈ Finset.range s_l.length, ((message : Sc) * (rnd i).k + (xr : Sc) * oSigma x s_l rnd i) =
      (∑ i ∈ Finset.range s_l.length, (rnd i).k) * ((message : Sc) + (xr : Sc) * d) := by
    rw [Finset.sum_add_distrib, ← Finset.mul_sum, ← Finset.mul_sum, oSigma_sum, hd]
    ring
  have he : EcdsaEq (d • G) message (xr : Sc)
      (∑ i ∈ Finset.range s_l.length, ((message : Sc) * (rnd i).k + (xr : Sc) * oSigma x s_l rnd i)) := by
    refine ecdsaEq_of_eq hc (by rw [hs]; exact mul_ne_zero h.k_sum hmr) ?_
    rw [hs, hR, ← mul_smul, ← mul_smul, ← add_smul]
    congr 1
    rw [mul_comm _ (∑ i ∈ Finset.range s_l.length, (rnd i).k)⁻¹, ← mul_assoc,
      inv_mul_cancel₀ h.k_sum, one_mul]
  obtain ⟨w1, w2⟩ := signing_works (T := offlineRoom s_l.length rnd start) (message := message) W
    (by rw [List.length_map, List.length_range]; rfl) (k := fun i => (rnd (i - 1)).k)
    (sigma := fun i => oSigma x s_l rnd (i - 1)) (R := oR s_l rnd) (Y := d • G)
    (fun i c hi hc => (offline_get h hd rfl hcs hi hc).2) hc he
  exact ⟨_, ecdsaEq_normS.2 he, normS_low _, ⟨xr, y, by rw [← hR]; exact hc, rfl⟩, w1, w2⟩

end

/-! ### Examples: signers 3 and 1 of the toy key -/

section
attribute [local instance] Toy.crypto

theorem toyShares : signShare toyX [3, 1] 0 = (18 : ZMod 31) ∧
    signShare toyX [3, 1] 1 = (18 : ZMod 31) := by decide +kernel

theorem toySigma : oSigma toyX [3, 1] toySign 0 = (14 : ZMod 31) ∧
    oSigma toyX [3, 1] toySign 1 = (21 : ZMod 31) := by
  have h0 : GG20.Sign.others [3, 1].length 0 = [1] := by decide
  have h1 : GG20.Sign.others [3, 1].length 1 = [0] := by decide
  unfold oSigma oMiu
  rw [h0, h1]
  simp only [List.map_cons, List.map_nil, toyShares.1, toyShares.2]
  decide +kernel

/-- They can start, and the theorem applies to them. -/
theorem toyDemo : ∃ (start : ℕ → Sign.State) (sig : SignatureRecid) (cs : List CompletedOfflineStage),
    (∀ i, 1 ≤ i → i ≤ 2 →
      Sign.new i [3, 1] (toyLocal ([3, 1].getD (i - 1) 0)) = .ok (start i)) ∧
    cs.length = 2 ∧ RoomWorks (offlineRoom 2 toySign start) 42 cs ∧
    EcdsaEq ((5 : ZMod 31) • (G : Pt)) 3 sig.r sig.s ∧ sig.r = (20 : ZMod 31) ∧
    SigningWorks (offlineRoom 2 toySign start) 3 50 sig ∧
    ResultByIndex (offlineRoom 2 toySign start) 3 ((5 : ZMod 31) • (G : Pt)) sig.r
      (fun i => ((3 : ℤ) : ZMod 31) * (toySign (i - 1)).k + sig.r * oSigma toyX [3, 1] toySign (i - 1)) := by
  have hrec := toyX_poly.reconstructs (by decide)
  have h0 : (Polynomial.C (5 : ZMod 31) + Polynomial.C (7 : ZMod 31) * Polynomial.X).eval 0 = 5 := by
    simp
  rw [h0] at hrec
  have hn : ∀ i, ∃ s, 1 ≤ i → i ≤ 2 →
      Sign.new i [3, 1] (toyLocal ([3, 1].getD (i - 1) 0)) = .ok s := by
    intro i
    by_cases h : 1 ≤ i ∧ i ≤ 2
    · obtain ⟨s, hs⟩ := (C37_new_accepts_partial i [3, 1] (toyLocal ([3, 1].getD (i - 1) 0))).2
        ⟨by decide, h, by
          have : (toyLocal ([3, 1].getD (i - 1) 0)).n = 3 := rfl
          rw [this]
          decide, by decide⟩
      exact ⟨s, fun _ _ => hs⟩
    · obtain ⟨s, -⟩ := (C37_new_accepts_partial 1 [3, 1] (toyLocal 3)).2 (by decide)
      exact ⟨s, fun h1 h2 => absurd ⟨h1, h2⟩ h⟩
  choose start hstart using hn
  obtain ⟨cs, c1, c2, -, -⟩ := C39_honest_signing toyHonest hrec (by decide)
  have W := C94_offline toyHonest hrec (by decide) hstart c1
  obtain ⟨sig, s1, -, ⟨xr, y, s4, s5⟩, s2, s3⟩ := C98_signing_partial toyHonest hrec (by decide) hstart 3 (by
    intro xr y h
    have : ∀ xy ∈ coords ((∑ j ∈ Finset.range [3, 1].length, (toySign j).k)⁻¹ • (G : Pt)),
      ((3 : ℤ) : ZMod 31) + (xy.1 : ZMod 31) * 5 ≠ 0 := by decide +kernel
    exact this (xr, y) h)
  have hr : ∀ xy ∈ coords ((∑ j ∈ Finset.range [3, 1].length, (toySign j).k)⁻¹ • (G : Pt)),
    (xy.1 : ZMod 31) = 20 := by decide +kernel
  exact ⟨start, sig, cs, hstart, c2, W, s1, s5.trans (hr (xr, y) s4), s2, s3⟩

/-- The clients can finish the offline stage and then join the online room in either order; then they come to
rest. -/
theorem joined_orders [Crypto] {σ β ε : Type} {T : Setting σ β CompletedOfflineStage ε} {message : ℤ}
    {bound b : ℕ} {cs : List CompletedOfflineStage} (W : RoomWorks T bound cs) (hn : cs.length = 2)
    (hT : T.n = 2) (hb : ∀ k s, Steps T message k s → k ≤ b) {i j : ℕ} (hi : i = 1 ∧ j = 2 ∨ i = 2 ∧ j = 1) :
    ∃ k s, Steps T message k s ∧ (¬ ∃ s', Step T message s s') ∧
      (s.client i).index = some 1 ∧ (s.client j).index = some 2 := by
  obtain ⟨k, r, -, h1, h2⟩ := W.rests .init
  have hres : ∀ j, 1 ≤ j → j ≤ 2 → ∃ c, (r.client j).run.result = some (.ok c) := fun j j1 j2 =>
    have hlt : j - 1 < cs.length := by omega
    ⟨_, W.complete _ _ h1 h2 j _ j1 (List.getElem?_eq_getElem hlt)⟩
  have hij : i ≠ j := by omega
  obtain ⟨c, hc⟩ := hres i (by omega) (by omega)
  obtain ⟨c', hc'⟩ := hres j (by omega) (by omega)
  have s1 := (lift (message := message) h1).step
    (.join _ i (by omega) (by omega) c (rest_idle h1 h2 (by omega) (by omega)) hc rfl)
  have s2 := s1.step (.join _ j (by omega) (by omega) c' (rest_idle h1 h2 (by omega) (by omega)) hc' (by
    dsimp only
    rw [Function.update_of_ne hij.symm]))
  obtain ⟨k', s, a1, a2, a3⟩ := Demo.Signing.rests hb s2
  refine ⟨k', s, a1, a2, a3 i 1 ?_, a3 j 2 ?_⟩
  · dsimp only
    rw [Function.update_of_ne hij, Function.update_self]
  · dsimp only
    rw [Function.update_self]

/-- When they join the online room in the same order as the offline room, both print the signature. -/
example : ∃ (start : ℕ → Sign.State) (sig : SignatureRecid) (k : ℕ) (s : Rooms _ _ _),
    Steps (offlineRoom 2 toySign start) 3 k s ∧ EcdsaEq ((5 : ZMod 31) • (G : Pt)) 3 sig.r sig.s ∧
    (s.client 1).result = some (.ok sig) ∧ (s.client 2).result = some (.ok sig) := by
  obtain ⟨start, sig, cs, -, h2, W, h4, -, h5, -⟩ := toyDemo
  obtain ⟨k, s, a1, a2, a3, a4⟩ := joined_orders W h2 rfl h5.ends (.inl ⟨rfl, rfl⟩)
  refine ⟨start, sig, k, s, a1, h4, ?_, ?_⟩
  · obtain ⟨o, x, b1, -, -, b2, b3⟩ := h5.complete k s a1 a2 1 le_rfl (show 1 ≤ 2 by decide)
    rw [a3] at b1
    rw [b2, b3 (Option.some.inj b1).symm]
  · obtain ⟨o, x, b1, -, -, b2, b3⟩ := h5.complete k s a1 a2 2 (by decide) le_rfl
    rw [a4] at b1
    rw [b2, b3 (Option.some.inj b1).symm]

/-- **C98 is violated** when the clients finish the offline stage in another order than that in which they
joined its room: these two honest clients both end without a signature. -/
theorem C98_violated : ∃ (start : ℕ → Sign.State) (k : ℕ) (s : Rooms _ _ _),
    (∀ i, 1 ≤ i → i ≤ 2 →
      Sign.new i [3, 1] (toyLocal ([3, 1].getD (i - 1) 0)) = .ok (start i)) ∧
    Steps (offlineRoom 2 toySign start) 3 k s ∧
    (¬ ∃ s', Step (offlineRoom 2 toySign start) 3 s s') ∧
    ∀ i, 1 ≤ i → i ≤ 2 → ¬ ∃ sig, (s.client i).result = some (.ok sig) := by
  obtain ⟨start, sig, cs, h1, h2, W, -, hr, h5, h6⟩ := toyDemo
  obtain ⟨k, s, a1, a2, a3, a4⟩ := joined_orders W h2 rfl h5.ends (.inr ⟨rfl, rfl⟩)
  refine ⟨start, k, s, h1, a1, a2, fun i i1 i2 => ?_⟩
  rintro ⟨sig', hs⟩
  have hx1 : ∀ xy ∈ coords ((((3 : ℤ) : ZMod 31) / 20) • (G : Pt) + ((20 : ZMod 31) / 20) • ((5 : ZMod 31) • (G : Pt))),
    (xy.1 : ZMod 31) ≠ 20 := by decide +kernel
  have hx2 : ∀ xy ∈ coords ((((3 : ℤ) : ZMod 31) / 27) • (G : Pt) + ((20 : ZMod 31) / 27) • ((5 : ZMod 31) • (G : Pt))),
    (xy.1 : ZMod 31) ≠ 20 := by decide +kernel
  have key : ∀ o, (s.client i).index = some o → _ := fun o ho =>
    (h6 k s a1 i o (.ok sig') ho hs).1 ⟨_, rfl⟩
  rw [hr] at key
  obtain rfl | rfl : i = 1 ∨ i = 2 := by omega
  · have := key 2 a4
    have e : ((3 : ℤ) : ZMod 31) * (toySign 0).k + 20 * 14 = 10 := by decide +kernel
    have hp : peers 2 2 = [1] := by decide
    rw [show (offlineRoom 2 toySign start).n = 2 from rfl, hp] at this
    simp only [List.map_cons, List.map_nil, List.sum_cons, List.sum_nil, Nat.sub_self, toySigma.1] at this
    rw [e] at this
    obtain ⟨-, x, y, b1, b2⟩ := this
    exact hx1 (x, y) b1 b2
  · have := key 1 a3
    have e : ((3 : ℤ) : ZMod 31) * (toySign 1).k + 20 * 21 = 29 := by decide +kernel
    have hp : peers 1 2 = [2] := by decide
    rw [show (offlineRoom 2 toySign start).n = 2 from rfl, hp] at this
    simp only [List.map_cons, List.map_nil, List.sum_cons, List.sum_nil, show 2 - 1 = 1 from rfl,
      toySigma.2] at this
    rw [e] at this
    obtain ⟨-, x, y, b1, b2⟩ := this
    exact hx2 (x, y) b1 b2

end
end Verif.Props
