import Verif.Spec.MixedMessages
import Verif.Lemmas.MixedMessages
import Verif.Props.ReleaseEnds
import Verif.Props.OneSignature

/-!
# Signers that were given different messages (C127)
-/

namespace Verif.Demo.Sign

open EC Crypto Spec GG18 Spec.GG18

variable [Crypto] {n : ℕ} {Y : Pt} {x : ℕ → Sc} {dk : ℕ → DecKey} {s_l : List ℕ}
  {key : ℕ → Demo.Keygen.KeyFile} {rnd : ℕ → Rand} (message : ℕ → ℤ) {X yy : ℕ}

theorem releaseEnds_mixed (h : HonestRoom n Y x dk s_l key rnd)
    (hR : coords (GG20.Sign.oR s_l (conv rnd)) = some (X, yy)) (hpos : 0 < s_l.length) :
    releaseEnds (s_l.length - 1) key message rnd = .ok ((List.range s_l.length).map fun k =>
      if ∑ k ∈ Finset.range s_l.length, cRho rnd k • ((message (k + 1) : Sc) • G + (X : Sc) • Y -
          (∑ j ∈ Finset.range s_l.length, mS x s_l rnd (fun k => message (k + 1)) X j) •
            GG20.Sign.oR s_l (conv rnd)) = 0
      then .ok [⟨k + 1, none, mS x s_l rnd (fun k => message (k + 1)) X k⟩] else .panic) := by
  unfold releaseEnds
  simp only [Nat.sub_add_cancel hpos]
  rw [show (List.range s_l.length).map (fun k => start (k + 1) (key (k + 1))) =
      (List.range s_l.length).map (fun k => (key (k + 1),
        [(⟨k + 1, none, (key (k + 1)).party_id⟩ : Msg ℕ)])) from rfl]
  rw [runRound_broadcast (fun k => key (k + 1)) (fun k => (key (k + 1)).party_id) _
      fun k hk => round1_ok h hk, Res.bind_ok,
    runRound_broadcast _ _ _ fun k hk => round2_ok h hk, Res.bind_ok,
    runRound_p2p _ (cB x dk s_l rnd) _ fun k hk => round3_ok h hk, Res.bind_ok,
    runRound_broadcast _ _ _ fun k hk => round4_ok h hk, Res.bind_ok,
    runRound_broadcast (step := fun i => round5 (message i) rnd i) (cSt4 n x dk s_l key rnd) (cDec rnd) _
      fun k hk => round5_mixed h (fun k => message (k + 1)) hR hk, Res.bind_ok,
    runRound_broadcast _ _ _ fun k hk => round6_mixed (fun k => message (k + 1)) hk, Res.bind_ok,
    runRound_broadcast _ _ _ fun k hk => round7_mixed (fun k => message (k + 1)) hR hk, Res.bind_ok,
    runRound_broadcast _ _ _ fun k hk => round8_mixed (fun k => message (k + 1)) hk, Res.bind_ok]
  congr 1
  refine List.map_congr_left fun k hk => ?_
  have hk : k < s_l.length := by simpa using hk
  rw [GG20.Keygen.get_map_range hk, Res.bind_ok, List.map_map]
  have hin : inbox ((List.range s_l.length).map (Prod.snd ∘ fun k =>
      (mSt8 x Y s_l rnd (fun k => message (k + 1)) X k,
      [(⟨k + 1, none, mD2 x Y s_l rnd (fun k => message (k + 1)) X k⟩ : Msg Phase5DDecom2)]))) (k + 1) =
      (GG20.Sign.others s_l.length k).map (mD2 x Y s_l rnd (fun k => message (k + 1)) X) := inbox_broadcast ..
  rw [hin, round9_mixed (fun k => message (k + 1)) hk]
  split_ifs <;> rfl

/-- The equation compared in phase 5d, when the shares make up the key. -/
theorem release_equation_mixed (h : HonestRoom n Y x dk s_l key rnd) {d : Sc}
    (hd : ∑ k ∈ Finset.range s_l.length, signShare x s_l k = d) (hY : Y = d • G) :
    (∑ k ∈ Finset.range s_l.length, cRho rnd k • ((message (k + 1) : Sc) • G + (X : Sc) • Y -
          (∑ j ∈ Finset.range s_l.length, mS x s_l rnd (fun k => message (k + 1)) X j) •
            GG20.Sign.oR s_l (conv rnd)) = 0) ↔
      ∑ i ∈ Finset.range s_l.length, (rnd (i + 1)).rho *
        ∑ j ∈ Finset.range s_l.length, ((message (i + 1) : Sc) - (message (j + 1) : Sc)) * (rnd (j + 1)).k = 0 := by
  have hR : GG20.Sign.oR s_l (conv rnd) =
      (∑ j ∈ Finset.range s_l.length, (rnd (j + 1)).k)⁻¹ • (G : Pt) := GG20.Sign.oR_eq h.gamma_sum
  have hs : ∑ i ∈ Finset.range s_l.length, mS x s_l rnd (fun k => message (k + 1)) X i =
      ∑ i ∈ Finset.range s_l.length, (message (i + 1) : Sc) * (rnd (i + 1)).k +
        (X : Sc) * ((∑ i ∈ Finset.range s_l.length, (rnd (i + 1)).k) * d) := by
    have h1 := GG20.Sign.oSigma_sum x s_l (conv rnd)
    unfold mS
    rw [Finset.sum_add_distrib, ← Finset.mul_sum, h1, hd]
    rfl
  have hk := h.k_sum
  set K := ∑ j ∈ Finset.range s_l.length, (rnd (j + 1)).k with hK
  have e : ∀ i : ℕ, cRho rnd i • ((message (i + 1) : Sc) • G + (X : Sc) • Y -
      (∑ j ∈ Finset.range s_l.length, mS x s_l rnd (fun k => message (k + 1)) X j) •
        GG20.Sign.oR s_l (conv rnd)) =
      (K⁻¹ * ((rnd (i + 1)).rho * ∑ j ∈ Finset.range s_l.length,
        ((message (i + 1) : Sc) - (message (j + 1) : Sc)) * (rnd (j + 1)).k)) • (G : Pt) := by
    intro i
    rw [hs, hR, hY, ← mul_smul, ← mul_smul, ← add_smul, ← sub_smul, ← mul_smul]
    congr 1
    simp only [sub_mul, Finset.sum_sub_distrib, ← Finset.mul_sum, ← hK]
    show (rnd (i + 1)).rho * _ = _
    field_simp
    ring
  rw [Finset.sum_congr rfl fun i _ => e i, ← Finset.sum_smul, smul_G_eq_zero, ← Finset.mul_sum,
    mul_eq_zero, or_iff_right (inv_ne_zero hk)]

end Verif.Demo.Sign

namespace Verif.Props

open EC Crypto Spec Spec.GG18 Polynomial

section
variable [Crypto] {n t : ℕ} {d : Sc} {x : ℕ → Sc} {dk : ℕ → DecKey} {s_l : List ℕ}
  {key : ℕ → Demo.Keygen.KeyFile} {rnd : ℕ → Demo.Sign.Rand}

/-- **C127** (GG18). Honest clients, enough of them for the key; client number `i` was started with the message
`message i`. They all reach the release of the partial signatures. There either every client posts its partial
signature or every client crashes and none posts anything; they post exactly if the blinding values and nonces
meet one linear equation, which they always do if the messages are equal. -/
theorem C127_gg18_ends (h : HonestRoom n (d • G) x dk s_l key rnd) (hx : Reconstructs t n x d)
    (hlen : t + 1 ≤ s_l.length) (message : ℕ → ℤ) :
    ∃ ends, releaseEnds (s_l.length - 1) key message rnd = .ok ends ∧ ends.length = s_l.length ∧
      (∑ i ∈ Finset.range s_l.length, (rnd (i + 1)).rho * ∑ j ∈ Finset.range s_l.length,
          ((message (i + 1) : Sc) - (message (j + 1) : Sc)) * (rnd (j + 1)).k = 0 →
        ∀ k < s_l.length, ∃ s, ends[k]? = some (.ok [⟨k + 1, none, s⟩])) ∧
      (∑ i ∈ Finset.range s_l.length, (rnd (i + 1)).rho * ∑ j ∈ Finset.range s_l.length,
          ((message (i + 1) : Sc) - (message (j + 1) : Sc)) * (rnd (j + 1)).k ≠ 0 →
        ∀ e ∈ ends, e = .panic) := by
  have hR : GG20.Sign.oR s_l (Demo.Sign.conv rnd) =
      (∑ j ∈ Finset.range s_l.length, (rnd (j + 1)).k)⁻¹ • (G : Pt) := GG20.Sign.oR_eq h.gamma_sum
  have hne : GG20.Sign.oR s_l (Demo.Sign.conv rnd) ≠ 0 := by
    rw [hR]
    intro h0
    rw [smul_G_eq_zero] at h0
    exact inv_ne_zero h.k_sum h0
  obtain ⟨xr, y, hc⟩ := exists_coords hne
  have hiff := Demo.Sign.release_equation_mixed (X := xr) message h
    (GG20.Sign.signShare_sum h.members h.nodup hx hlen) rfl
  refine ⟨_, Demo.Sign.releaseEnds_mixed message h hc (by omega), by simp, fun hy k hk => ?_,
    fun hn e he => ?_⟩
  · rw [← hiff] at hy
    refine ⟨Demo.Sign.mS x s_l rnd (fun k => message (k + 1)) xr k, ?_⟩
    rw [List.getElem?_map, List.getElem?_range hk, Option.map_some, if_pos hy]
  · rw [Ne, ← hiff] at hn
    obtain ⟨k, -, rfl⟩ := List.mem_map.1 he
    exact if_neg hn

/-- **C127** (GG18). Two of the clients were given messages that differ modulo the group order: over the choice of
the clients' blinding values `rho` (not zero), the chance that anybody posts a partial signature is at most
`1 / (q - 1)`. -/
theorem C127_gg18_chance (h : HonestRoom n (d • G) x dk s_l key rnd) (hx : Reconstructs t n x d)
    (hlen : t + 1 ≤ s_l.length) (message : ℕ → ℤ) {a b : ℕ} (ha : a < s_l.length) (hb : b < s_l.length)
    (hab : (message (a + 1) : Sc) ≠ (message (b + 1) : Sc)) :
    chance (fun ω : Fin s_l.length → {z : Sc // z ≠ 0} => ∃ ends, releaseEnds (s_l.length - 1) key message
        (fun i => { rnd i with rho := if hi : i - 1 < s_l.length then (ω ⟨i - 1, hi⟩ : Sc) else 0 }) = .ok ends ∧
      ∃ e ∈ ends, e ≠ .panic) ≤ 1 / (q - 1) := by
  have hroom : ∀ ω : Fin s_l.length → {z : Sc // z ≠ 0}, HonestRoom n (d • G) x dk s_l key
      (fun i => { rnd i with rho := if hi : i - 1 < s_l.length then (ω ⟨i - 1, hi⟩ : Sc) else 0 }) := fun ω =>
    { h with
      sample := fun k hk => by
        obtain ⟨h1, h2, h3, h4, h5, h6, h7⟩ := h.sample k hk
        exact ⟨h1, h2, h3, h4, h5, h6, h7⟩ }
  set c : ℕ → Sc := fun i => ∑ j ∈ Finset.range s_l.length,
    ((message (i + 1) : Sc) - (message (j + 1) : Sc)) * (rnd (j + 1)).k with hcdef
  have hcab : c a ≠ 0 ∨ c b ≠ 0 := by
    by_contra hcon
    simp only [not_or, not_not] at hcon
    have : ((message (a + 1) : Sc) - (message (b + 1) : Sc)) *
        ∑ j ∈ Finset.range s_l.length, (rnd (j + 1)).k = c a - c b := by
      rw [hcdef]
      simp only
      rw [← Finset.sum_sub_distrib, Finset.mul_sum]
      exact Finset.sum_congr rfl fun j _ => by ring
    rw [hcon.1, hcon.2, sub_zero, mul_eq_zero, sub_eq_zero] at this
    rcases this with h0 | h0
    · exact hab h0
    · exact h.k_sum h0
  have hev : (fun ω : Fin s_l.length → {z : Sc // z ≠ 0} => ∃ ends, releaseEnds (s_l.length - 1) key message
        (fun i => { rnd i with rho := if hi : i - 1 < s_l.length then (ω ⟨i - 1, hi⟩ : Sc) else 0 }) = .ok ends ∧
      ∃ e ∈ ends, e ≠ .panic) = fun ω : Fin s_l.length → {z : Sc // z ≠ 0} => ∑ i : Fin s_l.length, (ω i : Sc) * c i = 0 := by
    funext ω
    refine propext ?_
    obtain ⟨ends, e1, e2, e3, e4⟩ := C127_gg18_ends (hroom ω) hx hlen message
    have hsum : ∑ i ∈ Finset.range s_l.length,
        (if hi : i + 1 - 1 < s_l.length then (ω ⟨i + 1 - 1, hi⟩ : Sc) else 0) * c i =
        ∑ i : Fin s_l.length, (ω i : Sc) * c i := by
      rw [Finset.sum_range]
      refine Finset.sum_congr rfl fun i _ => ?_
      rw [dif_pos (by simp)]
      rfl
    rw [← hsum]
    constructor
    · rintro ⟨ends', h1, e, he, hne⟩
      rw [e1] at h1
      rw [← Res.ok.inj h1] at he
      by_contra h0
      exact hne (e4 h0 e he)
    · intro h0
      obtain ⟨s, hs⟩ := e3 h0 a ha
      exact ⟨ends, e1, _, List.mem_of_getElem? hs, by simp⟩
  rw [hev]
  rcases hcab with h0 | h0
  · exact chance_linear c ha h0
  · exact chance_linear c hb h0

end

section
variable [EC]

/-- A verification with the x-coordinate of `R` says that `s R` is the expected point or its inverse, except for
the very few points whose x-coordinate is not determined by its remainder modulo the group order. -/
theorem ecdsaEq_at {Y R : Pt} {m : ℤ} {x y : ℕ} {s : Sc} (hR : coords R = some (x, y)) (hx : x < q)
    (hx' : p ≤ x + q) : EcdsaEq Y m (x : Sc) s ↔ s ≠ 0 ∧ (s • R = (m : Sc) • G + (x : Sc) • Y ∨
      s • R = -((m : Sc) • G + (x : Sc) • Y)) := by
  constructor
  · rintro ⟨hs, x1, y1, hc, he⟩
    have hlt := (coords_lt _ _ _ hc).1
    have hxe : x1 = x := by
      have h2 := (ZMod.natCast_eq_natCast_iff' _ _ _).1 he
      rw [Nat.mod_eq_of_lt hx] at h2
      rcases Nat.lt_or_ge x1 q with h3 | h3
      · rwa [Nat.mod_eq_of_lt h3] at h2
      · have := Nat.mod_add_div x1 q
        have h4 : 1 ≤ x1 / q := (Nat.one_le_div_iff q_pos).2 h3
        have := Nat.mul_le_mul_left q h4
        omega
    subst hxe
    have hP : (m : Sc) • G + (x1 : Sc) • Y = s • (((m : Sc) / s) • (G : Pt) + ((x1 : Sc) / s) • Y) := by
      rw [smul_add, ← mul_smul, ← mul_smul, mul_div_cancel₀ _ hs, mul_div_cancel₀ _ hs]
    refine ⟨hs, ?_⟩
    rw [hP]
    rcases x_inj _ _ _ _ _ hR hc with h | h
    · exact .inl (by rw [h])
    · exact .inr (by rw [h, smul_neg, neg_neg])
  · rintro ⟨hs, h | h⟩
    · exact GG20.Sign.ecdsaEq_of_eq hR hs h
    · rw [← ecdsaEq_neg]
      exact GG20.Sign.ecdsaEq_of_eq hR (neg_ne_zero.2 hs) (by rw [neg_smul, h, neg_neg])

end

section
variable [Crypto] {n t : ℕ} {d : Sc} {x : ℕ → Sc} {dk : ℕ → DecKey} {sts : List DLogStatement} {s_l : List ℕ}
  {key : ℕ → GG20.LocalKey} {rnd : ℕ → GG20.SignRandomness}

open GG20 GG20.Sign

/-- The online stage over completed offline stages with a common nonce point. -/
theorem onlineEnds_eq {m : ℕ} {message : ℕ → ℤ} {R Y : Pt} {k sigma : ℕ → Sc} {x y : ℕ}
    (hR : coords R = some (x, y)) :
    onlineEnds message ((List.range m).map (fun i => ⟨k i, R, sigma i, Y⟩)) =
      .ok ((List.range m).map (fun j => SignManual.complete
        ⟨(x : Sc), R, (message j : Sc) * k j + (x : Sc) * sigma j, message j, Y⟩
        ((Sign.others m j).map (fun i => (message i : Sc) * k i + (x : Sc) * sigma i)))) := by
  unfold onlineEnds
  rw [List.length_map, List.length_range, Res.mapM_ok_of_forall (g := fun i =>
      ((⟨(x : Sc), R, (message i : Sc) * k i + (x : Sc) * sigma i, message i, Y⟩ : LocalSignature),
        (message i : Sc) * k i + (x : Sc) * sigma i)) fun i hi => by
      rw [Keygen.get_map_range (by simpa using hi), Res.bind_ok]; exact new_eq hR, Res.bind_ok]
  congr 1
  refine List.map_congr_left fun i hi => ?_
  have hi : i < m := by simpa using hi
  rw [Keygen.get_map_range hi, Res.bind_ok, List.map_map]
  congr 1
  unfold Sign.others
  rw [filter_range_ne hi, ← List.eraseIdx_map]
  rfl

/-- **C127** (GG20). Honest signers, enough of them for the key; the signer at position `j` was given the message
`message j`. Let `x` be the x-coordinate of the nonce point and `x < q`, `p ≤ x + q` (all but very few points).
A signer gets a signature exactly if the partial signatures do not sum up to 0 and the nonces meet one of two
linear equations. -/
theorem C127_gg20_ends (h : HonestSigners n (d • G) x dk sts s_l key rnd) (hx : Reconstructs t n x d)
    (hlen : t + 1 ≤ s_l.length) (message : ℕ → ℤ) {xr y : ℕ}
    (hR : coords ((∑ j ∈ Finset.range s_l.length, (rnd j).k)⁻¹ • (G : Pt)) = some (xr, y)) (hxr : xr < q)
    (hxr' : p ≤ xr + q) :
    ∃ cs ends, offline s_l key rnd = .ok cs ∧ onlineEnds message cs = .ok ends ∧ ends.length = s_l.length ∧
      ∀ j < s_l.length, (∃ sig, ends[j]? = some (.ok sig)) ↔
        (∑ i ∈ Finset.range s_l.length, (message i : Sc) * (rnd i).k +
            (xr : Sc) * ((∑ i ∈ Finset.range s_l.length, (rnd i).k) * d) ≠ 0 ∧
          (∑ i ∈ Finset.range s_l.length, ((message i : Sc) - (message j : Sc)) * (rnd i).k = 0 ∨
            ∑ i ∈ Finset.range s_l.length, ((message i : Sc) + (message j : Sc)) * (rnd i).k +
              2 * (xr : Sc) * ((∑ i ∈ Finset.range s_l.length, (rnd i).k) * d) = 0)) := by
  have hd := signShare_sum h.members h.nodup hx hlen
  have hoR : oR s_l rnd = (∑ j ∈ Finset.range s_l.length, (rnd j).k)⁻¹ • (G : Pt) := oR_eq h.gamma_sum
  rw [← hoR] at hR
  refine ⟨_, _, offline_eq h hd rfl, onlineEnds_eq hR, by simp, fun j hj => ?_⟩
  have hsum := sum_others hj (fun i => (message i : Sc) * (rnd i).k + (xr : Sc) * oSigma x s_l rnd i)
  have htot : ∑ i ∈ Finset.range s_l.length, ((message i : Sc) * (rnd i).k + (xr : Sc) * oSigma x s_l rnd i) =
      ∑ i ∈ Finset.range s_l.length, (message i : Sc) * (rnd i).k +
            (xr : Sc) * ((∑ i ∈ Finset.range s_l.length, (rnd i).k) * d) := by
    rw [Finset.sum_add_distrib, ← Finset.mul_sum, oSigma_sum, hd]
  have hK := h.k_sum
  set K := ∑ i ∈ Finset.range s_l.length, (rnd i).k with hKdef
  set S := ∑ i ∈ Finset.range s_l.length, (message i : Sc) * (rnd i).k + (xr : Sc) * (K * d) with hS
  have hval : ∀ c : Sc, S • oR s_l rnd = c • (G : Pt) ↔ S = c * K := by
    intro c
    rw [hoR, ← mul_smul, smul_G_inj, ← div_eq_mul_inv, div_eq_iff hK]
  have e : (∃ sig, SignManual.complete
      ⟨(xr : Sc), oR s_l rnd, (message j : Sc) * (rnd j).k + (xr : Sc) * oSigma x s_l rnd j, message j, d • G⟩
      ((Sign.others s_l.length j).map (fun i => (message i : Sc) * (rnd i).k + (xr : Sc) * oSigma x s_l rnd i)) =
        .ok sig) ↔ EcdsaEq (d • G) (message j) (xr : Sc) S := by
    have e1 := fun sig => gg20_output_ok_iff
      ⟨(xr : Sc), oR s_l rnd, (message j : Sc) * (rnd j).k + (xr : Sc) * oSigma x s_l rnd j, message j, d • G⟩
      ((Sign.others s_l.length j).map (fun i => (message i : Sc) * (rnd i).k + (xr : Sc) * oSigma x s_l rnd i)) hR sig
    dsimp only at e1
    unfold Sign.others at *
    simp only [hsum, htot] at e1
    constructor
    · rintro ⟨sig, hs⟩
      exact ((e1 sig).1 hs).1
    · intro he
      exact ⟨_, (e1 _).2 ⟨he, rfl⟩⟩
  rw [List.getElem?_map, List.getElem?_range hj, Option.map_some]
  simp only [Option.some.injEq]
  rw [e, ecdsaEq_at hR hxr hxr', ← mul_smul, ← add_smul, ← neg_smul, hval, hval]
  refine and_congr_right fun _ => or_congr ?_ ?_
  · rw [← sub_eq_zero]
    refine Eq.congr ?_ rfl
    simp only [sub_mul, Finset.sum_sub_distrib, ← Finset.mul_sum, ← hKdef, hS]
    ring
  · rw [← sub_eq_zero]
    refine Eq.congr ?_ rfl
    simp only [add_mul, Finset.sum_add_distrib, ← Finset.mul_sum, ← hKdef, hS]
    ring

/-- **C127** (GG20). Two signers `a` and `b` were given messages that differ modulo the group order. Among the runs
that differ only in how the nonce is divided between these two, at most two (of `q`) let the signer `j`, whoever it
is, get a signature. -/
theorem C127_gg20_few (hx : Reconstructs t n x d) (hlen : t + 1 ≤ s_l.length) (message : ℕ → ℤ) {a b j : ℕ}
    (ha : a < s_l.length) (hb : b < s_l.length) (hj : j < s_l.length)
    (hab : (message a : Sc) ≠ (message b : Sc)) {xr y : ℕ}
    (hR : coords ((∑ j ∈ Finset.range s_l.length, (rnd j).k)⁻¹ • (G : Pt)) = some (xr, y)) (hxr : xr < q)
    (hxr' : p ≤ xr + q) :
    {δ : Sc | ∃ rnd', rnd' = (fun i => { rnd i with k :=
          if i = a then (rnd i).k + δ else if i = b then (rnd i).k - δ else (rnd i).k }) ∧
        HonestSigners n (d • G) x dk sts s_l key rnd' ∧
        ∃ cs ends sig, offline s_l key rnd' = .ok cs ∧ onlineEnds message cs = .ok ends ∧
          ends[j]? = some (.ok sig)}.ncard ≤ 2 := by
  have hne : a ≠ b := fun e => hab (by rw [e])
  have hsub : (message a : Sc) - (message b : Sc) ≠ 0 := sub_ne_zero.2 hab
  have shift : ∀ (c : ℕ → Sc) (δ : Sc), ∑ i ∈ Finset.range s_l.length, c i *
      (if i = a then (rnd i).k + δ else if i = b then (rnd i).k - δ else (rnd i).k) =
      ∑ i ∈ Finset.range s_l.length, c i * (rnd i).k + (c a - c b) * δ := by
    intro c δ
    have e : ∀ i ∈ Finset.range s_l.length, c i *
        (if i = a then (rnd i).k + δ else if i = b then (rnd i).k - δ else (rnd i).k) =
        c i * (rnd i).k + ((if i = a then c a * δ else 0) - (if i = b then c b * δ else 0)) := by
      intro i _
      by_cases h1 : i = a
      · subst h1; rw [if_pos rfl, if_pos rfl, if_neg hne]; ring
      · by_cases h2 : i = b
        · subst h2; rw [if_neg h1, if_pos rfl, if_neg h1, if_pos rfl]; ring
        · rw [if_neg h1, if_neg h2, if_neg h1, if_neg h2]; ring
    rw [Finset.sum_congr rfl e, Finset.sum_add_distrib, Finset.sum_sub_distrib, Finset.sum_ite_eq',
      Finset.sum_ite_eq', if_pos (by simpa using ha), if_pos (by simpa using hb)]
    ring
  set K := ∑ i ∈ Finset.range s_l.length, (rnd i).k with hK
  refine (Set.ncard_le_ncard (t := {-(∑ i ∈ Finset.range s_l.length,
      ((message i : Sc) - (message j : Sc)) * (rnd i).k) / ((message a : Sc) - (message b : Sc)),
      -(∑ i ∈ Finset.range s_l.length, ((message i : Sc) + (message j : Sc)) * (rnd i).k +
        2 * (xr : Sc) * (K * d)) / ((message a : Sc) - (message b : Sc))}) ?_ (Set.toFinite _)).trans
    ((Set.ncard_insert_le _ _).trans (by rw [Set.ncard_singleton]))
  rintro δ ⟨rnd', rfl, hon, cs, ends, sig, h1, h2, h3⟩
  have hKs : ∑ i ∈ Finset.range s_l.length,
      (if i = a then (rnd i).k + δ else if i = b then (rnd i).k - δ else (rnd i).k) = K := by
    have := shift (fun _ => 1) δ
    simpa using this
  obtain ⟨cs', ends', e1, e2, -, e3⟩ := C127_gg20_ends hon hx hlen message (xr := xr) (y := y)
    (by dsimp only; rw [hKs]; exact hR) hxr hxr'
  rw [e1] at h1
  cases h1
  rw [e2] at h2
  cases h2
  have h4 := ((e3 j hj).1 ⟨sig, h3⟩).2
  dsimp only at h4
  rw [shift (fun i => (message i : Sc) - (message j : Sc)), shift (fun i => (message i : Sc) + (message j : Sc)),
    hKs] at h4
  rw [Set.mem_insert_iff, Set.mem_singleton_iff, eq_div_iff hsub, eq_div_iff hsub]
  rcases h4 with h4 | h4
  · left; linear_combination h4
  · right; linear_combination h4

end

/-! ### Examples -/

section Examples
attribute [local instance] Toy.crypto

/-- C127: the GG18 room of C51, one client was started with the message 10 and the other with 11. -/
example : releaseEnds 1 (fun k => Demo.Keygen.kFile 1 3 toyKg ([3, 1].getD (k - 1) 0 - 1)) (fun i => 9 + i) toyRoom =
    .ok [.panic, .panic] := by
  obtain ⟨x, dk, h, hx⟩ := toyRoom_room
  obtain ⟨ends, h1, h2, -, h4⟩ := C127_gg18_ends h hx (by decide) (fun i => 9 + i)
  refine h1.trans (congrArg Res.ok ?_)
  rw [List.eq_replicate_iff.2 ⟨h2, h4 (by decide)⟩]
  rfl

/-- C127: over their blinding values, with chance at most 1 / 30 the two clients post something. -/
example : chance (fun ω : Fin 2 → {z : ZMod 31 // z ≠ 0} => ∃ ends,
      releaseEnds 1 (fun k => Demo.Keygen.kFile 1 3 toyKg ([3, 1].getD (k - 1) 0 - 1)) (fun i => 9 + i)
        (fun i => { toyRoom i with rho := if hi : i - 1 < 2 then (ω ⟨i - 1, hi⟩ : ZMod 31) else 0 }) = .ok ends ∧
      ∃ e ∈ ends, e ≠ .panic) ≤ 1 / (31 - 1) := by
  obtain ⟨x, dk, h, hx⟩ := toyRoom_room
  exact C127_gg18_chance h hx (by decide) (fun i => 9 + i) (a := 0) (b := 1) (by decide) (by decide) (by decide)

theorem toyHonest_nonce : coords ((∑ j ∈ Finset.range [3, 1].length, (toySign j).k)⁻¹ • (G : Pt)) =
    some (20, 40) := by decide +kernel

/-- C127: in the session of C39, one signer was given the message 10 and the other 11. Neither gets a signature. -/
example : ∃ cs ends, GG20.Sign.offline [3, 1] (fun k => toyLocal ([3, 1].getD k 0)) toySign = .ok cs ∧
    onlineEnds (fun k => 10 + k) cs = .ok ends ∧ ends.length = 2 ∧
    ∀ j < 2, ¬ ∃ sig, ends[j]? = some (.ok sig) := by
  have hrec := toyX_poly.reconstructs (by decide)
  have h0 : (Polynomial.C (5 : ZMod 31) + Polynomial.C (7 : ZMod 31) * Polynomial.X).eval 0 = 5 := by simp
  obtain ⟨cs, ends, h1, h2, h3, h4⟩ := C127_gg20_ends toyHonest (h0 ▸ hrec) (by decide) (fun k => 10 + k)
    toyHonest_nonce (by decide) (by decide)
  refine ⟨cs, ends, h1, h2, h3, fun j hj => ?_⟩
  rw [h4 j hj]
  revert j
  decide

example := C127_gg20_few (x := toyX) (dk := fun _ => toyKey) (sts := [toySt, toySt, toySt]) (s_l := [3, 1])
  (key := fun k => toyLocal ([3, 1].getD k 0)) (toyX_poly.reconstructs (by decide)) (by decide)
  (fun k => 10 + k) (a := 0) (b := 1) (j := 0) (by decide) (by decide) (by decide) (by decide)
  toyHonest_nonce (by decide) (by decide)

end Examples
end Verif.Props
