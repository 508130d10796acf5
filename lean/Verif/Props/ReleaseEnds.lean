import Verif.Spec.ReleaseEnds
import Verif.Spec.Hiding
import Verif.Lemmas.Hiding
import Verif.Props.TooFewSigners
import Verif.Props.GG18

/-!
# GG18 signing clients whose shares do not make up the key (C125)
-/

namespace Verif.Demo.Sign

open EC Crypto Spec GG18 Spec.GG18

variable [Crypto] {n : ℕ} {Y : Pt} {x : ℕ → Sc} {dk : ℕ → DecKey} {s_l : List ℕ}
  {key : ℕ → Demo.Keygen.KeyFile} {rnd : ℕ → Rand} (msg : ℤ) {X yy : ℕ}

theorem round9_eq {k : ℕ} (hk : k < s_l.length) :
    round9 (s_l.length - 1) (k + 1) (cSt8 x Y s_l rnd msg X k)
      ((GG20.Sign.others s_l.length k).map (cD2 x Y s_l rnd msg X)) =
      if ∑ j ∈ Finset.range s_l.length, cRho rnd j = 0 ∨
          (∑ j ∈ Finset.range s_l.length, cS x s_l rnd msg X j) • GG20.Sign.oR s_l (conv rnd) =
            (msg : Sc) • G + (X : Sc) • Y
      then .ok (cSt9 x Y s_l rnd msg X k, [⟨k + 1, none, cS x s_l rnd msg X k⟩]) else .panic := by
  unfold round9
  rw [show (cSt8 x Y s_l rnd msg X k).decom2 = cD2 x Y s_l rnd msg X k from rfl, format_others hk,
    Res.bind_ok, mapM_get _ (by simp only [cSt8, List.length_map, List.length_range]; omega), Res.bind_ok]
  have h5d := phase5d_honest (GG20.Sign.oR s_l (conv rnd)) Y msg (x := X) (m := s_l.length) (cL rnd) (cRho rnd)
    (cS x s_l rnd msg X) (fun k => (rnd (k + 1)).blind5a) (fun k => (rnd (k + 1)).blind5c) (k := k)
  have e : (cSt8 x Y s_l rnd msg X k).opened_vec.map (·.1) =
      (List.range s_l.length).map (cD1 x s_l rnd msg X) := by
    simp only [cSt8, List.map_map]; rfl
  rw [e]
  refine (congrArg (fun a => Res.unwrap a >>= _) h5d).trans ?_
  split_ifs <;> rfl

theorem releaseEnds_eq (h : HonestRoom n Y x dk s_l key rnd)
    (hR : coords (GG20.Sign.oR s_l (conv rnd)) = some (X, yy)) (hpos : 0 < s_l.length) :
    releaseEnds (s_l.length - 1) key (fun _ => msg) rnd = .ok ((List.range s_l.length).map fun k =>
      if ∑ j ∈ Finset.range s_l.length, cRho rnd j = 0 ∨
          (∑ j ∈ Finset.range s_l.length, cS x s_l rnd msg X j) • GG20.Sign.oR s_l (conv rnd) =
            (msg : Sc) • G + (X : Sc) • Y
      then .ok [⟨k + 1, none, cS x s_l rnd msg X k⟩] else .panic) := by
  unfold releaseEnds
  simp only [Nat.sub_add_cancel hpos]
  rw [show (List.range s_l.length).map (fun k => start (k + 1) (key (k + 1))) =
      (List.range s_l.length).map (fun k => (key (k + 1),
        [(⟨k + 1, none, (key (k + 1)).party_id⟩ : Msg ℕ)])) from rfl]
  rw [runRound_broadcast (fun k => key (k + 1)) (fun k => (key (k + 1)).party_id) _
      fun k hk => round1_ok h hk, Res.bind_ok,
    runRound_broadcast _ _ _ fun k hk => round2_ok h hk, Res.bind_ok,
    runRound_p2p _ (cB x dk s_l rnd) _ fun k hk => round3_ok h hk, Res.bind_ok,
    runRound_broadcast _ _ _ fun k hk => round4_ok h hk, Res.bind_ok,
    runRound_broadcast _ _ _ fun k hk => round5_ok h msg hR hk, Res.bind_ok,
    runRound_broadcast _ _ _ fun k hk => round6_ok msg hk, Res.bind_ok,
    runRound_broadcast _ _ _ fun k hk => round7_ok msg hR hk, Res.bind_ok,
    runRound_broadcast _ _ _ fun k hk => round8_ok msg hk, Res.bind_ok]
  congr 1
  refine List.map_congr_left fun k hk => ?_
  have hk : k < s_l.length := by simpa using hk
  rw [GG20.Keygen.get_map_range hk, Res.bind_ok, List.map_map]
  have hin : inbox ((List.range s_l.length).map (Prod.snd ∘ fun k => (cSt8 x Y s_l rnd msg X k,
      [(⟨k + 1, none, cD2 x Y s_l rnd msg X k⟩ : Msg Phase5DDecom2)]))) (k + 1) =
      (GG20.Sign.others s_l.length k).map (cD2 x Y s_l rnd msg X) := inbox_broadcast ..
  rw [hin, round9_eq msg hk]
  split_ifs <;> rfl

/-- The equation compared in phase 5d, in terms of the signers' shares. -/
theorem release_equation (h : HonestRoom n Y x dk s_l key rnd) :
    ((∑ j ∈ Finset.range s_l.length, cS x s_l rnd msg X j) • GG20.Sign.oR s_l (conv rnd) =
        (msg : Sc) • G + (X : Sc) • Y) ↔
      (X : Sc) = 0 ∨ (∑ k ∈ Finset.range s_l.length, signShare x s_l k) • G = Y := by
  have hR : GG20.Sign.oR s_l (conv rnd) =
      (∑ j ∈ Finset.range s_l.length, (rnd (j + 1)).k)⁻¹ • (G : Pt) := GG20.Sign.oR_eq h.gamma_sum
  have hs : ∑ i ∈ Finset.range s_l.length, cS x s_l rnd msg X i =
      (∑ i ∈ Finset.range s_l.length, (rnd (i + 1)).k) *
        ((msg : Sc) + (X : Sc) * ∑ k ∈ Finset.range s_l.length, signShare x s_l k) := by
    have h1 := GG20.Sign.oSigma_sum x s_l (conv rnd)
    unfold cS
    rw [Finset.sum_add_distrib, ← Finset.mul_sum, ← Finset.mul_sum, h1]
    show _ + (X : Sc) * ((∑ i ∈ Finset.range s_l.length, (rnd (i + 1)).k) * _) = _
    ring
  have hk := h.k_sum
  rw [hs, hR, ← mul_smul, mul_comm, ← mul_assoc, inv_mul_cancel₀ hk, one_mul, add_smul, add_right_inj, mul_smul,
    ← sub_eq_zero, ← smul_sub, smul_eq_zero_iff, sub_eq_zero]

end Verif.Demo.Sign

namespace Verif.Props

open EC Crypto Spec Spec.GG18 Polynomial

section
variable [EC]

/-- A linear equation with a coefficient that is not 0 is met by few of the vectors without zeros. -/
theorem chance_linear {m : ℕ} (c : ℕ → Sc) {a : ℕ} (ha : a < m) (hc : c a ≠ 0) :
    chance (fun ω : Fin m → {z : Sc // z ≠ 0} => ∑ i : Fin m, (ω i : Sc) * c i = 0) ≤ 1 / (q - 1) := by
  classical
  have : NeZero q := ⟨q_pos.ne'⟩
  have hsc : (Nat.card {z : Sc // z ≠ 0} : ℚ) = (q : ℚ) - 1 := by
    rw [Nat.card_eq_fintype_card, Fintype.card_subtype_compl, ZMod.card, Fintype.card_subtype_eq,
      Nat.cast_sub q_pos, Nat.cast_one]
  have hne : Nonempty {z : Sc // z ≠ 0} := ⟨⟨1, one_ne_zero⟩⟩
  have key : Nat.card {ω : Fin m → {z : Sc // z ≠ 0} // ∑ i : Fin m, (ω i : Sc) * c i = 0} *
      Nat.card {z : Sc // z ≠ 0} ≤ Nat.card (Fin m → {z : Sc // z ≠ 0}) := by
    rw [← Nat.card_prod]
    refine Nat.card_le_card_of_injective (fun p => Function.update p.1.1 ⟨a, ha⟩ p.2) ?_
    rintro ⟨⟨ω, hω⟩, z⟩ ⟨⟨ω', hω'⟩, z'⟩ h
    dsimp only at h
    have hz : z = z' := by
      have := congrFun h ⟨a, ha⟩
      rwa [Function.update_self, Function.update_self] at this
    have ho : ∀ i, i ≠ ⟨a, ha⟩ → ω i = ω' i := by
      intro i hi
      have := congrFun h i
      rwa [Function.update_of_ne hi, Function.update_of_ne hi] at this
    have ha' : ω ⟨a, ha⟩ = ω' ⟨a, ha⟩ := by
      rw [← Finset.add_sum_erase _ _ (Finset.mem_univ ⟨a, ha⟩)] at hω hω'
      have e : ∑ i ∈ Finset.univ.erase (⟨a, ha⟩ : Fin m), (ω i : Sc) * c i =
          ∑ i ∈ Finset.univ.erase (⟨a, ha⟩ : Fin m), (ω' i : Sc) * c i :=
        Finset.sum_congr rfl fun i hi => by rw [ho i (Finset.ne_of_mem_erase hi)]
      rw [e] at hω
      exact Subtype.ext (mul_right_cancel₀ hc (add_right_cancel (hω.trans hω'.symm)))
    have : ω = ω' := by
      funext i
      by_cases hi : i = ⟨a, ha⟩
      · rw [hi, ha']
      · exact ho i hi
    subst this
    subst hz
    rfl
  have hz : (0 : ℚ) < Nat.card (Fin m → {z : Sc // z ≠ 0}) := by exact_mod_cast Nat.card_pos
  have hq1 : (0 : ℚ) < (q : ℚ) - 1 := by rw [← hsc]; exact_mod_cast Nat.card_pos
  rw [chance, div_le_div_iff₀ hz hq1, one_mul, ← hsc]
  exact_mod_cast key

end

section
variable [Crypto] {n : ℕ} {Y : Pt} {x : ℕ → Sc} {dk : ℕ → DecKey} {s_l : List ℕ}
  {key : ℕ → Demo.Keygen.KeyFile} {rnd : ℕ → Demo.Sign.Rand}

/-- **C125.** GG18 signing clients that hold the shares `x i` of the parties listed in `s_l`, however many they
are, together reach the point at which partial signatures are released. There either every client posts one
value or every client crashes and none posts anything. They post exactly if interpolation of the shares gives
the key to the public key `Y`, or the nonce point's x-coordinate is 0 modulo the group order, or the clients'
blinding values `rho` sum up to 0. -/
theorem C125_ends (h : HonestRoom n Y x dk s_l key rnd) (hpos : 0 < s_l.length) (message : ℤ) :
    ∃ xr y ends, coords ((∑ j ∈ Finset.range s_l.length, (rnd (j + 1)).k)⁻¹ • (G : Pt)) = some (xr, y) ∧
      releaseEnds (s_l.length - 1) key (fun _ => message) rnd = .ok ends ∧ ends.length = s_l.length ∧
      (((∑ i ∈ s_l.toFinset, lagrangeCoeff s_l.toFinset i * x i) • G = Y ∨ (xr : Sc) = 0 ∨
          ∑ j ∈ Finset.range s_l.length, (rnd (j + 1)).rho = 0) →
        ∀ k < s_l.length, ∃ s, ends[k]? = some (.ok [⟨k + 1, none, s⟩])) ∧
      (¬ ((∑ i ∈ s_l.toFinset, lagrangeCoeff s_l.toFinset i * x i) • G = Y ∨ (xr : Sc) = 0 ∨
          ∑ j ∈ Finset.range s_l.length, (rnd (j + 1)).rho = 0) →
        ∀ e ∈ ends, e = .panic) := by
  have hR : GG20.Sign.oR s_l (Demo.Sign.conv rnd) =
      (∑ j ∈ Finset.range s_l.length, (rnd (j + 1)).k)⁻¹ • (G : Pt) := GG20.Sign.oR_eq h.gamma_sum
  have hne : GG20.Sign.oR s_l (Demo.Sign.conv rnd) ≠ 0 := by
    rw [hR]
    intro h0
    rw [smul_G_eq_zero] at h0
    exact inv_ne_zero h.k_sum h0
  obtain ⟨xr, y, hc⟩ := exists_coords hne
  have hiff : (∑ j ∈ Finset.range s_l.length, Demo.Sign.cRho rnd j = 0 ∨
      (∑ j ∈ Finset.range s_l.length, Demo.Sign.cS x s_l rnd message xr j) •
        GG20.Sign.oR s_l (Demo.Sign.conv rnd) = (message : Sc) • G + (xr : Sc) • Y) ↔
      ((∑ i ∈ s_l.toFinset, lagrangeCoeff s_l.toFinset i * x i) • G = Y ∨ (xr : Sc) = 0 ∨
        ∑ j ∈ Finset.range s_l.length, (rnd (j + 1)).rho = 0) := by
    rw [Demo.Sign.release_equation message h, signShare_sum_eq h.nodup]
    unfold Demo.Sign.cRho
    tauto
  refine ⟨xr, y, _, hR ▸ hc, Demo.Sign.releaseEnds_eq message h hc hpos, by simp, fun hy k hk => ?_,
    fun hn e he => ?_⟩
  · rw [← hiff] at hy
    refine ⟨Demo.Sign.cS x s_l rnd message xr k, ?_⟩
    rw [List.getElem?_map, List.getElem?_range hk, Option.map_some, if_pos hy]
  · rw [← hiff] at hn
    obtain ⟨k, -, rfl⟩ := List.mem_map.1 he
    exact if_neg hn

/-- **C125**, one client too few: `t` holders of a key whose shares lie on a polynomial of degree exactly `t`
(clients started with a `params.json` whose threshold is one too small). If `rho` does not sum up to 0 and the
nonce point's x-coordinate is not 0, every client crashes and posts nothing. -/
theorem C125_one_too_few {t : ℕ} {f : Sc[X]} (hf : OnPolynomial t n x f) (hc : f.coeff t ≠ 0)
    (h : HonestRoom n (f.eval 0 • G) x dk s_l key rnd) (ht : 1 ≤ t) (hlen : s_l.length = t) (message : ℤ)
    (hrho : ∑ j ∈ Finset.range t, (rnd (j + 1)).rho ≠ 0)
    (hxr : ∀ xr y, coords ((∑ j ∈ Finset.range t, (rnd (j + 1)).k)⁻¹ • (G : Pt)) = some (xr, y) →
      (xr : Sc) ≠ 0) :
    releaseEnds (t - 1) key (fun _ => message) rnd = .ok (List.replicate t .panic) := by
  have hcard : s_l.toFinset.card = t := by rw [List.toFinset_card_of_nodup h.nodup, hlen]
  have hS : ∀ i ∈ s_l.toFinset, 1 ≤ i ∧ i ≤ n := fun i hi => h.members i (by simpa using hi)
  have hne : (∑ i ∈ s_l.toFinset, lagrangeCoeff s_l.toFinset i * x i) • (G : Pt) ≠ f.eval 0 • G := by
    rw [Ne, smul_G_inj, Finset.sum_congr rfl fun i hi => by rw [hf.2 i (hS i hi).1 (hS i hi).2]]
    exact too_few_shares h.n_lt hf.1 hc ht _ hS hcard
  obtain ⟨xr, y, ends, h1, h2, h3, -, h4⟩ := C125_ends h (by omega) message
  rw [hlen] at h1 h2 h4
  rw [h2, List.eq_replicate_iff.2 ⟨h3.trans hlen, h4 fun hor => ?_⟩]
  rcases hor with h0 | h0 | h0
  · exact hne h0
  · exact hxr xr y h1 h0
  · exact hrho h0

/-- **C125**: over the choice of the clients' blinding values `rho` (not zero), clients whose shares do not make up the key
post anything with chance at most `1 / (q - 1)`, if the nonce point's x-coordinate is not 0 modulo the group order. -/
theorem C125_chance (h : HonestRoom n Y x dk s_l key rnd) (hpos : 0 < s_l.length) (message : ℤ)
    (hne : (∑ i ∈ s_l.toFinset, lagrangeCoeff s_l.toFinset i * x i) • G ≠ Y)
    (hxr : ∀ xr y, coords ((∑ j ∈ Finset.range s_l.length, (rnd (j + 1)).k)⁻¹ • (G : Pt)) = some (xr, y) →
      (xr : Sc) ≠ 0) :
    chance (fun ω : Fin s_l.length → {z : Sc // z ≠ 0} => ∃ ends, releaseEnds (s_l.length - 1) key (fun _ => message)
        (fun i => { rnd i with rho := if hi : i - 1 < s_l.length then (ω ⟨i - 1, hi⟩ : Sc) else 0 }) = .ok ends ∧
      ∃ e ∈ ends, e ≠ .panic) ≤ 1 / (q - 1) := by
  have hroom : ∀ ω : Fin s_l.length → {z : Sc // z ≠ 0}, HonestRoom n Y x dk s_l key
      (fun i => { rnd i with rho := if hi : i - 1 < s_l.length then (ω ⟨i - 1, hi⟩ : Sc) else 0 }) := fun ω =>
    { h with
      sample := fun k hk => by
        obtain ⟨h1, h2, h3, h4, h5, h6, h7⟩ := h.sample k hk
        exact ⟨h1, h2, h3, h4, h5, h6, h7⟩ }
  have hev : (fun ω : Fin s_l.length → {z : Sc // z ≠ 0} => ∃ ends, releaseEnds (s_l.length - 1) key (fun _ => message)
        (fun i => { rnd i with rho := if hi : i - 1 < s_l.length then (ω ⟨i - 1, hi⟩ : Sc) else 0 }) = .ok ends ∧
      ∃ e ∈ ends, e ≠ .panic) = fun ω : Fin s_l.length → {z : Sc // z ≠ 0} => ∑ i : Fin s_l.length, (ω i : Sc) * 1 = 0 := by
    funext ω
    refine propext ?_
    obtain ⟨xr, y, ends, e0, e1, e2, e3, e4⟩ := C125_ends (hroom ω) hpos message
    have hsum : ∑ i ∈ Finset.range s_l.length,
        (if hi : i + 1 - 1 < s_l.length then (ω ⟨i + 1 - 1, hi⟩ : Sc) else 0) = ∑ i : Fin s_l.length, (ω i : Sc) * 1 := by
      rw [Finset.sum_range]
      refine Finset.sum_congr rfl fun i _ => ?_
      rw [dif_pos (by simp), mul_one]
      rfl
    rw [← hsum]
    constructor
    · rintro ⟨ends', h1, e, he, hpan⟩
      rw [e1] at h1
      rw [← Res.ok.inj h1] at he
      by_contra h0
      exact hpan (e4 (by rintro (h2 | h2 | h2); exacts [hne h2, hxr xr y e0 h2, h0 h2]) e he)
    · intro h0
      obtain ⟨s, hs⟩ := e3 (.inr (.inr h0)) 0 hpos
      exact ⟨ends, e1, _, List.mem_of_getElem? hs, by simp⟩
  rw [hev]
  exact chance_linear (fun _ => 1) hpos one_ne_zero

end

/-! ### Examples -/

section Examples
attribute [local instance] Toy.crypto

/-- The key file of party `i` of a 3-of-3 key with the shares `parX`: dealers 1 and 2 dealt `2 + 3 X + X²` and
`3 + 4 X`, dealer 3 the polynomial 0. -/
def parFile (i : ℕ) : Demo.Keygen.KeyFile :=
  { party_keys := GG18.Keys.create i (2 : ZMod 31) toyKey3
    shared_keys := ⟨(5 : ZMod 31), parX i⟩
    party_id := i
    vss_scheme_vec := [⟨2, 3, [(2 : ZMod 31), (3 : ZMod 31), (1 : ZMod 31)]⟩,
      ⟨2, 3, [(3 : ZMod 31), (4 : ZMod 31), (0 : ZMod 31)]⟩, ⟨2, 3, [(0 : ZMod 31), (0 : ZMod 31), (0 : ZMod 31)]⟩]
    paillier_key_vector := [toyKey3.n, toyKey3.n, toyKey3.n]
    y_sum := (5 : ZMod 31) }

theorem parRoom : HonestRoom 3 ((5 : ZMod 31) • (G : Pt)) parX (fun _ => toyKey3) [3, 1]
    (fun k => parFile ([3, 1].getD (k - 1) 0)) toyRoom :=
  { n_lt := by decide, n_u16 := by decide, nodup := by decide, members := by decide
    holds := by
      intro k hk
      have hb : ∀ k < [3, 1].length, 1 ≤ [3, 1].getD k 0 ∧ [3, 1].getD k 0 ≤ 3 := by decide
      refine ⟨(hb k hk).1, (hb k hk).2, rfl, by show (5 : ZMod 31) = _; decide, rfl, rfl, rfl, rfl, rfl,
        by simp [parFile], fun j h1 h2 => ?_⟩
      show ((parFile 1).vss_scheme_vec.map (fun v => feldmanEval v.commitments (j : ZMod 31))).sum = _
      interval_cases j <;> decide
    dk_valid := fun _ _ _ => toyKey3_valid
    sample := fun k _ => toyRoom_honest (fun j hj => by decide) _ k
    k_sum := by decide
    gamma_sum := by decide }

/-- The clients 3 and 1 of a 3-of-3 key, started with threshold 1. -/
example : releaseEnds 1 (fun k => parFile ([3, 1].getD (k - 1) 0)) (fun _ => 10) toyRoom = .ok [.panic, .panic] := by
  have h0 : (C (5 : ZMod 31) + C (7 : ZMod 31) * X + X ^ 2).eval 0 = 5 := by simp
  refine C125_one_too_few parX_poly (by simp) (by rw [h0]; exact parRoom) (by decide) rfl 10 (by decide) ?_
  intro xr y h
  have : ∀ xy ∈ coords ((∑ j ∈ Finset.range 2, (toyRoom (j + 1)).k)⁻¹ • (G : Pt)),
    (xy.1 : ZMod 31) ≠ 0 := by decide +kernel
  exact this (xr, y) h

/-- Over their blinding values, the same clients post something with chance at most 1 / 30. -/
example : chance (fun ω : Fin 2 → {z : ZMod 31 // z ≠ 0} => ∃ ends,
      releaseEnds 1 (fun k => parFile ([3, 1].getD (k - 1) 0)) (fun _ => 10)
        (fun i => { toyRoom i with rho := if hi : i - 1 < 2 then (ω ⟨i - 1, hi⟩ : ZMod 31) else 0 }) = .ok ends ∧
      ∃ e ∈ ends, e ≠ .panic) ≤ 1 / (31 - 1) := by
  refine C125_chance parRoom (by decide) 10 ?_ ?_
  · rw [Ne, smul_G_inj]
    have h0 : (C (5 : ZMod 31) + C (7 : ZMod 31) * X + X ^ 2).eval 0 = (5 : ZMod 31) := by simp
    have := too_few_shares (n := 3) (by decide) parX_poly.1 (by simp) (by decide) [3, 1].toFinset (by decide)
      (by decide)
    rw [h0] at this
    rw [Finset.sum_congr rfl fun i hi => by
      rw [parX_poly.2 i ((by decide : ∀ i ∈ [3, 1].toFinset, 1 ≤ i) i hi)
        ((by decide : ∀ i ∈ [3, 1].toFinset, i ≤ 3) i hi)]]
    exact this
  · intro xr y h
    have : ∀ xy ∈ coords ((∑ j ∈ Finset.range 2, (toyRoom (j + 1)).k)⁻¹ • (G : Pt)),
      (xy.1 : ZMod 31) ≠ 0 := by decide +kernel
    exact this (xr, y) h

/-- With blinding values 10 and 21, whose sum is 0 modulo 31, the same clients post their partial signatures. -/
theorem C125_zero_blinding :
    HonestRoom 3 ((5 : ZMod 31) • (G : Pt)) parX (fun _ => toyKey3) [3, 1]
      (fun k => parFile ([3, 1].getD (k - 1) 0))
      (fun i => { toyRoom i with rho := if i = 1 then (10 : ZMod 31) else (21 : ZMod 31) }) ∧
    (∑ i ∈ [3, 1].toFinset, lagrangeCoeff [3, 1].toFinset i * parX i) • (G : Pt) ≠ (5 : ZMod 31) • (G : Pt) ∧
    ∃ s s', releaseEnds 1 (fun k => parFile ([3, 1].getD (k - 1) 0)) (fun _ => 10)
      (fun i => { toyRoom i with rho := if i = 1 then (10 : ZMod 31) else (21 : ZMod 31) }) =
      .ok [.ok [⟨1, none, s⟩], .ok [⟨2, none, s'⟩]] := by
  have h : HonestRoom 3 ((5 : ZMod 31) • (G : Pt)) parX (fun _ => toyKey3) [3, 1]
      (fun k => parFile ([3, 1].getD (k - 1) 0))
      (fun i => { toyRoom i with rho := if i = 1 then (10 : ZMod 31) else (21 : ZMod 31) }) :=
    { parRoom with
      sample := fun k hk => by
        obtain ⟨h1, h2, h3, h4, h5, h6, h7⟩ := parRoom.sample k hk
        exact ⟨h1, h2, h3, h4, h5, h6, h7⟩ }
  refine ⟨h, ?_, ?_⟩
  · rw [Ne, smul_G_inj]
    have h0 : (C (5 : ZMod 31) + C (7 : ZMod 31) * X + X ^ 2).eval 0 = (5 : ZMod 31) := by simp
    have := too_few_shares (n := 3) (by decide) parX_poly.1 (by simp) (by decide) [3, 1].toFinset (by decide)
      (by decide)
    rw [h0] at this
    rw [Finset.sum_congr rfl fun i hi => by
      rw [parX_poly.2 i ((by decide : ∀ i ∈ [3, 1].toFinset, 1 ≤ i) i hi)
        ((by decide : ∀ i ∈ [3, 1].toFinset, i ≤ 3) i hi)]]
    exact this
  · obtain ⟨xr, y, ends, -, h2, h3, h4, -⟩ := C125_ends h (by decide) 10
    have hz : ∑ j ∈ Finset.range [3, 1].length, (if j + 1 = 1 then (10 : ZMod 31) else (21 : ZMod 31)) = 0 := by
      decide
    have h5 := h4 (Or.inr (Or.inr hz))
    obtain ⟨s, hs⟩ := h5 0 (by decide)
    obtain ⟨s', hs'⟩ := h5 1 (by decide)
    refine ⟨s, s', h2.trans (congrArg Res.ok ?_)⟩
    match ends, h3, hs, hs' with
    | [a, b], _, hs, hs' => rw [Option.some.inj hs, Option.some.inj hs']

end Examples
end Verif.Props
