import Verif.Spec.RareRecid
import Verif.Props.TwoPartyReliability
import Verif.Lemmas.Forking

/-!
# C140: recovery ids of honest signatures are rarely wrong

The recovery id is wrong exactly for nonce points with a coordinate that is not below the group order (C04, C53). There
are few of them.
-/

namespace Verif.Props

open EC Crypto Spec

section
variable [Crypto]

theorem card_nonzero : (Nat.card {z : Sc // z ≠ 0} : ℚ) = (q : ℚ) - 1 := by
  have hq := q_prime.out.one_lt
  have : Fintype Sc := Fintype.ofFinite _
  classical
  rw [Nat.card_eq_fintype_card, Fintype.card_subtype_compl, Fintype.card_subtype_eq, ← Nat.card_eq_fintype_card,
    show Nat.card Sc = q from Nat.card_zmod q, Nat.cast_sub hq.le, Nat.cast_one]

/-- The chance of one of several events. -/
theorem chance_any {g : {z : Sc // z ≠ 0} → ℕ → Prop} {c : ℚ} (h : ∀ a, chance (fun u => g u a) ≤ c) (l : List ℕ) :
    chance (fun u => ∃ a ∈ l, g u a) ≤ l.length * c := by
  induction l with
  | nil =>
    have : IsEmpty {u : {z : Sc // z ≠ 0} // ∃ a ∈ ([] : List ℕ), g u a} := ⟨by rintro ⟨u, a, ha, -⟩; cases ha⟩
    unfold chance
    rw [Nat.card_of_isEmpty]
    simp
  | cons a l ih =>
    have h1 := chance_le_add (E := fun u => ∃ b ∈ a :: l, g u b) (F := fun u => g u a)
      (B := fun u => ∃ b ∈ l, g u b) (by
        rintro u ⟨b, hb, hg⟩
        rcases List.mem_cons.1 hb with rfl | hb
        · exact .inl hg
        · exact .inr ⟨b, hb, hg⟩)
    have h2 := h a
    rw [List.length_cons]
    push_cast
    linarith

/-- Points that are computed from different nonces and have one of the given x-coordinates, or a coordinate that is
not below the group order. -/
theorem few_large (h3 : ThreePerY) {f : {z : Sc // z ≠ 0} → Pt} (hf : Function.Injective f) (l : List ℕ)
    {event : {z : Sc // z ≠ 0} → Prop}
    (h : ∀ u, event u → ∃ x y, coords (f u) = some (x, y) ∧ (x ∈ l ∨ q ≤ x ∨ q ≤ y)) :
    chance event ≤ (2 * l.length + 5 * (p - q : ℕ)) / ((q : ℚ) - 1) := by
  have hq : (1 : ℚ) < q := by exact_mod_cast q_prime.out.one_lt
  have hx := chance_any (g := fun u x => ∃ y, coords (f u) = some (x, y)) (c := 2 / ((q : ℚ) - 1)) (fun x => by
    by_cases hE : ∃ u y, coords (f u) = some (x, y)
    · obtain ⟨u, y, hu⟩ := hE
      have := chance_mem hf [f u, -f u] (n := 2) le_rfl
      rw [card_nonzero, Nat.cast_ofNat] at this
      refine le_trans (chance_mono' ?_) this
      rintro v ⟨y', hv⟩
      rcases x_inj _ _ _ _ _ hu hv with e | e <;> simp [e]
    · have : IsEmpty {u // ∃ y, coords (f u) = some (x, y)} := ⟨fun u => hE ⟨u.1, u.2⟩⟩
      unfold chance
      rw [Nat.card_of_isEmpty, Nat.cast_zero, zero_div]
      exact div_nonneg (by norm_num) (by linarith)) (l ++ List.range' q (p - q))
  have hy := chance_any (g := fun u y => ∃ x, coords (f u) = some (x, y)) (c := 3 / ((q : ℚ) - 1)) (fun y => by
    obtain ⟨l, hl, hm⟩ := h3 y
    have := chance_mem hf l hl
    rw [card_nonzero, Nat.cast_ofNat] at this
    exact le_trans (chance_mono' fun v ⟨x, hv⟩ => hm _ _ hv) this) (List.range' q (p - q))
  have hle := chance_le_add (E := event) (F := fun u => ∃ x ∈ l ++ List.range' q (p - q), ∃ y, coords (f u) = some (x, y))
    (B := fun u => ∃ y ∈ List.range' q (p - q), ∃ x, coords (f u) = some (x, y)) (by
      intro u hu
      obtain ⟨x, y, hc, hb⟩ := h u hu
      obtain ⟨hxp, hyp⟩ := coords_lt _ _ _ hc
      rcases hb with hb | hb | hb
      · exact .inl ⟨x, List.mem_append_left _ hb, y, hc⟩
      · exact .inl ⟨x, List.mem_append_right _ (List.mem_range'_1.2 ⟨hb, by omega⟩), y, hc⟩
      · exact .inr ⟨y, List.mem_range'_1.2 ⟨hb, by omega⟩, x, hc⟩)
  rw [List.length_append, List.length_range'] at hx
  rw [List.length_range'] at hy
  have e : (2 * (l.length : ℚ) + 5 * ((p - q : ℕ) : ℚ)) / ((q : ℚ) - 1) =
      ((l.length + (p - q) : ℕ) : ℚ) * (2 / ((q : ℚ) - 1)) + ((p - q : ℕ) : ℚ) * (3 / ((q : ℚ) - 1)) := by
    push_cast; ring
  rw [e]
  linarith

/-- **C140**, Lindell17. Both parties follow the protocol. For all but at most `4 + 5 (p - q)` of the `q - 1` nonces of
party one, the signature comes with the recovery id that recovers the joint key. -/
theorem C140_lindell (h3 : ThreePerY) (hp : p < 2 * q) {s : LindellSession} (hs : s.Fair) (m : ℤ) (h1 : s.x1 ≠ 0)
    (h2 : s.x2 ≠ 0) :
    chance (fun k1 : {z : Sc // z ≠ 0} => ¬ ∃ sig, LindellSession.OutputsRecid { s with k1 := k1.1 } m sig ∧
      Recovers (sig.r : Sc) (sig.s : Sc) sig.recid m s.key) ≤ (4 + 5 * (p - q : ℕ)) / ((q : ℚ) - 1) := by
  have h := few_large (f := fun u => (u.1 * s.k2) • (G : Pt)) h3
    (fun u v e => Subtype.ext (mul_right_cancel₀ hs.k2 ((smul_G_inj).1 e)))
    [0, (-(m : Sc) / (s.x1 * s.x2)).val]
    (event := fun k1 => ¬ ∃ sig, LindellSession.OutputsRecid { s with k1 := k1.1 } m sig ∧
      Recovers (sig.r : Sc) (sig.s : Sc) sig.recid m s.key) (by
      intro u hu
      have hne : (u.1 * s.k2) • (G : Pt) ≠ 0 := by
        rw [Ne, ← zero_smul Sc (G : Pt), smul_G_inj]
        exact mul_ne_zero u.2 hs.k2
      obtain ⟨⟨x, y⟩, hc⟩ := Option.ne_none_iff_exists'.1 (mt (coords_eq_none _).1 hne)
      refine ⟨x, y, hc, ?_⟩
      by_contra hcon
      push Not at hcon
      obtain ⟨hl, hx, hy⟩ := hcon
      simp only [List.mem_cons, List.not_mem_nil, or_false, not_or] at hl
      obtain ⟨c3, sig, sigr, h3, -, hr, -, -, hrec⟩ := C53_recid hs.valid hs.large hp s.x1 s.x2 u.1 s.k2 s.n1 s.n2 u.2
        hs.k2 m s.b1 s.b2 hs.rho.1 hs.rho.2 hs.rk hs.r hc (by
          rw [Ne, ZMod.natCast_eq_zero_iff]
          exact fun h => hl.1 (Nat.eq_zero_of_dvd_of_lt h hx)) (fun h0 => hl.2 (by
          rw [← x_of_zero (mul_ne_zero h1 h2) h0, Nat.mod_eq_of_lt hx]))
      exact hu ⟨sigr, ⟨c3, h3, hr⟩, hrec.2 ⟨hx, hy⟩⟩)
  norm_num at h
  norm_num
  exact h

/-- **C140**, GG20. For all but at most `2 + 5 (p - q)` of the values of one signer's nonce `k` - whatever the sum `c` of
the other nonces, the message and the public key are - there is no way to complete partial signatures that add up to
a signature with the nonce `c + k` such that the recovery id does not recover the key. -/
theorem C140_gg20 (h3 : ThreePerY) (hp : p < 2 * q) (c : Sc) :
    chance (fun k : {z : Sc // z ≠ 0} => ∃ (st : GG20.LocalSignature) (peers : List Sc) (sig : GG20.SignatureRecid),
      st.R = (c + k.1)⁻¹ • G ∧ (∀ x y, coords st.R = some (x, y) →
        (st.s_i + peers.sum) • st.R = (st.m : Sc) • G + (x : Sc) • st.y) ∧
      GG20.SignManual.complete st peers = .ok sig ∧ ¬ Recovers sig.r sig.s sig.recid st.m st.y) ≤
      (2 + 5 * (p - q : ℕ)) / ((q : ℚ) - 1) := by
  have h := few_large (f := fun u => (c + u.1)⁻¹ • (G : Pt)) h3
    (fun u v e => Subtype.ext (add_left_cancel (inv_injective ((smul_G_inj).1 e)))) [0]
    (event := fun k : {z : Sc // z ≠ 0} => ∃ (st : GG20.LocalSignature) (peers : List Sc) (sig : GG20.SignatureRecid),
      st.R = (c + k.1)⁻¹ • G ∧ (∀ x y, coords st.R = some (x, y) →
        (st.s_i + peers.sum) • st.R = (st.m : Sc) • G + (x : Sc) • st.y) ∧
      GG20.SignManual.complete st peers = .ok sig ∧ ¬ Recovers sig.r sig.s sig.recid st.m st.y) (by
      rintro u ⟨st, peers, sig, hR, hs, ho, hn⟩
      cases hc : coords st.R with
      | none =>
        simp [GG20.SignManual.complete, GG20.LocalSignature.output_signature, xc, hc] at ho
      | some xy =>
        obtain ⟨x, y⟩ := xy
        refine ⟨x, y, hR ▸ hc, ?_⟩
        by_contra hcon
        push Not at hcon
        obtain ⟨hl, hx, hy⟩ := hcon
        exact hn ((C04_gg20_recid_iff hp st peers sig x y hc (by
          rw [Ne, ZMod.natCast_eq_zero_iff]
          exact fun h => hl (by simp [Nat.eq_zero_of_dvd_of_lt h hx])) (hs x y hc) ho).2 ⟨hx, hy⟩))
  norm_num at h
  norm_num
  exact h

/-- **C140**, GG18. -/
theorem C140_gg18 (h3 : ThreePerY) (hp : p < 2 * q) (c : Sc) :
    chance (fun k : {z : Sc // z ≠ 0} => ∃ (st : GG18.LocalSignature) (peers : List Sc) (sig : GG18.SignatureRecid),
      st.R = (c + k.1)⁻¹ • G ∧ (∀ x y, coords st.R = some (x, y) →
        (st.s_i + peers.sum) • st.R = (st.m : Sc) • G + (x : Sc) • st.y) ∧
      st.output_signature peers = .ok sig ∧ ¬ Recovers sig.r sig.s sig.recid st.m st.y) ≤
      (2 + 5 * (p - q : ℕ)) / ((q : ℚ) - 1) := by
  have h := few_large (f := fun u => (c + u.1)⁻¹ • (G : Pt)) h3
    (fun u v e => Subtype.ext (add_left_cancel (inv_injective ((smul_G_inj).1 e)))) [0]
    (event := fun k : {z : Sc // z ≠ 0} => ∃ (st : GG18.LocalSignature) (peers : List Sc) (sig : GG18.SignatureRecid),
      st.R = (c + k.1)⁻¹ • G ∧ (∀ x y, coords st.R = some (x, y) →
        (st.s_i + peers.sum) • st.R = (st.m : Sc) • G + (x : Sc) • st.y) ∧
      st.output_signature peers = .ok sig ∧ ¬ Recovers sig.r sig.s sig.recid st.m st.y) (by
      rintro u ⟨st, peers, sig, hR, hs, ho, hn⟩
      cases hc : coords st.R with
      | none =>
        simp [GG18.LocalSignature.output_signature, GG18.okOrInvalidSig, xc, hc] at ho
      | some xy =>
        obtain ⟨x, y⟩ := xy
        refine ⟨x, y, hR ▸ hc, ?_⟩
        by_contra hcon
        push Not at hcon
        obtain ⟨hl, hx, hy⟩ := hcon
        exact hn ((C04_gg18_recid_iff hp st peers sig x y hc (by
          rw [Ne, ZMod.natCast_eq_zero_iff]
          exact fun h => hl (by simp [Nat.eq_zero_of_dvd_of_lt h hx])) (hs x y hc) ho).2 ⟨hx, hy⟩))
  norm_num at h
  norm_num
  exact h

end

/-! ### On the real curve -/

section
attribute [local instance] Secp256k1.inst

theorem cube_roots {K : Type} [Field K] [DecidableEq K] (c : K) (s : Finset K) (h : ∀ a ∈ s, a ^ 3 = c) : s.card ≤ 3 := by
  have : s ⊆ (Polynomial.nthRoots 3 c).toFinset := fun a ha => by
    rw [Multiset.mem_toFinset, Polynomial.mem_nthRoots (by norm_num)]
    exact h a ha
  exact (Finset.card_le_card this).trans ((Multiset.toFinset_card_le _).trans (Polynomial.card_nthRoots 3 c))

/-- **C140** (the real curve): the y-coordinate condition holds on secp256k1, and both bounds are below `2^-124`. -/
theorem C140_secp256k1 : ThreePerY ∧ p < 2 * q ∧ (4 + 5 * (p - q : ℕ)) / ((q : ℚ) - 1) ≤ 1 / 2 ^ 124 := by
  have hp : (p : ℕ) = Secp256k1.p := rfl
  have hq : (q : ℕ) = Secp256k1.n := rfl
  refine ⟨?_, ?_, ?_⟩
  · intro y
    classical
    have hfin : Finite Pt := finite_pt
    have hS : {P : Pt | ∃ x, coords P = some (x, y)}.Finite := Set.toFinite _
    refine ⟨hS.toFinset.toList, ?_, fun P x h => by simpa using ⟨x, h⟩⟩
    rw [Finset.length_toList]
    have hx : ∀ P : Pt, P ∈ hS.toFinset → ∃ (a b : Secp256k1.K) (hab : b ^ 2 = a ^ 3 + 7), P = Secp256k1.mk a b hab ∧
        b.val = y := fun P hP => by
      obtain ⟨x, hx⟩ := hS.mem_toFinset.1 hP
      obtain ⟨a, b, hab, e, -, h⟩ := Secp256k1.coordinates_eq_some hx
      exact ⟨a, b, hab, e, h⟩
    let f : Pt → Secp256k1.K := fun P => (((coords P).map Prod.fst).getD 0 : ℕ)
    have hf : ∀ (a b : Secp256k1.K) (hab : b ^ 2 = a ^ 3 + 7), f (Secp256k1.mk a b hab) = a := fun a b hab => by
      show ((((Secp256k1.coordinates (Secp256k1.mk a b hab)).map Prod.fst).getD 0 : ℕ) : Secp256k1.K) = a
      rw [Secp256k1.coordinates_mk]
      exact ZMod.natCast_zmod_val a
    rw [← Finset.card_image_of_injOn (f := f) (s := hS.toFinset)]
    · refine cube_roots ((y : Secp256k1.K) ^ 2 - 7) _ fun a ha => ?_
      obtain ⟨P, hP, rfl⟩ := Finset.mem_image.1 ha
      obtain ⟨a, b, hab, rfl, rfl⟩ := hx P hP
      rw [hf, ZMod.natCast_zmod_val, hab, add_sub_cancel_right]
    · intro P hP Q hQ e
      obtain ⟨a, b, hab, rfl, h1⟩ := hx P hP
      obtain ⟨a', b', hab', rfl, h2⟩ := hx Q hQ
      rw [hf, hf] at e
      obtain rfl := e
      obtain rfl := ZMod.val_injective _ (h1.trans h2.symm)
      rfl
  · rw [hp, hq]; norm_num [Secp256k1.p, Secp256k1.n]
  · rw [hp, hq]; norm_num [Secp256k1.p, Secp256k1.n]

end

/-! ### Examples -/

section Examples
attribute [local instance] Toy.crypto

theorem toy_threePerY : ThreePerY := by
  intro y
  have h : ∀ y < p, (((List.range 31).map (Nat.cast : ℕ → ZMod 31)).filter
      fun P => decide ((coords P).map Prod.snd = some y)).length ≤ 3 := by decide +kernel
  have hmem : ∀ P : ZMod 31, P ∈ (List.range 31).map (Nat.cast : ℕ → ZMod 31) := by decide +kernel
  by_cases hy : y < p
  · exact ⟨_, h y hy, fun P x hc => List.mem_filter.2 ⟨hmem P, by simp [hc]⟩⟩
  · exact ⟨[], by simp, fun P x hc => absurd (coords_lt _ _ _ hc).2 hy⟩

example := C140_lindell toy_threePerY (by decide) toyLindell_fair 10 (by decide) (by decide)

example := C140_gg20 toy_threePerY (by decide) 5

example := C140_gg18 toy_threePerY (by decide) 5

end Examples

end Verif.Props
