import Verif.Lemmas.ZeroKnowledge
import Mathlib.Data.Fintype.Pi
import Mathlib.Logic.Equiv.Basic
import Verif.Props.Mta
import Verif.Secp256k1.Crypto
import Verif.Lemmas.Digest

/-!
# C97: what the proofs about integers disclose

For any challenge, the proof of a prover whose samples are uniform is close to a proof computed without the witness.
-/

namespace Verif.Props

open EC Crypto Spec

/-! ### Sampling -/

theorem fromModulo_mem {N : ℤ} {ds : List ℤ} {r : ℤ} (h : fromModulo N ds = some r) :
    r ∈ ds ∧ Int.gcd r N = 1 := by
  induction ds with
  | nil => cases h
  | cons d ds ih =>
    unfold fromModulo at h
    split at h
    · rename_i hg
      cases h
      exact ⟨List.mem_cons_self, hg⟩
    · exact ⟨List.mem_cons_of_mem _ (ih h).1, (ih h).2⟩

theorem fromModulo_map {N β β' : ℤ} (hβ : Int.gcd β N = 1) (hβ' : Int.gcd β' N = 1) (ds : List ℤ) :
    fromModulo N (ds.map (Equiv.swap β β')) = (fromModulo N ds).map (Equiv.swap β β') := by
  induction ds with
  | nil => rfl
  | cons d ds ih =>
    have hd : Int.gcd (Equiv.swap β β' d) N = 1 ↔ Int.gcd d N = 1 := by
      rcases eq_or_ne d β with rfl | h1
      · rw [Equiv.swap_apply_left]; simp [hβ, hβ']
      · rcases eq_or_ne d β' with rfl | h2
        · rw [Equiv.swap_apply_right]; simp [hβ, hβ']
        · rw [Equiv.swap_apply_of_ne_of_ne h1 h2]
    rw [List.map_cons, fromModulo, fromModulo, ih]
    by_cases h : Int.gcd d N = 1
    · rw [if_pos h, if_pos (hd.2 h)]; rfl
    · rw [if_neg h, if_neg (fun h' => h (hd.1 h'))]

/-- **C97** (sampling): the unit drawn for a Paillier key is among the numbers assumed below, and every unit is as
likely as any other: after any number `k` of draws as many sequences of draws return the one as the other. -/
theorem C97_sampling (n : ℕ) (k : ℕ) {β β' : ℤ} (hβ : β ∈ unitsBelow n) (hβ' : β' ∈ unitsBelow n) :
    (∀ ds : List ℤ, (∀ d ∈ ds, d ∈ below n) → ∀ r, fromPaillierKey n ds = some r → r ∈ unitsBelow n) ∧
    count (Fintype.piFinset fun _ : Fin k => below n) (fun d => fromPaillierKey n (List.ofFn d) = some β) =
      count (Fintype.piFinset fun _ : Fin k => below n) (fun d => fromPaillierKey n (List.ofFn d) = some β') := by
  have key : ∀ β β' : ℤ, β ∈ unitsBelow n → β' ∈ unitsBelow n →
      count (Fintype.piFinset fun _ : Fin k => below n) (fun d => fromPaillierKey n (List.ofFn d) = some β) ≤
        count (Fintype.piFinset fun _ : Fin k => below n)
          (fun d => fromPaillierKey n (List.ofFn d) = some β') := by
    intro β β' hβ hβ'
    rw [mem_unitsBelow] at hβ hβ'
    rw [count_eq, count_eq]
    refine Finset.card_le_card_of_injOn (fun d i => Equiv.swap β β' (d i)) (fun d hd => ?_)
      (fun d _ d' _ h => ?_)
    · obtain ⟨h1, h2⟩ := mem_sel.1 hd
      refine mem_sel.2 ⟨Fintype.mem_piFinset.2 fun i => ?_, ?_⟩
      · have hi := mem_below.1 (Fintype.mem_piFinset.1 h1 i)
        refine mem_below.2 ?_
        dsimp only
        rcases eq_or_ne (d i) β with h3 | h3
        · rw [h3, Equiv.swap_apply_left]; exact hβ'.1
        · rcases eq_or_ne (d i) β' with h4 | h4
          · rw [h4, Equiv.swap_apply_right]; exact hβ.1
          · rw [Equiv.swap_apply_of_ne_of_ne h3 h4]; exact hi
      · have := fromModulo_map hβ.2 hβ'.2 (List.ofFn d)
        unfold fromPaillierKey at h2 ⊢
        rw [List.map_ofFn, h2] at this
        rw [Option.map_some, Equiv.swap_apply_left] at this
        exact this
    · funext i
      exact (Equiv.swap β β').injective (congrFun h i)
  refine ⟨fun ds hds r h => ?_, (key β β' hβ hβ').antisymm (key β' β hβ' hβ)⟩
  obtain ⟨h1, h2⟩ := fromModulo_mem h
  exact mem_unitsBelow.2 ⟨mem_below.1 (hds r h1), h2⟩

section
variable [Crypto]

/-- **C97** (Alice's range proof): with parameters as generated, the proof for the challenge `e` is computable
without the secret, up to an advantage of `5 / q`. -/
theorem C97_alice {N : ℕ} (hN : 0 < N) {st : DLogStatement} (hst : st.Usable) {s : ℕ}
    (hs : st.ni ^ s * st.g ≡ 1 [ZMOD st.N]) {a r e : ℤ} (ha : 0 ≤ a ∧ a < q) (hr : Int.gcd r N = 1)
    (he : 0 ≤ e ∧ e ≤ 2 * q) :
    Within 5 q (aliceSamples N st.N) (aliceAnswer N st a r e) (aliceSim st e) := by
  obtain ⟨x, hx0, hxM, hx⟩ := commitInts_shift hst hs a
  obtain ⟨ur, hur⟩ := unit_of_gcd hr
  obtain ⟨re, hre, hre2⟩ := modPow_unit hN hur e
  have hN' : (0 : ℤ) < N := by exact_mod_cast hN
  have hre0 := (modPow_range hN' hre).1
  have hq : (0 : ℤ) < q := by exact_mod_cast q_pos
  have hNt := hst.pos
  have b1 : 0 ≤ e * a := mul_nonneg he.1 ha.1
  have b2 : e * a ≤ 2 * q * q := mul_le_mul he.2 ha.2.le ha.1 (by positivity)
  have b3 : ∀ ρ ∈ below (q * st.N), 0 ≤ e * ρ ∧ e * ρ ≤ 2 * q * (q * st.N) := fun ρ hρ =>
    ⟨mul_nonneg he.1 (mem_below.1 hρ).1,
      mul_le_mul he.2 (mem_below.1 hρ).2.le (mem_below.1 hρ).1 (by positivity)⟩
  refine within_of_map (fun ω => (e * a + ω.1, rem (re * ω.2.1) N, e * ω.2.2.2 + ω.2.2.1, x + ω.2.2.2))
    ?_ ?_ ?_
  · rintro ⟨α, β, γ, ρ⟩ h ⟨α', β', γ', ρ'⟩ h' heq
    simp only [aliceSamples, Finset.mem_product, mem_unitsBelow] at h h'
    simp only [Prod.mk.injEq] at heq ⊢
    obtain ⟨h1, h2, h3, h4⟩ := heq
    have h4' : ρ = ρ' := by omega
    subst h4'
    exact ⟨by omega, mul_rem_inj hre2 h.2.1.1 h'.2.1.1 h2, by omega, rfl⟩
  · rintro ⟨α, β, γ, ρ⟩ h
    obtain ⟨z, hz1, hz2⟩ := hx ρ
    obtain ⟨w, hw⟩ : ∃ w, commitInts st α γ = some w := by
      obtain ⟨M, hM, hN, u1, u2, h1, h2⟩ := hst.units
      obtain ⟨w, hw, -⟩ := commitInts_unit hM hN h1 h2 α γ
      exact ⟨w, hw⟩
    obtain ⟨bn, hbn⟩ := modPow_nat (Nat.mul_pos hN hN) β N
    simp only [aliceAnswer, aliceSim, AliceZkpRound1.make, AliceProof.respond, Nat.cast_mul] at hbn ⊢
    rw [hz1, hw, hbn, hre, add_comm x ρ, hz2]
    rfl
  · have r1 : Rare 2 q (below ((q : ℤ) ^ 3)) (fun α => (q : ℤ) ^ 3 ≤ α + 2 * q * q) :=
      rare_top (by positivity) (by positivity) (by push_cast; apply le_of_eq; ring)
    have r2 : Rare 2 q (below ((q : ℤ) ^ 3 * st.N)) (fun γ => (q : ℤ) ^ 3 * st.N ≤ γ + 2 * q * (q * st.N)) :=
      rare_top (by positivity) (by positivity) (by push_cast; apply le_of_eq; ring)
    have r3 : Rare 1 q (below (q * st.N)) (fun ρ => q * st.N ≤ ρ + st.N) :=
      rare_top (by positivity) (by positivity) (by push_cast; apply le_of_eq; ring)
    refine Rare.mono ((r1.fst).or ((r2.fst.snd.snd).or (r3.snd.snd.snd))) ?_
    rintro ⟨α, β, γ, ρ⟩ h hout
    simp only [aliceSamples, Finset.mem_product] at h hout ⊢
    obtain ⟨h1, h2, h3, h4⟩ := h
    by_contra hc
    push Not at hc
    obtain ⟨c1, c2, c3⟩ := hc
    refine hout ⟨?_, mul_rem_units hN hre2 hre0 h2, ?_, ?_⟩
    · by_contra hn; exact absurd (not_mem_below h1 b1 b2 hn) (not_le.2 c1)
    · by_contra hn; exact absurd (not_mem_below h3 (b3 ρ h4).1 (b3 ρ h4).2 hn) (not_le.2 c2)
    · by_contra hn; exact absurd (not_mem_below h4 hx0 hxM hn) (not_le.2 c3)

/-- The proof that is sent is the answer to its own challenge. -/
theorem C97_alice_generate {N : ℕ} {st : DLogStatement} {a cipher r α β γ ρ : ℤ} {pf : AliceProof}
    (h : AliceProof.generate a cipher N st r ⟨α, β, γ, ρ⟩ = some pf) :
    aliceAnswer N st a r pf.e (α, β, γ, ρ) = some pf := by
  unfold AliceProof.generate at h
  simp only [Option.bind_eq_bind, Option.bind_eq_some_iff] at h
  obtain ⟨r1, h1, h2⟩ := h
  have he : pf.e = aliceChallenge N cipher r1.z r1.u r1.w := by
    unfold AliceProof.respond at h2
    simp only [Option.bind_eq_bind, Option.bind_eq_some_iff] at h2
    obtain ⟨re, -, h2⟩ := h2
    rw [← Option.some.inj h2]
  simp only [aliceAnswer, Option.bind_eq_bind]
  rw [h1, he]
  exact h2

/-- **C97** (Bob's range proof, with and without check): the proof for the challenge `e`, with the point of the nonce,
is computable from the point of Bob's secret, up to an advantage of `10 / q`. -/
theorem C97_bob {N : ℕ} (hN : 0 < N) {st : DLogStatement} (hst : st.Usable) {s : ℕ}
    (hs : st.ni ^ s * st.g ≡ 1 [ZMOD st.N]) {b : Sc} {beta_prim a_encrypted r e : ℤ}
    (hb : 0 ≤ beta_prim ∧ beta_prim < N) (hr : Int.gcd r N = 1) (check : Bool) (he : 0 ≤ e ∧ e ≤ 2 * q) :
    Within 10 q (bobSamples N st.N) (bobAnswer N st b beta_prim a_encrypted r check e)
      (bobSim st (b • G) check e) := by
  obtain ⟨x, hx0, hxM, hx⟩ := commitInts_shift hst hs b.val
  obtain ⟨y, hy0, hyM, hy⟩ := commitInts_shift hst hs beta_prim
  obtain ⟨ur, hur⟩ := unit_of_gcd hr
  obtain ⟨re, hre, hre2⟩ := modPow_unit hN hur e
  have hN' : (0 : ℤ) < N := by exact_mod_cast hN
  have hre0 := (modPow_range hN' hre).1
  have hq : (0 : ℤ) < q := by exact_mod_cast q_pos
  have hNt := hst.pos
  have hbv : (0 : ℤ) ≤ (b.val : ℤ) ∧ (b.val : ℤ) ≤ q :=
    ⟨Int.natCast_nonneg _, by exact_mod_cast (ZMod.val_lt b).le⟩
  have b1 : 0 ≤ e * (b.val : ℤ) := mul_nonneg he.1 hbv.1
  have b2 : e * (b.val : ℤ) ≤ 2 * q * q := mul_le_mul he.2 hbv.2 hbv.1 (by positivity)
  have b3 : ∀ ρ ∈ below (q * st.N), 0 ≤ e * ρ ∧ e * ρ ≤ 2 * q * (q * st.N) := fun ρ hρ =>
    ⟨mul_nonneg he.1 (mem_below.1 hρ).1,
      mul_le_mul he.2 (mem_below.1 hρ).2.le (mem_below.1 hρ).1 (by positivity)⟩
  have b4 : 0 ≤ e * beta_prim := mul_nonneg he.1 hb.1
  have b5 : e * beta_prim ≤ 2 * q * N := mul_le_mul he.2 hb.2.le hb.1 (by positivity)
  refine within_of_map (fun ω => (e * b.val + ω.1, rem (re * ω.2.1) N, e * beta_prim + ω.2.2.1,
    x + ω.2.2.2.1, e * ω.2.2.2.1 + ω.2.2.2.2.1, y + ω.2.2.2.2.2.1, e * ω.2.2.2.2.2.1 + ω.2.2.2.2.2.2))
    ?_ ?_ ?_
  · rintro ⟨α, β, γ, ρ, ρ', σ, τ⟩ h ⟨α', β', γ', ρ1, ρ1', σ', τ'⟩ h' heq
    simp only [bobSamples, Finset.mem_product, mem_unitsBelow] at h h'
    simp only [Prod.mk.injEq] at heq ⊢
    obtain ⟨h1, h2, h3, h4, h5, h6, h7⟩ := heq
    have h4' : ρ = ρ1 := by omega
    have h6' : σ = σ' := by omega
    subst h4' h6'
    exact ⟨by omega, mul_rem_inj hre2 h.2.1.1 h'.2.1.1 h2, by omega, rfl, by omega, rfl, by omega⟩
  · rintro ⟨α, β, γ, ρ, ρ', σ, τ⟩ h
    obtain ⟨z, hz1, hz2⟩ := hx ρ
    obtain ⟨t, ht1, ht2⟩ := hy σ
    have hcom : ∀ a b, ∃ w, commitInts st a b = some w := by
      intro a b
      obtain ⟨M, hM, hN, u1, u2, h1, h2⟩ := hst.units
      obtain ⟨w, hw, -⟩ := commitInts_unit hM hN h1 h2 a b
      exact ⟨w, hw⟩
    obtain ⟨zp, hzp⟩ := hcom α ρ'
    obtain ⟨w, hw⟩ := hcom γ τ
    obtain ⟨bn, hbn⟩ := modPow_nat (Nat.mul_pos hN hN) β N
    have hα : 0 ≤ α := by
      simp only [bobSamples, Finset.mem_product] at h
      exact (mem_below.1 h.1).1
    obtain ⟨ca, hca⟩ : ∃ ca, modPow a_encrypted α (N * N) = some ca :=
      ⟨_, modPow_nonneg (by positivity) hα⟩
    simp only [bobAnswer, bobSim, BobZkpRound1.make, BobProof.respond, Nat.cast_mul] at hbn ⊢
    have hu : (((e * (b.val : ℤ) + α : ℤ) : Sc)) • (G : Pt) - (e : Sc) • (b • (G : Pt)) = (α : Sc) • G := by
      push_cast
      rw [ZMod.natCast_zmod_val, add_smul, mul_smul, add_sub_cancel_left]
    rw [hz1, hzp, ht1, hw, hca, hbn, hre, add_comm x ρ, hz2, add_comm y σ, ht2, hu]
    rfl
  · have r1 : Rare 2 q (below ((q : ℤ) ^ 3)) (fun α => (q : ℤ) ^ 3 ≤ α + 2 * q * q) :=
      rare_top (by positivity) (by positivity) (by push_cast; apply le_of_eq; ring)
    have r2 : Rare 2 q (below ((q : ℤ) ^ 2 * N)) (fun γ => (q : ℤ) ^ 2 * N ≤ γ + 2 * q * N) :=
      rare_top (by positivity) (by positivity) (by push_cast; apply le_of_eq; ring)
    have r3 : Rare 1 q (below (q * st.N)) (fun ρ => q * st.N ≤ ρ + st.N) :=
      rare_top (by positivity) (by positivity) (by push_cast; apply le_of_eq; ring)
    have r4 : Rare 2 q (below ((q : ℤ) ^ 3 * st.N)) (fun γ => (q : ℤ) ^ 3 * st.N ≤ γ + 2 * q * (q * st.N)) :=
      rare_top (by positivity) (by positivity) (by push_cast; apply le_of_eq; ring)
    refine Rare.mono ((r1.fst).or ((r2.fst.snd.snd).or ((r3.fst.snd.snd.snd).or
      ((r4.fst.snd.snd.snd.snd).or ((r3.fst.snd.snd.snd.snd.snd).or (r4.snd.snd.snd.snd.snd.snd)))))) ?_
    rintro ⟨α, β, γ, ρ, ρ', σ, τ⟩ h hout
    simp only [bobSamples, Finset.mem_product] at h hout ⊢
    obtain ⟨h1, h2, h3, h4, h5, h6, h7⟩ := h
    by_contra hc
    push Not at hc
    obtain ⟨c1, c2, c3, c4, c5, c6⟩ := hc
    refine hout ⟨?_, mul_rem_units hN hre2 hre0 h2, ?_, ?_, ?_, ?_, ?_⟩
    · by_contra hn; exact absurd (not_mem_below h1 b1 b2 hn) (not_le.2 c1)
    · by_contra hn; exact absurd (not_mem_below h3 b4 b5 hn) (not_le.2 c2)
    · by_contra hn; exact absurd (not_mem_below h4 hx0 hxM hn) (not_le.2 c3)
    · by_contra hn; exact absurd (not_mem_below h5 (b3 ρ h4).1 (b3 ρ h4).2 hn) (not_le.2 c4)
    · by_contra hn; exact absurd (not_mem_below h6 hy0 hyM hn) (not_le.2 c5)
    · by_contra hn; exact absurd (not_mem_below h7 (b3 σ h6).1 (b3 σ h6).2 hn) (not_le.2 c6)

/-- The proof that is sent is the answer to its own challenge. -/
theorem C97_bob_generate {N : ℕ} {st : DLogStatement} {b : Sc}
    {a_encrypted mta_encrypted beta_prim r α β γ ρ ρ' σ τ : ℤ} {check : Bool} {pf : BobProof} {u : Option Pt}
    (h : BobProof.generate a_encrypted mta_encrypted b beta_prim N st r check ⟨α, β, γ, ρ, ρ', σ, τ⟩ =
      some (pf, u)) :
    bobAnswer N st b beta_prim a_encrypted r check pf.e (α, β, γ, ρ, ρ', σ, τ) = some (pf, u) := by
  unfold BobProof.generate at h
  simp only [Option.bind_eq_bind, Option.bind_eq_some_iff] at h
  obtain ⟨r1, h1, e, -, pf', h2, h3⟩ := h
  have h3' := Option.some.inj h3
  have e1 : pf' = pf := congrArg Prod.fst h3'
  subst e1
  have he : pf'.e = e := by
    have := h2
    unfold BobProof.respond at this
    simp only [Option.bind_eq_bind, Option.bind_eq_some_iff] at this
    obtain ⟨re, -, this⟩ := this
    rw [← Option.some.inj this]
  simp only [bobAnswer, Option.bind_eq_bind]
  rw [h1, he]
  change (BobProof.respond N b beta_prim r ⟨α, β, γ, ρ, ρ', σ, τ⟩ r1.t r1.z e).bind _ = _
  rw [h2]
  exact h3

/-- **C97** (PDL proof with slack): the proof for the challenge `e` is computable from the statement, up to an
advantage of `6 / q`. -/
theorem C97_pdl {w : PDLwSlackWitness} {st : PDLwSlackStatement} (hN : q + 2 ≤ st.ek)
    (hst : (DLogStatement.mk st.N_tilde st.h1 st.h2).Usable) {s : ℕ}
    (hs : st.h2 ^ s * st.h1 ≡ 1 [ZMOD st.N_tilde]) (hQ : st.Q = w.x • st.G) (hr : Int.gcd w.r st.ek = 1)
    (hc : Paillier.IsEnc st.ek st.ciphertext w.x.val w.r) {e : ℤ} (he : 0 ≤ e ∧ e ≤ 2 * q) :
    Within 6 q (pdlSamples st.ek st.N_tilde) (pdlAnswer w st e) (pdlSim st e) := by
  have hek : 0 < st.ek := by omega
  have hek' : (0 : ℤ) < st.ek := by exact_mod_cast hek
  have hNN : 0 < st.ek * st.ek := Nat.mul_pos hek hek
  have hNt : 0 < st.N_tilde := hst.pos
  obtain ⟨M, hM, hstN, v1, v2, h1, h2⟩ := hst.units
  simp only at hstN h1 h2
  have hs' : v2 ^ s * v1 = 1 := by
    rw [hstN] at hs
    have := cast_of_modEq hs
    push_cast at this
    rw [h1, h2, ← Units.val_pow_eq_pow_val, ← Units.val_mul, ← Units.val_one, Units.val_inj] at this
    exact this
  obtain ⟨x, hx0, hxM, hx⟩ := exists_shift hM hs' w.x.val
  rw [← hstN] at hxM
  obtain ⟨ur, hur⟩ := unit_of_gcd hr
  obtain ⟨vn, hvn, hvn2⟩ := n_add_one_unit (n := st.ek)
  obtain ⟨vc, hvc⟩ := unit_of_gcd (M := st.ek * st.ek) (b := st.ciphertext)
    (by push_cast; exact Paillier.gcd_mul_self.2 (hc.coprime hr))
  have hen : (e.toNat : ℤ) = e := Int.toNat_of_nonneg he.1
  have hq : (0 : ℤ) < q := by exact_mod_cast q_pos
  have hwv : (0 : ℤ) ≤ (w.x.val : ℤ) ∧ (w.x.val : ℤ) ≤ q :=
    ⟨Int.natCast_nonneg _, by exact_mod_cast (ZMod.val_lt w.x).le⟩
  have b1 : 0 ≤ e * (w.x.val : ℤ) := mul_nonneg he.1 hwv.1
  have b2 : e * (w.x.val : ℤ) ≤ 2 * q * q := mul_le_mul he.2 hwv.2 hwv.1 (by positivity)
  have b3 : ∀ ρ ∈ below (q * st.N_tilde), 0 ≤ e * ρ ∧ e * ρ ≤ 2 * q * (q * st.N_tilde) := fun ρ hρ =>
    ⟨mul_nonneg he.1 (mem_below.1 hρ).1,
      mul_le_mul he.2 (mem_below.1 hρ).2.le (mem_below.1 hρ).1 (by positivity)⟩
  have hg : ∀ β : ℤ, 0 ≤ (w.r ^ e.toNat * β) % st.ek ∧ (w.r ^ e.toNat * β) % st.ek < st.ek := fun β =>
    ⟨Int.emod_nonneg _ hek'.ne', Int.emod_lt_of_pos _ hek'⟩
  have hgc : ∀ β : ℤ, (((w.r ^ e.toNat * β) % st.ek : ℤ) : ZMod st.ek) = ((ur ^ e.toNat : (ZMod st.ek)ˣ) : ZMod st.ek) * β :=
    fun β => by rw [cast_emod]; push_cast; rw [hur]
  have hginj : ∀ β β' : ℤ, (0 ≤ β ∧ β < st.ek) → (0 ≤ β' ∧ β' < st.ek) →
      (w.r ^ e.toNat * β) % st.ek = (w.r ^ e.toNat * β') % st.ek → β = β' := by
    intro β β' hb hb' h
    have := congrArg (fun z : ℤ => (z : ZMod st.ek)) h
    simp only [hgc] at this
    exact eq_of_cast (Units.mul_right_inj _ |>.1 this) hb hb'
  have hsamp : ∀ β : ℤ, β ∈ Finset.Ico (1 : ℤ) ((st.ek : ℤ) - 1) → 0 ≤ β ∧ β < st.ek := fun β hβ => by
    have := Finset.mem_Ico.1 hβ; omega
  refine within_of_map (fun ω => (e * w.x.val + ω.1, (w.r ^ e.toNat * ω.2.1) % st.ek, x + ω.2.2.1,
    e * ω.2.2.1 + ω.2.2.2)) ?_ ?_ ?_
  · rintro ⟨α, β, ρ, γ⟩ h ⟨α', β', ρ', γ'⟩ h' heq
    simp only [pdlSamples, Finset.mem_product] at h h'
    simp only [Prod.mk.injEq] at heq ⊢
    obtain ⟨e1, e2, e3, e4⟩ := heq
    have e3' : ρ = ρ' := by omega
    subst e3'
    exact ⟨by omega, hginj β β' (hsamp β h.2.1) (hsamp β' h'.2.1) e2, rfl, by omega⟩
  · rintro ⟨α, β, ρ, γ⟩ -
    obtain ⟨z, hz, hzc, hzr⟩ := cuo_units hM h1 h2 w.x.val ρ
    obtain ⟨z', hz', hzc', hzr'⟩ := cuo_units hM h1 h2 0 (x + ρ)
    have ezz : z' = z := eq_of_cast (by rw [hzc, hzc', add_comm x ρ, hx]) hzr' hzr
    subst ezz
    obtain ⟨u2, hu2, hu2c, hu2r⟩ := cuo_unit_nat hNN (h2 := β) hvn α st.ek
    obtain ⟨u3, hu3, hu3c, hu3r⟩ := cuo_units hM h1 h2 α γ
    obtain ⟨s2, hs2, hs2c, hs2r⟩ := cuo_nat hek (h1 := w.r) (h2 := β) e.toNat 1
    rw [hen] at hs2
    have es2 : s2 = (w.r ^ e.toNat * β) % st.ek :=
      eq_of_cast (by rw [hs2c, hgc, hur]; push_cast; ring) hs2r (hg β)
    obtain ⟨c, hcc, hccc, -⟩ := cuo_unit_nat hNN (h2 := s2) hvn (e * w.x.val + α) st.ek
    obtain ⟨d, hd, hdc, -⟩ := cuo_units hM h1 h2 (e * w.x.val + α) (e * ρ + γ)
    obtain ⟨y2, hy2, hy2c, hy2r⟩ := cuo_div hNN (a := c) hvc e.toNat
    obtain ⟨y3, hy3, hy3c, hy3r⟩ := cuo_div hM (a := d) hzc e.toNat
    rw [hen] at hy2 hy3
    have e3 : u3 = y3 := by
      refine eq_of_cast (M := M) ?_ hu3r hy3r
      have hzu : IsUnit ((z' : ZMod M) ^ e.toNat) := by rw [hzc]; exact (Units.isUnit _).pow _
      rw [← hzu.mul_left_inj, hy3c, hdc, hu3c, hzc, ← Units.val_pow_eq_pow_val, ← Units.val_mul]
      congr 1
      rw [← commit_group v1 v2 e w.x.val ρ α γ, ← zpow_natCast, hen, inv_mul_cancel_right]
    have e2 : u2 = y2 := by
      refine eq_of_cast (M := st.ek * st.ek) ?_ hu2r hy2r
      have hcu : IsUnit ((st.ciphertext : ZMod (st.ek * st.ek)) ^ e.toNat) := by
        rw [hvc]; exact (Units.isUnit _).pow _
      rw [← hcu.mul_left_inj, hy2c, hccc, hvn2]
      have hcz : (st.ciphertext : ZMod (st.ek * st.ek)) =
          (1 + (w.x.val : ZMod (st.ek * st.ek)) * st.ek) * (w.r : ZMod (st.ek * st.ek)) ^ st.ek := by
        have := cast_of_modEq (M := st.ek * st.ek) (by push_cast; exact hc)
        push_cast at this; exact this
      have hs2m : s2 ≡ w.r ^ e.toNat * β [ZMOD st.ek] := by
        apply modEq_of_cast; rw [hs2c]; push_cast; ring
      have hes : ((e * w.x.val + α : ℤ) : ZMod (st.ek * st.ek)) =
          (e.toNat : ZMod (st.ek * st.ek)) * (w.x.val : ZMod (st.ek * st.ek)) + α := by
        rw [← hen]; push_cast; rw [Int.toNat_natCast]
      rw [hu2c, hvn2, pow_cast_of_modEq hs2m, hcz, mul_pow, one_add_mul_pow, hes]
      push_cast
      rw [mul_pow, ← pow_mul, ← pow_mul, mul_comm e.toNat st.ek]
      linear_combination ((e.toNat : ZMod (st.ek * st.ek)) * (w.x.val : ZMod (st.ek * st.ek)) *
        α * (β : ZMod (st.ek * st.ek)) ^ st.ek *
        (w.r : ZMod (st.ek * st.ek)) ^ (st.ek * e.toNat)) * cast_n_sq st.ek
    have hu : ((e * (w.x.val : ℤ) + α : ℤ) : Sc) • st.G - (e : Sc) • st.Q = (α : Sc) • st.G := by
      rw [hQ, ← mul_smul, ← sub_smul]; push_cast; simp
    subst e2 e3
    rw [Nat.cast_mul] at hu2 hcc hy2
    have ecc : commitmentUnknownOrder (↑st.ek + 1) ((w.r ^ e.toNat * β) % st.ek) (st.ek * st.ek)
        (e * w.x.val + α) st.ek = some c := by rw [← es2]; exact hcc
    simp only [pdlAnswer, pdlSim]
    rw [hstN, hz, hu2, hu3]
    change (commitmentUnknownOrder w.r β st.ek e 1).bind _ = _
    rw [show commitmentUnknownOrder w.r β st.ek e 1 = some s2 from hs2, hz', ecc]
    change _ = (commitmentUnknownOrder c st.ciphertext (st.ek * st.ek) 1 (-e)).bind _
    rw [hy2, hd]
    change _ = (commitmentUnknownOrder d z' M 1 (-e)).bind _
    rw [hy3, hu, es2]
    rfl
  · have r1 : Rare 2 q (below ((q : ℤ) ^ 3)) (fun α => (q : ℤ) ^ 3 ≤ α + 2 * q * q) :=
      rare_top (by positivity) (by positivity) (by push_cast; apply le_of_eq; ring)
    have r2 : Rare 1 q (Finset.Ico (1 : ℤ) ((st.ek : ℤ) - 1))
        (fun β => (w.r ^ e.toNat * β) % st.ek = (st.ek : ℤ) - 1) := by
      unfold Rare
      have c1 : count (Finset.Ico (1 : ℤ) ((st.ek : ℤ) - 1))
          (fun β => (w.r ^ e.toNat * β) % st.ek = (st.ek : ℤ) - 1) ≤ 1 := by
        rw [count_eq, Finset.card_le_one]
        intro β hβ β' hβ'
        obtain ⟨m1, m2⟩ := mem_sel.1 hβ
        obtain ⟨m3, m4⟩ := mem_sel.1 hβ'
        exact hginj β β' (hsamp β m1) (hsamp β' m3) (m2.trans m4.symm)
      rw [Int.card_Ico]
      have := Nat.mul_le_mul_left q c1
      omega
    have r3 : Rare 1 q (below (q * st.N_tilde)) (fun ρ => q * st.N_tilde ≤ ρ + st.N_tilde) :=
      rare_top (by positivity) (by positivity) (by push_cast; apply le_of_eq; ring)
    have r4 : Rare 2 q (below ((q : ℤ) ^ 3 * st.N_tilde))
        (fun γ => (q : ℤ) ^ 3 * st.N_tilde ≤ γ + 2 * q * (q * st.N_tilde)) :=
      rare_top (by positivity) (by positivity) (by push_cast; apply le_of_eq; ring)
    refine Rare.mono ((r1.fst).or ((r2.fst.snd).or ((r3.fst.snd.snd).or (r4.snd.snd.snd)))) ?_
    rintro ⟨α, β, ρ, γ⟩ h hout
    simp only [pdlSamples, Finset.mem_product] at h hout ⊢
    obtain ⟨m1, m2, m3, m4⟩ := h
    by_contra hcon
    push Not at hcon
    obtain ⟨c1, c2, c3, c4⟩ := hcon
    refine hout ⟨?_, ?_, ?_, ?_⟩
    · by_contra hn; exact absurd (not_mem_below m1 b1 b2 hn) (not_le.2 c1)
    · rw [Finset.mem_Ico]
      have hb := hg β
      have hne : (w.r ^ e.toNat * β) % st.ek ≠ 0 := by
        intro h0
        have h00 : (w.r ^ e.toNat * 0) % st.ek = 0 := by rw [mul_zero, Int.zero_emod]
        have := hginj β 0 (hsamp β m2) ⟨le_refl _, hek'⟩ (h0.trans h00.symm)
        have := Finset.mem_Ico.1 m2
        omega
      omega
    · by_contra hn; exact absurd (not_mem_below m3 hx0 hxM hn) (not_le.2 c3)
    · by_contra hn; exact absurd (not_mem_below m4 (b3 ρ m3).1 (b3 ρ m3).2 hn) (not_le.2 c4)

/-- The proof that is sent is the answer to the challenge that belongs to its first message. -/
theorem C97_pdl_prove {w : PDLwSlackWitness} {st : PDLwSlackStatement} {α β ρ γ : ℤ} {pf : PDLwSlackProof}
    (h : PDLwSlackProof.prove w st ⟨α, β, ρ, γ⟩ = some pf) :
    pdlAnswer w st (pdlChallenge st pf.z pf.u1 pf.u2 pf.u3) (α, β, ρ, γ) = some pf := by
  unfold PDLwSlackProof.prove at h
  simp only [Option.bind_eq_bind, Option.bind_eq_some_iff] at h
  obtain ⟨z, hz, u2, hu2, u3, hu3, s2, hs2, h⟩ := h
  have h := Option.some.inj h
  subst h
  simp only [pdlAnswer, Option.bind_eq_bind]
  rw [hz, hu2, hu3]
  change (commitmentUnknownOrder w.r β st.ek (pdlChallenge st z ((α : Sc) • st.G) u2 u3) 1).bind _ = _
  rw [hs2]
  rfl

end

/-! ### Examples -/

section
attribute [local instance] Secp256k1.crypto

/-- C97: the challenges of SHA-256 on secp256k1 are in the assumed range. -/
theorem C97_challenge_range (l : List ℤ) : (0 : ℤ) ≤ hashInts l ∧ (hashInts l : ℤ) ≤ 2 * (q : ℤ) := by
  refine ⟨Int.natCast_nonneg _, ?_⟩
  have h : Digest.ints Sha256.hash l < 256 ^ 32 := by
    have := fromBytes_lt (Sha256.hash (l.flatMap toBytes))
    rwa [Sha256.hash_length] at this
  have h2 : (256 : ℕ) ^ 32 ≤ 2 * Secp256k1.n := by norm_num [Secp256k1.n]
  have h3 : Digest.ints Sha256.hash l ≤ 2 * Secp256k1.n := h.le.trans h2
  have h4 : (Digest.ints Sha256.hash l : ℤ) ≤ 2 * (Secp256k1.n : ℤ) := by exact_mod_cast h3
  exact h4

end

/-- C97: sampling modulo 15. -/
example : fromPaillierKey 15 [5, 0, 7, 2] = some 7 ∧ (7 : ℤ) ∈ unitsBelow (15 : ℕ) ∧ (2 : ℤ) ∈ unitsBelow (15 : ℕ) := by
  decide +kernel

section
attribute [local instance] Toy.crypto

/-- Auxiliary parameters modulo 35, the first a power of the second. -/
def zkSt : DLogStatement := ⟨35, 9, 3⟩

theorem zkSt_usable : zkSt.Usable := ⟨by decide, by decide, by decide⟩

/-- C97: Alice's proof that she knows the plaintext 7, for the challenge 40. -/
example : Within 5 q (aliceSamples 2021 zkSt.N) (aliceAnswer 2021 zkSt 7 5 40) (aliceSim zkSt 40) :=
  C97_alice (by decide) zkSt_usable (s := 10) (by decide) (by decide) (by decide) (by decide)

/-- C97: Bob's proof for the secret 7 and the mask 1000. -/
example : Within 10 q (bobSamples 2021 zkSt.N) (bobAnswer 2021 zkSt (7 : ZMod 31) 1000 1234 5 true 40)
    (bobSim zkSt ((7 : ZMod 31) • (G : Pt)) true 40) :=
  C97_bob (by decide) zkSt_usable (s := 10) (by decide) (by decide) (by decide) true (by decide)

/-- C97: the PDL proof for the secret 7, encrypted with the key 2021. -/
example : ∃ (w : PDLwSlackWitness) (st : PDLwSlackStatement), q + 2 ≤ st.ek ∧ st.Q = w.x • st.G ∧ st.G ≠ 0 ∧
    Within 6 q (pdlSamples st.ek st.N_tilde) (pdlAnswer w st 40) (pdlSim st 40) := by
  obtain ⟨c, hc⟩ : ∃ c, Paillier.IsEnc 2021 c 7 5 := ⟨_, Int.ModEq.refl _⟩
  have h1 : q + 2 ≤ 2021 := by decide
  have h2 : (7 : ZMod 31) = (7 : ZMod 31) • (1 : ZMod 31) := by decide
  have h3 : (1 : ZMod 31) ≠ 0 := by decide
  have h4 : (3 : ℤ) ^ 10 * 9 ≡ 1 [ZMOD 35] := by decide
  have h5 : Int.gcd 5 (2021 : ℕ) = 1 := by decide
  exact ⟨⟨(7 : ZMod 31), 5⟩, ⟨c, 2021, (7 : ZMod 31), (1 : ZMod 31), 9, 3, 35⟩, h1, h2, h3,
    C97_pdl (w := ⟨(7 : ZMod 31), 5⟩) h1 zkSt_usable h4 h2 h5 hc (by decide)⟩

end
end Verif.Props
