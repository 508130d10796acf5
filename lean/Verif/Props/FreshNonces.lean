import Verif.Spec.FreshNonces
import Verif.Props.OneSource
import Verif.Props.RareRecid

/-!
# C141: sessions do not use the same nonce

A birthday bound over the nonces that one signer draws in several sessions.
-/

namespace Verif.Props

open EC Crypto Spec

section
variable {Ω : Type} [Finite Ω]

theorem chance_exists {ι : Type} {g : Ω → ι → Prop} (s : Finset ι) :
    chance (fun ω => ∃ a ∈ s, g ω a) ≤ ∑ a ∈ s, chance (fun ω => g ω a) := by
  classical
  induction s using Finset.induction_on with
  | empty => simp [chance]
  | insert a s ha ih =>
    rw [Finset.sum_insert ha]
    refine le_trans (chance_le_add (F := fun ω => g ω a) (B := fun ω => ∃ b ∈ s, g ω b) ?_) (by linarith)
    rintro ω ⟨b, hb, hg⟩
    rcases Finset.mem_insert.1 hb with rfl | hb
    · exact .inl hg
    · exact .inr ⟨b, hb, hg⟩

theorem chance_pair [Nonempty Ω] {N : ℕ} {E : Ω → Ω → Prop} {c : ℚ} (h : ∀ u, chance (fun v => E u v) ≤ c) {i j : Fin N}
    (hij : i ≠ j) : chance (fun ω : Fin N → Ω => E (ω i) (ω j)) ≤ c := by
  have := chance_equiv (Equiv.funSplitAt j Ω) (E := fun z => E (z.2 ⟨i, hij⟩) z.1)
  refine le_of_eq_of_le ?_ (chance_prod_le (E := fun z : Ω × ({k // k ≠ j} → Ω) => E (z.2 ⟨i, hij⟩) z.1)
    fun y => h (y ⟨i, hij⟩))
  rw [← this]
  rfl

theorem birthday [Nonempty Ω] {N : ℕ} {E : Fin N → Fin N → Ω → Ω → Prop} {c : ℚ}
    (h : ∀ i j u, chance (fun v => E i j u v) ≤ c) :
    chance (fun ω : Fin N → Ω => ∃ i j, i < j ∧ E i j (ω i) (ω j)) ≤ N * (N - 1) / 2 * c := by
  have h1 := chance_exists (Ω := Fin N → Ω) (g := fun ω j => ∃ i ∈ Finset.Iio j, E i j (ω i) (ω j)) Finset.univ
  have h2 : ∀ j : Fin N, chance (fun ω : Fin N → Ω => ∃ i ∈ Finset.Iio j, E i j (ω i) (ω j)) ≤ (j : ℕ) * c := fun j => by
    refine le_trans (chance_exists (g := fun (ω : Fin N → Ω) i => E i j (ω i) (ω j)) _) ?_
    have := Finset.sum_le_card_nsmul (Finset.Iio j) (fun i => chance fun ω : Fin N → Ω => E i j (ω i) (ω j)) c
      fun i hi => chance_pair (h i j) (Finset.mem_Iio.1 hi).ne
    rwa [Fin.card_Iio, nsmul_eq_mul] at this
  have h3 : ∀ M : ℕ, ∑ j ∈ Finset.range M, (j : ℚ) * c = M * (M - 1) / 2 * c := fun M => by
    induction M with
    | zero => simp
    | succ M ih => rw [Finset.sum_range_succ, ih]; push_cast; ring
  have h4 := Finset.sum_le_sum fun j (_ : j ∈ (Finset.univ : Finset (Fin N))) => h2 j
  rw [Fin.sum_univ_eq_sum_range (fun j => (j : ℚ) * c), h3] at h4
  refine le_trans (le_of_eq ?_) (h1.trans h4)
  congr 1
  funext ω
  simp only [Finset.mem_univ, true_and, Finset.mem_Iio, eq_iff_iff]
  exact exists_comm

end

section
variable [Crypto]

instance nonempty_nonzero : Nonempty {z : Sc // z ≠ 0} := ⟨⟨1, one_ne_zero⟩⟩

theorem birthday_nonce {N : ℕ} (E : Fin N → Fin N → {z : Sc // z ≠ 0} → {z : Sc // z ≠ 0} → Prop)
    (h : ∀ i j u, chance (fun v => E i j u v) ≤ 4 / ((q : ℚ) - 1)) :
    chance (fun ω : Fin N → {z : Sc // z ≠ 0} => ∃ i j, i < j ∧ E i j (ω i) (ω j)) ≤ 2 * N * (N - 1) / ((q : ℚ) - 1) := by
  have e : (N : ℚ) * (N - 1) / 2 * (4 / ((q : ℚ) - 1)) = 2 * N * (N - 1) / ((q : ℚ) - 1) := by ring
  rw [← e]
  exact birthday h

/-- **C141**, Lindell17. Among `N` sessions, with any keys and messages, in which party one draws its nonces
independently, two end with the same `r` for at most a fraction `2 N (N - 1) / (q - 1)` of these nonces, whatever all
other samples are. -/
theorem C141_lindell (hp : p ≤ 2 * q) {N : ℕ} (s : Fin N → LindellSession) (hs : ∀ i, (s i).Fair) (m : Fin N → ℤ) :
    chance (fun k1 : Fin N → {z : Sc // z ≠ 0} => ∃ i j, i < j ∧ ∃ sig sig',
      LindellSession.Outputs { s i with k1 := (k1 i).1 } (m i) sig ∧
      LindellSession.Outputs { s j with k1 := (k1 j).1 } (m j) sig' ∧ sig.r = sig'.r) ≤
      2 * N * (N - 1) / ((q : ℚ) - 1) := by
  refine birthday_nonce (fun i j u v => ∃ sig sig',
      LindellSession.Outputs { s i with k1 := u.1 } (m i) sig ∧
      LindellSession.Outputs { s j with k1 := v.1 } (m j) sig' ∧ sig.r = sig'.r) fun i j u => ?_
  obtain ⟨x, y, sig, hc, ho, hr, -⟩ := lindell_outputs (s := { s i with k1 := u.1 })
    ⟨(hs i).valid, (hs i).large, u.2, (hs i).k2, (hs i).rho, (hs i).rk, (hs i).r⟩ (m i)
  have hl := chance_xs (hs j).k2 [x % q, x % q + q]
  norm_num at hl
  refine le_trans (chance_mono' ?_) hl
  rintro v ⟨sig1, sig', h1, h', e⟩
  obtain rfl := lindell_outputs_unique ho h1
  obtain ⟨x', y', sig'', hc', ho', hr', -⟩ := lindell_outputs (s := { s j with k1 := v.1 })
    ⟨(hs j).valid, (hs j).large, v.2, (hs j).k2, (hs j).rho, (hs j).rk, (hs j).r⟩ (m j)
  obtain rfl := lindell_outputs_unique ho' h'
  refine ⟨x', ⟨y', hc'⟩, ?_⟩
  rw [hr, hr'] at e
  have e' : x % q = x' % q := by exact_mod_cast e
  have := (coords_lt _ _ _ hc').1
  rw [e']
  by_cases hx : x' < q
  · left; rw [Nat.mod_eq_of_lt hx]
  · right
    rw [Nat.mod_eq_sub_mod (by omega), Nat.mod_eq_of_lt (by omega)]
    omega

/-- **C141**, CCLST19. -/
theorem C141_cclst [CL] (hp : p ≤ 2 * q) {N : ℕ} (s : Fin N → CclSession) (hs : ∀ i, (s i).k2 ≠ 0) (m : Fin N → ℤ) :
    chance (fun k1 : Fin N → {z : Sc // z ≠ 0} => ∃ i j, i < j ∧ ∃ sig sig',
      CclSession.Outputs { s i with k1 := (k1 i).1 } (m i) sig ∧
      CclSession.Outputs { s j with k1 := (k1 j).1 } (m j) sig' ∧ sig.r = sig'.r) ≤
      2 * N * (N - 1) / ((q : ℚ) - 1) := by
  refine birthday_nonce (fun i j u v => ∃ sig sig',
      CclSession.Outputs { s i with k1 := u.1 } (m i) sig ∧
      CclSession.Outputs { s j with k1 := v.1 } (m j) sig' ∧ sig.r = sig'.r) fun i j u => ?_
  obtain ⟨x, y, sig, hc, ho, hr, -⟩ := ccl_outputs (s := { s i with k1 := u.1 }) u.2 (hs i) (m i)
  have hl := chance_xs (hs j) [x % q, x % q + q]
  norm_num at hl
  refine le_trans (chance_mono' ?_) hl
  rintro v ⟨sig1, sig', h1, h', e⟩
  obtain rfl := ccl_outputs_unique ho h1
  obtain ⟨x', y', sig'', hc', ho', hr', -⟩ := ccl_outputs (s := { s j with k1 := v.1 }) v.2 (hs j) (m j)
  obtain rfl := ccl_outputs_unique ho' h'
  refine ⟨x', ⟨y', hc'⟩, ?_⟩
  rw [hr, hr'] at e
  have e' : x % q = x' % q := by exact_mod_cast e
  have := (coords_lt _ _ _ hc').1
  rw [e']
  by_cases hx : x' < q
  · left; rw [Nat.mod_eq_of_lt hx]
  · right
    rw [Nat.mod_eq_sub_mod (by omega), Nat.mod_eq_of_lt (by omega)]
    omega

/-- **C141**, GG20. Among `N` sessions in which all signers follow the program and one signer in each draws its nonce
share, whatever all other samples are, two have nonce points with the same `r` with at most that chance. -/
theorem C141_gg20 (hp : p ≤ 2 * q) {N : ℕ} (s : Fin N → Gg20Session) (hs : ∀ i, (s i).Fits) :
    chance (fun k : Fin N → {z : Sc // z ≠ 0} => ∃ i j, i < j ∧ ∃ R R' x y x' y', (s i).Nonce (k i).1 R ∧
      (s j).Nonce (k j).1 R' ∧ coords R = some (x, y) ∧ coords R' = some (x', y') ∧ (x : Sc) = (x' : Sc)) ≤
      2 * N * (N - 1) / ((q : ℚ) - 1) := by
  have hR : ∀ i u R, (s i).Nonce u R →
      R = (u + ∑ j ∈ (Finset.range (s i).s_l.length).erase (s i).pos, (s i).k j)⁻¹ • (G : Pt) := by
    rintro i u R ⟨rnd, cs, h, rfl, hk, ho, c, hc, rfl⟩
    obtain ⟨hx, hlen, hi⟩ := hs i
    have hd := GG20.Sign.signShare_sum h.members h.nodup hx hlen
    obtain rfl := Res.ok.inj (ho.symm.trans (GG20.Sign.offline_eq h hd rfl))
    obtain ⟨j, -, rfl⟩ := List.mem_map.1 hc
    show GG20.Sign.oR _ rnd = _
    rw [GG20.Sign.oR_eq h.gamma_sum, sum_update hi (fun j => (rnd j).k) _ hk]
  refine birthday_nonce (fun i j u v => ∃ R R' x y x' y', (s i).Nonce u.1 R ∧
      (s j).Nonce v.1 R' ∧ coords R = some (x, y) ∧ coords R' = some (x', y') ∧ (x : Sc) = (x' : Sc)) fun i j u => ?_
  by_cases hE : ∃ R x y, (s i).Nonce u.1 R ∧ coords R = some (x, y)
  · obtain ⟨R, x, y, hn, hc⟩ := hE
    obtain ⟨l, hl, hmem⟩ := points_with_x_mod hp (x : Sc)
    have := chance_mem (f := fun v : {z : Sc // z ≠ 0} =>
      (v.1 + ∑ j' ∈ (Finset.range (s j).s_l.length).erase (s j).pos, (s j).k j')⁻¹ • (G : Pt))
      (fun v w e => Subtype.ext (add_right_cancel (inv_injective ((smul_G_inj).1 e)))) l hl
    rw [card_nonzero] at this
    refine le_trans (chance_mono' ?_) this
    rintro v ⟨R1, R', x1, y1, x', y', hn1, hn', hc1, hc', e⟩
    obtain rfl := (hR _ _ _ hn).trans (hR _ _ _ hn1).symm
    rw [hc] at hc1
    cases hc1
    show _ ∈ l
    rw [← hR _ _ _ hn']
    exact hmem _ _ _ hc' e.symm
  · have : IsEmpty {v : {z : Sc // z ≠ 0} // ∃ R R' x y x' y', (s i).Nonce u.1 R ∧
      (s j).Nonce v.1 R' ∧ coords R = some (x, y) ∧ coords R' = some (x', y') ∧ (x : Sc) = (x' : Sc)} :=
      ⟨fun v => by obtain ⟨v, R, R', x, y, x', y', h1, -, h2, -⟩ := v; exact hE ⟨R, x, y, h1, h2⟩⟩
    have hq : (1 : ℚ) < q := by exact_mod_cast q_prime.out.one_lt
    unfold chance
    rw [Nat.card_of_isEmpty, Nat.cast_zero, zero_div]
    exact div_nonneg (by norm_num) (by linarith)

/-- **C141**, GG18 demo: the same for the signatures that the clients output. -/
theorem C141_gg18 (hp : p ≤ 2 * q) {N : ℕ} (s : Fin N → Gg18Session) (hs : ∀ i, (s i).Fits) :
    chance (fun k : Fin N → {z : Sc // z ≠ 0} => ∃ i j, i < j ∧ ∃ sig sig', (s i).Signs (k i).1 sig ∧
      (s j).Signs (k j).1 sig' ∧ sig.r = sig'.r) ≤ 2 * N * (N - 1) / ((q : ℚ) - 1) := by
  have hR : ∀ i u sig, (s i).Signs u sig → ∃ x y, coords
      ((u + ∑ j ∈ (Finset.range (s i).s_l.length).erase (s i).pos, (s i).k j)⁻¹ • (G : Pt)) = some (x, y) ∧
      sig.r = (x : Sc) := by
    rintro i u sig ⟨rnd, h, rfl, hk, hm, hrun⟩
    obtain ⟨hx, hlen, hi⟩ := hs i
    obtain ⟨xr, y, hc, hse, hs0⟩ := Demo.Sign.honest_equation h hx hlen _ hm
    have hrun' := Demo.Sign.run_eq h _ hc (by omega) hse hs0
    rw [List.map_const', List.length_range] at hrun'
    have hsig := List.replicate_right_inj (by omega) |>.1 (Res.ok.inj (hrun.symm.trans hrun'))
    have hR : GG20.Sign.oR (s i).s_l (Demo.Sign.conv rnd) =
        (∑ j ∈ Finset.range (s i).s_l.length, (rnd (j + 1)).k)⁻¹ • (G : Pt) := GG20.Sign.oR_eq h.gamma_sum
    refine ⟨xr, y, ?_, by rw [hsig]⟩
    rw [← hc, hR, sum_update hi (fun j => (rnd (j + 1)).k) _ hk]
  refine birthday_nonce (fun i j u v => ∃ sig sig', (s i).Signs u.1 sig ∧ (s j).Signs v.1 sig' ∧ sig.r = sig'.r)
    fun i j u => ?_
  by_cases hE : ∃ sig, (s i).Signs u.1 sig
  · obtain ⟨sig, hn⟩ := hE
    obtain ⟨x, y, hc, hr⟩ := hR _ _ _ hn
    obtain ⟨l, hl, hmem⟩ := points_with_x_mod hp (x : Sc)
    have := chance_mem (f := fun v : {z : Sc // z ≠ 0} =>
      (v.1 + ∑ j' ∈ (Finset.range (s j).s_l.length).erase (s j).pos, (s j).k j')⁻¹ • (G : Pt))
      (fun v w e => Subtype.ext (add_right_cancel (inv_injective ((smul_G_inj).1 e)))) l hl
    rw [card_nonzero] at this
    refine le_trans (chance_mono' ?_) this
    rintro v ⟨sig1, sig', hn1, hn', e⟩
    obtain ⟨x1, y1, hc1, hr1⟩ := hR _ _ _ hn1
    obtain ⟨x', y', hc', hr'⟩ := hR _ _ _ hn'
    rw [hc] at hc1
    cases hc1
    exact hmem _ _ _ hc' (by rw [← hr', ← e, hr1])
  · have : IsEmpty {v : {z : Sc // z ≠ 0} // ∃ sig sig', (s i).Signs u.1 sig ∧ (s j).Signs v.1 sig' ∧ sig.r = sig'.r} :=
      ⟨fun v => by obtain ⟨v, sig, sig', h1, -⟩ := v; exact hE ⟨sig, h1⟩⟩
    have hq : (1 : ℚ) < q := by exact_mod_cast q_prime.out.one_lt
    unfold chance
    rw [Nat.card_of_isEmpty, Nat.cast_zero, zero_div]
    exact div_nonneg (by norm_num) (by linarith)

end

section
attribute [local instance] Secp256k1.inst

/-- **C141** (the real parameters): on secp256k1 the bound is below `2^-126` for up to `2^64` sessions. -/
theorem C141_secp256k1 : p ≤ 2 * q ∧ ∀ N : ℕ, N ≤ 2 ^ 64 → 2 * (N : ℚ) * (N - 1) / ((q : ℚ) - 1) ≤ 1 / 2 ^ 126 := by
  have hp : (p : ℕ) = Secp256k1.p := rfl
  have hq : (q : ℕ) = Secp256k1.n := rfl
  rw [hp, hq]
  refine ⟨by norm_num [Secp256k1.p, Secp256k1.n], fun N hN => ?_⟩
  have h1 : (N : ℚ) ≤ 2 ^ 64 := by exact_mod_cast hN
  have h0 : (0 : ℚ) ≤ N := Nat.cast_nonneg N
  have h2 : 2 * (N : ℚ) * (N - 1) ≤ 2 * 2 ^ 128 := by nlinarith
  refine (div_le_div_of_nonneg_right h2 ?_).trans ?_ <;> norm_num [Secp256k1.n]

end

/-! ### Examples -/

section Examples
attribute [local instance] Toy.crypto
attribute [local instance] CL.trivial

example := C141_lindell (by decide) (N := 3) (fun _ => toyLindell) (fun _ => toyLindell_fair) fun _ => 10

example := C141_cclst (by decide) (N := 3) (fun _ => toyCcl) (fun _ => by decide) fun _ => 10

/-- The session of C39, with its own nonce share of the first signer. -/
def toyGg20 : Gg20Session where
  t := 1
  n := 3
  x := toyX
  d := (5 : ZMod 31)
  dk := fun _ => toyKey
  sts := [toySt, toySt, toySt]
  s_l := [3, 1]
  key := fun k => toyLocal ([3, 1].getD k 0)
  pos := 0
  k := fun j => (toySign j).k

theorem toyGg20_fits : toyGg20.Fits := by
  have hrec := toyX_poly.reconstructs (by decide)
  have h0 : (Polynomial.C (5 : ZMod 31) + Polynomial.C (7 : ZMod 31) * Polynomial.X).eval 0 = 5 := by simp
  have hx : Reconstructs 1 3 toyX (5 : ZMod 31) := h0 ▸ hrec
  exact ⟨hx, by decide, by decide⟩

example := C141_gg20 (by decide) (N := 3) (fun _ => toyGg20) fun _ => toyGg20_fits

/-- A nonce point comes out in that session. -/
example : ∃ R, toyGg20.Nonce (toySign 0).k R := by
  obtain ⟨κ, h⟩ := C117_nonce toyGg20_fits.shares toyGg20_fits.enough toyGg20_fits.pos_lt toyGg20.k (0 : ZMod 31)
  obtain ⟨cs, ho, hlen, -⟩ := h toySign toyHonest fun _ _ _ => rfl
  have : 0 < cs.length := by rw [hlen]; decide
  exact ⟨_, toySign, cs, toyHonest, rfl, fun _ _ _ => rfl, ho, cs[0], List.getElem_mem _, rfl⟩

/-- The GG18 room of C51. -/
example : ∃ s : Gg18Session, s.Fits ∧
    Spec.GG18.HonestRoom s.n (s.d • G) s.x s.dk s.s_l s.key toyRoom ∧
    chance (fun k : Fin 2 → {z : ZMod 31 // z ≠ 0} => ∃ i j, i < j ∧ ∃ sig sig', s.Signs (k i).1 sig ∧
      s.Signs (k j).1 sig' ∧ sig.r = sig'.r) ≤ 2 * (2 : ℕ) * ((2 : ℕ) - 1) / ((q : ℚ) - 1) := by
  obtain ⟨x, dk, h, hx⟩ := toyRoom_room
  let s : Gg18Session := ⟨1, 3, x, (6 : ZMod 31), dk, [3, 1],
    fun k => Demo.Keygen.kFile 1 3 toyKg ([3, 1].getD (k - 1) 0 - 1), 10, 1, fun j => (toyRoom (j + 1)).k⟩
  have hs : s.Fits := ⟨hx, show 1 + 1 ≤ 2 by decide, show 1 < 2 by decide⟩
  exact ⟨s, hs, h, C141_gg18 (by decide) (N := 2) (fun _ => s) fun _ => hs⟩

end Examples

end Verif.Props
