import Verif.Spec.OneSource
import Verif.Props.Reliability
import Verif.Props.TwoParty

/-!
# C117: one good source of random numbers suffices
-/

namespace Verif.Props

open EC Crypto Spec

section
variable [Crypto]

/-- A sum in which one summand varies. -/
theorem sum_update {n i : ℕ} (hi : i < n) (f g : ℕ → Sc) (h : ∀ j < n, j ≠ i → f j = g j) :
    ∑ j ∈ Finset.range n, f j = f i + ∑ j ∈ (Finset.range n).erase i, g j := by
  rw [← Finset.add_sum_erase _ _ (Finset.mem_range.2 hi)]
  congr 1
  refine Finset.sum_congr rfl fun j hj => ?_
  obtain ⟨h1, h2⟩ := Finset.mem_erase.1 hj
  exact h j (Finset.mem_range.1 h2) h1

/-- Adding a non-zero secret to the others. -/
theorem eachOnce_add (c : Sc) {outcome : Sc → Pt → Prop}
    (h : ∀ u ≠ 0, ∀ Y, outcome u Y ↔ Y = (u + c) • G) :
    EachOnce {u | u ≠ 0} {Y | Y ≠ c • (G : Pt)} outcome where
  one := fun u hu => ⟨(u + c) • G, (h u hu _).2 rfl, fun Y hY => (h u hu Y).1 hY⟩
  mem := fun u hu Y hY => by
    rw [(h u hu Y).1 hY]
    intro h0
    exact hu (by simpa using smul_G_inj.1 h0)
  hit := fun Y hY => by
    obtain ⟨y, rfl⟩ := gen Y
    have hy : y - c ≠ 0 := fun h0 => hY (by rw [sub_eq_zero.1 h0])
    refine ⟨y - c, ⟨hy, (h _ hy _).2 (by rw [sub_add_cancel])⟩, fun u hu => ?_⟩
    have := smul_G_inj.1 ((h u hu.1 _).1 hu.2)
    rw [this, add_sub_cancel_right]

/-- Multiplying a non-zero secret with another. -/
theorem eachOnce_mul {c : Sc} (hc : c ≠ 0) {outcome : Sc → Pt → Prop}
    (h : ∀ u ≠ 0, ∀ Y, outcome u Y ↔ Y = (u * c) • G) :
    EachOnce {u | u ≠ 0} {Y | Y ≠ (0 : Pt)} outcome where
  one := fun u hu => ⟨(u * c) • G, (h u hu _).2 rfl, fun Y hY => (h u hu Y).1 hY⟩
  mem := fun u hu Y hY => by
    rw [(h u hu Y).1 hY]
    intro h0
    exact mul_ne_zero hu hc (smul_G_eq_zero.1 h0)
  hit := fun Y hY => by
    obtain ⟨y, rfl⟩ := gen Y
    have hy0 : y ≠ 0 := fun h0 => hY (by rw [h0, zero_smul])
    have hy : y / c ≠ 0 := div_ne_zero hy0 hc
    refine ⟨y / c, ⟨hy, (h _ hy _).2 (by rw [div_mul_cancel₀ _ hc])⟩, fun u hu => ?_⟩
    have := smul_G_inj.1 ((h u hu.1 _).1 hu.2)
    rw [this, mul_div_cancel_right₀ _ hc]

/-- **C117.** Key generation (GG20): fix all random values but the secret of party `i + 1`.  The session
ends with one public key at all parties, and every point but one is that key for exactly one of the non-zero
secrets that the party may draw. -/
theorem C117_keygen {t n i : ℕ} (ht : t < n) (hn : n < q) (hi : i < n) (rnd : ℕ → GG20.KeygenRandomness)
    (hon : ∀ k < n, GG20.Keygen.HonestRandomness t (rnd k)) :
    EachOnce {u : Sc | u ≠ 0} {Y | Y ≠ (∑ k ∈ (Finset.range n).erase i, (rnd k).u) • (G : Pt)}
      (fun u Y => ∃ keys, GG20.Keygen.run t n (Function.update rnd i { rnd i with u := u }) = .ok keys ∧
        keys.length = n ∧ ∀ key ∈ keys, key.public_key = Y) := by
  refine eachOnce_add _ fun u _ Y => ?_
  obtain ⟨keys, d, x, pails, sts, hrun, hlen, hd, -, hk⟩ := C10_honest_keygen ht hn
    (Function.update rnd i { rnd i with u := u }) (fun k hk => by
      by_cases h : k = i
      · subst h
        rw [Function.update_self]
        exact ⟨(hon _ hk).dk_valid, (hon _ hk).dk_large, (hon _ hk).dk_size, (hon _ hk).aux_gen,
          (hon _ hk).coefs_len⟩
      · rw [Function.update_of_ne h]; exact hon k hk)
  have hd' : d = u + ∑ k ∈ (Finset.range n).erase i, (rnd k).u := by
    rw [hd, sum_update hi (fun k => (Function.update rnd i { rnd i with u := u } k).u) (fun k => (rnd k).u)
      (fun j _ hj => by simp only [Function.update_of_ne hj])]
    simp only [Function.update_self]
  have hall : ∀ key ∈ keys, key.public_key = d • G := fun key hkey => by
    obtain ⟨k, hk1, rfl⟩ := List.getElem_of_mem hkey
    exact (hk k _ (List.getElem?_eq_getElem hk1)).1
  rw [← hd']
  constructor
  · rintro ⟨keys', hrun', -, h⟩
    obtain rfl := Res.ok.inj (hrun.symm.trans hrun')
    have hm := List.getElem_mem (l := keys) (n := 0) (by omega)
    exact (h _ hm).symm.trans (hall _ hm)
  · rintro rfl
    exact ⟨keys, hrun, hlen, hall⟩

/-- **C117.** Key generation (GG18 demo): the same. -/
theorem C117_gg18_keygen (A : Aead) {t n i : ℕ} (ht : t < n) (hn : n < q) (hi : i < n)
    (rnd : ℕ → Demo.Keygen.Rand) (hon : ∀ i, 1 ≤ i → i ≤ n → Spec.GG18.HonestKeygenRand t (rnd i)) :
    EachOnce {u : Sc | u ≠ 0} {Y | Y ≠ (∑ k ∈ (Finset.range n).erase i, (rnd (k + 1)).u) • (G : Pt)}
      (fun u Y => ∃ files,
        Demo.Keygen.run A t n (Function.update rnd (i + 1) { rnd (i + 1) with u := u }) = .ok files ∧
        files.length = n ∧ ∀ file ∈ files, file.y_sum = Y) := by
  refine eachOnce_add _ fun u hu Y => ?_
  obtain ⟨keys, d, x, hrun, hlen, hd, -, hk⟩ := C16_honest_keygen A ht hn
    (Function.update rnd (i + 1) { rnd (i + 1) with u := u }) (fun k h1 hk => by
      by_cases h : k = i + 1
      · subst h
        rw [Function.update_self]
        exact ⟨hu, (hon _ h1 hk).dk_valid, (hon _ h1 hk).dk_large, (hon _ h1 hk).coefs_len⟩
      · rw [Function.update_of_ne h]; exact hon k h1 hk)
  have hd' : d = u + ∑ k ∈ (Finset.range n).erase i, (rnd (k + 1)).u := by
    rw [hd, sum_update hi (fun k => (Function.update rnd (i + 1) { rnd (i + 1) with u := u } (k + 1)).u)
      (fun k => (rnd (k + 1)).u)
      (fun j _ hj => by rw [Function.update_of_ne (by omega)])]
    simp only [Function.update_self]
  have hall : ∀ key ∈ keys, key.y_sum = d • G := fun key hkey => by
    obtain ⟨k, hk1, rfl⟩ := List.getElem_of_mem hkey
    exact (hk k _ (List.getElem?_eq_getElem hk1)).2.public_key
  rw [← hd']
  constructor
  · rintro ⟨keys', hrun', -, h⟩
    obtain rfl := Res.ok.inj (hrun.symm.trans hrun')
    have hm := List.getElem_mem (l := keys) (n := 0) (by omega)
    exact (h _ hm).symm.trans (hall _ hm)
  · rintro rfl
    exact ⟨keys, hrun, hlen, hall⟩

/-- A non-zero sum whose inverse gives a point. -/
theorem inv_smul_eq_iff {c k κ : Sc} : (k + c)⁻¹ • (G : Pt) = κ • G ↔ k = κ⁻¹ - c := by
  rw [smul_G_inj, inv_eq_iff_eq_inv, eq_sub_iff_add_eq]

/-- **C117.** Signing (GG20): fix the nonce shares of all signers but the one at position `i`.  For every
point `R` there is one nonce share of that signer with which the offline stage ends with the nonce point `R`
at all signers, whatever the other random values are; with all others it ends with another. -/
theorem C117_nonce {t n i : ℕ} {x : ℕ → Sc} {d : Sc} {dk : ℕ → DecKey} {sts : List DLogStatement}
    {s_l : List ℕ} {key : ℕ → GG20.LocalKey} (hx : Reconstructs t n x d) (hlen : t + 1 ≤ s_l.length)
    (hi : i < s_l.length) (k : ℕ → Sc) (R : Pt) :
    ∃ κ : Sc, ∀ rnd, HonestSigners n (d • G) x dk sts s_l key rnd → (∀ j < s_l.length, j ≠ i → (rnd j).k = k j) →
      ∃ cs, GG20.Sign.offline s_l key rnd = .ok cs ∧ cs.length = s_l.length ∧
        ∀ c ∈ cs, c.R = R ↔ (rnd i).k = κ := by
  obtain ⟨y, rfl⟩ := gen R
  refine ⟨y⁻¹ - ∑ j ∈ (Finset.range s_l.length).erase i, k j, fun rnd h hk => ?_⟩
  have hd := GG20.Sign.signShare_sum h.members h.nodup hx hlen
  refine ⟨_, GG20.Sign.offline_eq h hd rfl, by simp, fun c hc => ?_⟩
  obtain ⟨j, -, rfl⟩ := List.mem_map.1 hc
  show GG20.Sign.oR s_l rnd = _ ↔ _
  rw [GG20.Sign.oR_eq h.gamma_sum, sum_update hi (fun j => (rnd j).k) k hk]
  exact inv_smul_eq_iff

/-- **C117.** Signing (GG18 demo): with the nonce shares of all signers but one fixed, a given `r` comes out
for at most four nonce shares of that signer, whatever the other random values are. -/
theorem C117_gg18_nonce (hp : p ≤ 2 * q) {t n i : ℕ} {x : ℕ → Sc} {d : Sc} {dk : ℕ → DecKey} {s_l : List ℕ}
    {key : ℕ → Demo.Keygen.KeyFile} (hx : Reconstructs t n x d) (hlen : t + 1 ≤ s_l.length)
    (hi : i < s_l.length) (k : ℕ → Sc) (message : ℤ) (r : Sc) :
    ∃ l : List Sc, l.length ≤ 4 ∧ ∀ rnd sig, Spec.GG18.HonestRoom n (d • G) x dk s_l key rnd →
      (∀ j < s_l.length, j ≠ i → (rnd (j + 1)).k = k j) →
      (∀ xr y, coords ((∑ j ∈ Finset.range s_l.length, (rnd (j + 1)).k)⁻¹ • (G : Pt)) = some (xr, y) →
        (message : Sc) + (xr : Sc) * d ≠ 0) →
      Demo.Sign.run (s_l.length - 1) key message rnd = .ok (List.replicate s_l.length sig) → sig.r = r →
      (rnd (i + 1)).k ∈ l := by
  obtain ⟨l, hl, hmem⟩ := points_with_x_mod hp r
  have hg : ∀ P : Pt, ∃ a : Sc, P = a • G := fun P => by
    obtain ⟨a, rfl⟩ := gen P
    exact ⟨a, rfl⟩
  choose g hg using hg
  refine ⟨l.map (fun P => (g P)⁻¹ - ∑ j ∈ (Finset.range s_l.length).erase i, k j), by simpa using hl,
    fun rnd sig h hk hm hrun hr => ?_⟩
  obtain ⟨xr, y, hc, hse, hs0⟩ := Demo.Sign.honest_equation h hx hlen message hm
  have hrun' := Demo.Sign.run_eq h message hc (by omega) hse hs0
  rw [List.map_const', List.length_range] at hrun'
  have hsig := Res.ok.inj (hrun.symm.trans hrun')
  have hs : sig.r = (xr : Sc) := by
    have := List.replicate_right_inj (by omega) |>.1 hsig
    rw [this]
  have hR : GG20.Sign.oR s_l (Demo.Sign.conv rnd) =
      (∑ j ∈ Finset.range s_l.length, (rnd (j + 1)).k)⁻¹ • (G : Pt) := GG20.Sign.oR_eq h.gamma_sum
  refine List.mem_map.2 ⟨_, hmem _ xr y hc (hs.symm.trans hr), ?_⟩
  symm
  rw [← inv_smul_eq_iff, ← hg, hR, sum_update hi (fun j => (rnd (j + 1)).k) k hk]

/-- **C117.** Two parties, key generation (Lindell17): with party two's share fixed, every point but zero is the
public key for exactly one share of party one, and the other way round. -/
theorem C117_lindell_keygen (t1 t2 : Sc) (b1 b2 r : ℤ) (dk : DecKey) {c : Sc} (hc : c ≠ 0) :
    EachOnce {x1 : Sc | x1 ≠ 0} {Y | Y ≠ (0 : Pt)} (fun x1 Y =>
      let o1 := Lindell17.create_commitments x1 t1 b1 b2
      let o2 := Lindell17.party2_create c t2
      let s1 := Lindell17.Party1Private.set_private_key o1.2.2 (Lindell17.PaillierKeyPair.generate dk o1.2.2 r)
      Lindell17.compute_pubkey s1 o2.1.public_share = Y ∧
        Lindell17.party2_compute_pubkey o2.2 o1.2.1.public_share = Y) ∧
    EachOnce {x2 : Sc | x2 ≠ 0} {Y | Y ≠ (0 : Pt)} (fun x2 Y =>
      let o1 := Lindell17.create_commitments c t1 b1 b2
      let o2 := Lindell17.party2_create x2 t2
      let s1 := Lindell17.Party1Private.set_private_key o1.2.2 (Lindell17.PaillierKeyPair.generate dk o1.2.2 r)
      Lindell17.compute_pubkey s1 o2.1.public_share = Y ∧
        Lindell17.party2_compute_pubkey o2.2 o1.2.1.public_share = Y) := by
  refine ⟨eachOnce_mul hc fun u _ Y => ?_, eachOnce_mul hc fun u _ Y => ?_⟩
  · have h := C53_keygen u c t1 t2 b1 b2 r dk
    dsimp only at h ⊢
    rw [h.2.2.1, h.2.2.2]
    exact ⟨fun h => h.1.symm, fun h => ⟨h.symm, h.symm⟩⟩
  · have h := C53_keygen c u t1 t2 b1 b2 r dk
    dsimp only at h ⊢
    rw [h.2.2.1, h.2.2.2, mul_comm]
    exact ⟨fun h => h.1.symm, fun h => ⟨h.symm, h.symm⟩⟩

/-- **C117.** Two parties, signing (Lindell17; CCLST19 uses the same functions): with one party's nonce fixed,
every point but zero is the nonce point for exactly one nonce of the other. -/
theorem C117_two_party_nonce (n1 n2 : Sc) (b1 b2 : ℤ) {c : Sc} (hc : c ≠ 0) :
    EachOnce {k1 : Sc | k1 ≠ 0} {R | R ≠ (0 : Pt)} (fun k1 R =>
      let o1 := Lindell17.eph_create k1 n1
      let o2 := Lindell17.eph_create_commitments c n2 b1 b2
      o1.2.secret_share • o2.2.1.public_share = R ∧ o2.2.2.secret_share • o1.1.public_share = R) ∧
    EachOnce {k2 : Sc | k2 ≠ 0} {R | R ≠ (0 : Pt)} (fun k2 R =>
      let o1 := Lindell17.eph_create c n1
      let o2 := Lindell17.eph_create_commitments k2 n2 b1 b2
      o1.2.secret_share • o2.2.1.public_share = R ∧ o2.2.2.secret_share • o1.1.public_share = R) := by
  refine ⟨eachOnce_mul hc fun u _ Y => ?_, eachOnce_mul hc fun u _ Y => ?_⟩
  · have h := C53_nonces u c n1 n2 b1 b2
    dsimp only at h ⊢
    rw [h.2.2.1, h.2.2.2]
    exact ⟨fun h => h.1.symm, fun h => ⟨h.symm, h.symm⟩⟩
  · have h := C53_nonces c u n1 n2 b1 b2
    dsimp only at h ⊢
    rw [h.2.2.1, h.2.2.2, mul_comm]
    exact ⟨fun h => h.1.symm, fun h => ⟨h.symm, h.symm⟩⟩

/-- **C117.** CCLST19, key generation: with party one's share fixed, every point but zero is the public key
for exactly one share of party two. -/
theorem C117_cclst_party_two_partial [CL] (secret t1 t2 : Sc) (b1 b2 seed : ℤ) (rk re : ℕ)
    (hs : (CCLST19.create_commitments secret t1 b1 b2).2.2.secret_share ≠ 0) :
    EachOnce {x2 : Sc | x2 ≠ 0} {Y | Y ≠ (0 : Pt)} (fun x2 Y =>
      let o1 := CCLST19.create_commitments secret t1 b1 b2
      let o2 := CCLST19.party2_create x2 t2
      let h := CCLST19.HSMCL.generate o1.2.2 seed rk re
      let s1 := CCLST19.Party1Private.set_private_key o1.2.2 h.1
      CCLST19.compute_pubkey s1 o2.1.public_share = Y ∧
        CCLST19.party2_compute_pubkey o2.2 o1.2.1.public_share = Y) := by
  refine eachOnce_mul hs fun u _ Y => ?_
  have h := C57_keygen secret u t1 t2 b1 b2 seed rk re
  dsimp only at h ⊢
  rw [h.2.2.2.2.1, h.2.2.2.2.2, mul_comm]
  exact ⟨fun h => h.1.symm, fun h => ⟨h.symm, h.symm⟩⟩

/-- C117 is violated by CCLST19 for party one, which divides what it draws by three: with party two's share
fixed, the public key is one of a third of all points, whatever party one draws; others never occur. -/
theorem C117_cclst_party_one [CL] (t1 t2 : Sc) (b1 b2 seed : ℤ) (rk re : ℕ) (x2 : Sc) (hx2 : x2 ≠ 0) :
    let pub := fun secret : Sc =>
      let o1 := CCLST19.create_commitments secret t1 b1 b2
      CCLST19.compute_pubkey (CCLST19.Party1Private.set_private_key o1.2.2
        (CCLST19.HSMCL.generate o1.2.2 seed rk re).1) (CCLST19.party2_create x2 t2).1.public_share
    (∃ l : List Pt, 3 * l.length ≤ q + 2 ∧ ∀ secret, pub secret ∈ l) ∧
    ∃ Y : Pt, Y ≠ 0 ∧ ∀ secret, pub secret ≠ Y := by
  intro pub
  have hpub : ∀ secret : Sc, pub secret = (((secret.val / 3 : ℕ) : Sc) * x2) • G := fun secret => by
    have h := (C57_keygen secret x2 t1 t2 b1 b2 seed rk re).2.2.2.2.1
    refine h.trans ?_
    show ((((secret.val : ℤ) / 3 : ℤ) : Sc) * x2) • (G : Pt) = _
    rw [show ((secret.val : ℤ) / 3 : ℤ) = ((secret.val / 3 : ℕ) : ℤ) by push_cast; rfl, Int.cast_natCast]
  have hlt : ∀ secret : Sc, secret.val < q := fun secret => ZMod.val_lt secret
  refine ⟨⟨(List.range ((q - 1) / 3 + 1)).map (fun j : ℕ => ((j : Sc) * x2) • G), ?_, fun secret => ?_⟩,
    (-1 * x2 : Sc) • G, ?_, fun secret => ?_⟩
  · rw [List.length_map, List.length_range]
    have := q_pos
    omega
  · rw [hpub]
    refine List.mem_map.2 ⟨_, List.mem_range.2 ?_, rfl⟩
    have := hlt secret
    omega
  · rw [ne_eq, smul_G_eq_zero]
    exact mul_ne_zero (neg_ne_zero.2 one_ne_zero) hx2
  · rw [hpub, ne_eq, smul_G_inj]
    intro h
    have h1 := mul_right_cancel₀ hx2 h
    have h2 : (((secret.val / 3 + 1 : ℕ)) : Sc) = 0 := by
      push_cast
      rw [h1]
      ring
    rw [ZMod.natCast_eq_zero_iff] at h2
    have h3 := Nat.le_of_dvd (by omega) h2
    have := hlt secret
    have h4 := q_one_lt
    omega

end

/-! ### Examples -/

/-- C117: a key generation among three parties with threshold 1 in which the second secret varies. -/
example [Crypto] (u : ℕ → Sc) (a : Sc) (h : 3 < q) : ∃ rnd : ℕ → GG20.KeygenRandomness,
    (∀ k, (rnd k).u = u k) ∧
    EachOnce {u : Sc | u ≠ 0} {Y | Y ≠ (∑ k ∈ (Finset.range 3).erase 1, (rnd k).u) • (G : Pt)}
      (fun u Y => ∃ keys, GG20.Keygen.run 1 3 (Function.update rnd 1 { rnd 1 with u := u }) = .ok keys ∧
        keys.length = 3 ∧ ∀ key ∈ keys, key.public_key = Y) :=
  ⟨fun k => (honestRandomness_exists 1 (u k) [a] rfl).choose,
    fun k => (honestRandomness_exists 1 (u k) [a] rfl).choose_spec.2.1,
    C117_keygen (by decide) h (by decide) _ fun k _ => (honestRandomness_exists 1 (u k) [a] rfl).choose_spec.1⟩

section
attribute [local instance] Toy.crypto

example := C117_gg18_keygen toyAead (t := 1) (n := 3) (i := 2) (by decide) (by decide) (by decide) toyKg
  fun _ => toyKg_honest

/-- C117: in the session of C39 the nonce point is what it is for one nonce share of the first signer. -/
example : ∃ κ : ZMod 31, ∀ rnd, HonestSigners 3 ((5 : ZMod 31) • (G : Pt)) toyX (fun _ => toyKey)
      [toySt, toySt, toySt] [3, 1] (fun k => toyLocal ([3, 1].getD k 0)) rnd →
      (∀ j < 2, j ≠ 0 → (rnd j).k = (toySign j).k) →
      ∃ cs, GG20.Sign.offline [3, 1] (fun k => toyLocal ([3, 1].getD k 0)) rnd = .ok cs ∧ cs.length = 2 ∧
        ∀ c ∈ cs, c.R = (7 : ZMod 31) ↔ (rnd 0).k = κ := by
  have hrec := toyX_poly.reconstructs (by decide)
  have h0 : (Polynomial.C (5 : ZMod 31) + Polynomial.C (7 : ZMod 31) * Polynomial.X).eval 0 = 5 := by simp
  exact C117_nonce (h0 ▸ hrec) (by decide) (by decide) (fun j => (toySign j).k) (7 : ZMod 31)
example := toyHonest

/-- C117: the GG18 room of C51. -/
example : ∃ x dk, Spec.GG18.HonestRoom 3 ((6 : ZMod 31) • (G : Pt)) x dk [3, 1]
      (fun k => Demo.Keygen.kFile 1 3 toyKg ([3, 1].getD (k - 1) 0 - 1)) toyRoom ∧
    ∃ l : List (ZMod 31), l.length ≤ 4 ∧ ∀ rnd sig, Spec.GG18.HonestRoom 3 ((6 : ZMod 31) • (G : Pt)) x dk [3, 1]
        (fun k => Demo.Keygen.kFile 1 3 toyKg ([3, 1].getD (k - 1) 0 - 1)) rnd →
      (∀ j < 2, j ≠ 1 → (rnd (j + 1)).k = (toyRoom (j + 1)).k) →
      (∀ xr y, coords ((∑ j ∈ Finset.range 2, (rnd (j + 1)).k)⁻¹ • (G : Pt)) = some (xr, y) →
        ((10 : ℤ) : ZMod 31) + (xr : ZMod 31) * 6 ≠ 0) →
      Demo.Sign.run 1 (fun k => Demo.Keygen.kFile 1 3 toyKg ([3, 1].getD (k - 1) 0 - 1)) 10 rnd =
        .ok (List.replicate 2 sig) → sig.r = (3 : ZMod 31) → (rnd 2).k ∈ l := by
  obtain ⟨x, dk, h, hx⟩ := toyRoom_room
  exact ⟨x, dk, h, C117_gg18_nonce (by decide) hx (by decide) (by decide) (fun j => (toyRoom (j + 1)).k) 10
    (3 : ZMod 31)⟩

example := C117_lindell_keygen (3 : ZMod 31) (4 : ZMod 31) 1 2 3 toyKey (c := (9 : ZMod 31)) (by decide)
example := C117_two_party_nonce (3 : ZMod 31) (4 : ZMod 31) 1 2 (c := (9 : ZMod 31)) (by decide)

attribute [local instance] CL.trivial

example := C117_cclst_party_two_partial (20 : ZMod 31) (3 : ZMod 31) (4 : ZMod 31) 1 2 77 3 4 (by decide +kernel)
example := C117_cclst_party_one (3 : ZMod 31) (4 : ZMod 31) 1 2 77 3 4 (9 : ZMod 31) (by decide)

end
end Verif.Props
