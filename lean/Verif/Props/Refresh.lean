import Verif.Spec.Refresh
import Verif.Props.OneSource

/-!
# C119: shares stolen before and after a refresh
-/

namespace Verif.Props

open EC Crypto Spec

section

variable [Crypto]

/-- A dealer could have dealt any other secret with the same shares for at most `t` parties. -/
theorem exists_coefs {t n : ℕ} (ht : t < n) (hn : n < q) {A : Finset ℕ} (hA : ∀ k ∈ A, k < n)
    (hc : A.card ≤ t) (secret : Sc) (share : ℕ → Sc) :
    ∃ coefs : List Sc, coefs.length = t ∧
      ∀ k ∈ A, evalPoly (secret :: coefs) ((k + 1 : ℕ) : Sc) = share k := by
  obtain ⟨S, h1, h2, h3⟩ := Finset.exists_subsuperset_card_eq
    (s := A) (t := Finset.range n) (fun k hk => Finset.mem_range.2 (hA k hk)) hc (by simpa using ht.le)
  obtain ⟨coefs, ⟨hl, hs⟩, -⟩ := C17_t_shares_reveal_nothing t (S.image (· + 1))
    (by rw [Finset.card_image_of_injective _ (add_left_injective 1), h3])
    (fun i hi => by
      obtain ⟨k, hk, rfl⟩ := Finset.mem_image.1 hi
      have := Finset.mem_range.1 (h2 hk)
      exact ⟨by omega, by omega⟩) (fun i => share (i - 1)) secret
  exact ⟨coefs, hl, fun k hk => hs (k + 1) (Finset.mem_image_of_mem _ (h1 hk))⟩

/-- A session with another secret key, in which the parties of `A` hold the same. -/
theorem other_session {t n c : ℕ} (ht : t < n) (hn : n < q) (hcn : c < n) {A : Finset ℕ} (hA : ∀ k ∈ A, k < n)
    (hc : A.card ≤ t) (hcA : c ∉ A) (rnd : ℕ → GG20.KeygenRandomness)
    (hon : ∀ k < n, GG20.Keygen.HonestRandomness t (rnd k)) (d : Sc) :
    ∃ rnd2 : ℕ → GG20.KeygenRandomness, (∀ k < n, GG20.Keygen.HonestRandomness t (rnd2 k)) ∧
      (∀ k, k ≠ c → rnd2 k = rnd k) ∧ ∑ k ∈ Finset.range n, (rnd2 k).u = d ∧
      ∀ k ∈ A, GG20.Keygen.rX n rnd2 k = GG20.Keygen.rX n rnd k := by
  set u := d - ∑ k ∈ (Finset.range n).erase c, (rnd k).u with hu
  obtain ⟨coefs, hl, hs⟩ := exists_coefs ht hn hA hc u (fun k => GG20.Keygen.rShare rnd c k)
  set rnd2 := Function.update rnd c { rnd c with u := u, coefs := coefs } with hr
  have hself : (rnd2 c).u = u := by rw [hr, Function.update_self]
  have hself' : (rnd2 c).coefs = coefs := by rw [hr, Function.update_self]
  have hof : ∀ k, k ≠ c → rnd2 k = rnd k := fun k hk => by rw [hr, Function.update_of_ne hk]
  refine ⟨rnd2, fun k hk => ?_, hof, ?_, fun k hk => ?_⟩
  · by_cases h : k = c
    · subst h
      rw [hr, Function.update_self]
      exact ⟨(hon _ hk).dk_valid, (hon _ hk).dk_large, (hon _ hk).dk_size, (hon _ hk).aux_gen, hl⟩
    · rw [hof k h]; exact hon k hk
  · rw [sum_update hcn (fun k => (rnd2 k).u) (fun k => (rnd k).u) (fun j _ hj => by rw [hof j hj]), hself, hu,
      sub_add_cancel]
  · unfold GG20.Keygen.rX
    refine congrArg List.sum (List.map_congr_left fun j _ => ?_)
    by_cases h : j = c
    · subst h
      unfold GG20.Keygen.rShare at hs ⊢
      rw [hself, hself']
      exact hs k hk
    · simp only [GG20.Keygen.rShare, hof j h]

theorem rKey_public_sum (t n : ℕ) (rnd : ℕ → GG20.KeygenRandomness) (k : ℕ) :
    (GG20.Keygen.rKey t n rnd k).public_key = (∑ k ∈ Finset.range n, (rnd k).u) • (G : Pt) := by
  show ((List.range n).map (fun j => (rnd j).u • (G : Pt))).sum = _
  rw [sum_map_range_eq, Finset.sum_smul]

/-- **C119** (GG20). Take any two epochs, and the secrets that at most `t` parties `A` hold in the first and
at most `t` parties `B` in the second.  For every private key `d` there are two epochs with that key in which
the parties of `A` drew and hold the same in the first and those of `B` in the second. -/
theorem C119_refresh {t n : ℕ} (ht : t < n) (hn : n < q) {A B : Finset ℕ} (hA : ∀ k ∈ A, k < n)
    (hB : ∀ k ∈ B, k < n) (hcA : A.card ≤ t) (hcB : B.card ≤ t) {rnd rnd' : ℕ → GG20.KeygenRandomness}
    {keys keys' : List GG20.LocalKey} (h : GG20Epochs t n rnd rnd' keys keys') (d : Sc) :
    ∃ rnd2 rnd2' keys2 keys2', GG20Epochs t n rnd2 rnd2' keys2 keys2' ∧
      (∀ key ∈ keys2, key.public_key = d • G) ∧ (∀ key ∈ keys2', key.public_key = d • G) ∧
      keys2.length = n ∧ keys2'.length = n ∧
      (∀ k ∈ A, ∀ key key2, keys[k]? = some key → keys2[k]? = some key2 →
        rnd2 k = rnd k ∧ gg20Holds rnd2 k key2 = gg20Holds rnd k key) ∧
      (∀ k ∈ B, ∀ key key2, keys'[k]? = some key → keys2'[k]? = some key2 →
        rnd2' k = rnd' k ∧ gg20Holds rnd2' k key2 = gg20Holds rnd' k key) := by
  have hex : ∀ {S : Finset ℕ}, S.card ≤ t → ∃ c < n, c ∉ S := fun {S} hS => by
    obtain ⟨c, hc1, hc2⟩ := Finset.exists_mem_notMem_of_card_lt_card (s := S) (t := Finset.range n)
      (by rw [Finset.card_range]; omega)
    exact ⟨c, Finset.mem_range.1 hc1, hc2⟩
  obtain ⟨c, hc1, hc2⟩ := hex hcA
  obtain ⟨c', hc1', hc2'⟩ := hex hcB
  obtain ⟨rnd2, hon2, hof2, hs2, hx2⟩ := other_session ht hn hc1 hA hcA hc2 rnd h.honest d
  obtain ⟨rnd2', hon2', hof2', hs2', hx2'⟩ := other_session ht hn hc1' hB hcB hc2' rnd' h.honest' d
  obtain rfl := Res.ok.inj (h.first.symm.trans (GG20.Keygen.run_eq ht h.honest))
  obtain rfl := Res.ok.inj (h.second.symm.trans (GG20.Keygen.run_eq ht h.honest'))
  have hpub : ∀ rnd : ℕ → GG20.KeygenRandomness, ∑ k ∈ Finset.range n, (rnd k).u = d →
      ∀ key ∈ (List.range n).map (GG20.Keygen.rKey t n rnd), key.public_key = d • G := by
    intro rnd hs key hk
    obtain ⟨k, -, rfl⟩ := List.mem_map.1 hk
    rw [rKey_public_sum, hs]
  have hholds : ∀ (S : Finset ℕ) (c : ℕ) (r r2 : ℕ → GG20.KeygenRandomness), c ∉ S →
      (∀ k, k ≠ c → r2 k = r k) → (∀ k ∈ S, GG20.Keygen.rX n r2 k = GG20.Keygen.rX n r k) →
      ∀ k ∈ S, ∀ key key2, ((List.range n).map (GG20.Keygen.rKey t n r))[k]? = some key →
        ((List.range n).map (GG20.Keygen.rKey t n r2))[k]? = some key2 →
        r2 k = r k ∧ gg20Holds r2 k key2 = gg20Holds r k key := by
    intro S c r r2 hc hof hx k hk key key2 h1 h2
    have e : r2 k = r k := hof k fun e => hc (e ▸ hk)
    obtain ⟨-, rfl⟩ := List.getElem?_eq_some_iff.1 h1
    obtain ⟨-, rfl⟩ := List.getElem?_eq_some_iff.1 h2
    refine ⟨e, ?_⟩
    simp only [List.getElem_map, List.getElem_range]
    show (⟨(r2 k).u, GG20.Keygen.rX n r2 k, (r2 k).dk⟩ : GG20.PartyPrivate) =
      ⟨(r k).u, GG20.Keygen.rX n r k, (r k).dk⟩
    rw [e, hx k hk]
  refine ⟨rnd2, rnd2', _, _, ⟨hon2, hon2', GG20.Keygen.run_eq ht hon2, GG20.Keygen.run_eq ht hon2',
      fun k => (rnd2' k).u - (rnd2 k).u, ?_, fun k key hk => ?_⟩, hpub _ hs2, hpub _ hs2', by simp, by simp,
    hholds A c _ _ hc2 hof2 hx2, hholds B c' _ _ hc2' hof2' hx2'⟩
  · rw [Finset.sum_sub_distrib, hs2, hs2', sub_self]
  · show GG20.Keys.create (k + 1) (rnd2' k).u _ _ =
      GG20.Keys.create (k + 1) ((rnd2 k).u + ((rnd2' k).u - (rnd2 k).u)) _ _
    rw [add_sub_cancel]

/-- A GG18 session with another secret key, in which the parties of `A` hold the same. -/
theorem gg18_other_session {t n c : ℕ} (ht : t < n) (hn : n < q) (hcn : c < n) {A : Finset ℕ}
    (hA : ∀ k ∈ A, k < n) (hc : A.card ≤ t) (rnd : ℕ → Demo.Keygen.Rand)
    (hon : ∀ k < n, Spec.GG18.HonestKeygenRand t (rnd (k + 1))) (d : Sc)
    (hd : d ≠ ∑ k ∈ (Finset.range n).erase c, (rnd (k + 1)).u) :
    ∃ rnd2 : ℕ → Demo.Keygen.Rand, (∀ k < n, Spec.GG18.HonestKeygenRand t (rnd2 (k + 1))) ∧
      (∀ k, k ≠ c → rnd2 (k + 1) = rnd (k + 1)) ∧ ∑ k ∈ Finset.range n, (rnd2 (k + 1)).u = d ∧
      ∀ k ∈ A, Demo.Keygen.kX n rnd2 k = Demo.Keygen.kX n rnd k := by
  set u := d - ∑ k ∈ (Finset.range n).erase c, (rnd (k + 1)).u with hu
  obtain ⟨coefs, hl, hs⟩ := exists_coefs ht hn hA hc u (fun k => Demo.Keygen.kShare rnd c k)
  set rnd2 := Function.update rnd (c + 1) { rnd (c + 1) with u := u, coefs := coefs } with hr
  have hself : (rnd2 (c + 1)).u = u := by rw [hr, Function.update_self]
  have hself' : (rnd2 (c + 1)).coefs = coefs := by rw [hr, Function.update_self]
  have hof : ∀ k, k ≠ c → rnd2 (k + 1) = rnd (k + 1) := fun k hk => by
    rw [hr, Function.update_of_ne (by omega)]
  refine ⟨rnd2, fun k hk => ?_, hof, ?_, fun k hk => ?_⟩
  · by_cases h : k = c
    · subst h
      rw [hr, Function.update_self]
      exact ⟨sub_ne_zero.2 hd, (hon _ hk).dk_valid, (hon _ hk).dk_large, hl⟩
    · rw [hof k h]; exact hon k hk
  · rw [sum_update hcn (fun k => (rnd2 (k + 1)).u) (fun k => (rnd (k + 1)).u)
      (fun j _ hj => by rw [hof j hj]), hself, hu, sub_add_cancel]
  · unfold Demo.Keygen.kX
    refine congrArg List.sum (List.map_congr_left fun j _ => ?_)
    by_cases h : j = c
    · subst h
      unfold Demo.Keygen.kShare at hs ⊢
      rw [hself, hself']
      exact hs k hk
    · simp only [Demo.Keygen.kShare, hof j h]

/-- **C119** (GG18 demo): the same, for every private key but two: those with which a party `c` outside of `A`
in the first epoch, or a party `c'` outside of `B` in the second, would have to draw the secret zero. -/
theorem C119_gg18_refresh (Ae : Aead) {t n c c' : ℕ} (ht : t < n) (hn : n < q) {A B : Finset ℕ}
    (hA : ∀ k ∈ A, k < n) (hB : ∀ k ∈ B, k < n) (hcA : A.card ≤ t) (hcB : B.card ≤ t)
    (hc : c < n) (hc2 : c ∉ A) (hc' : c' < n) (hc2' : c' ∉ B)
    {rnd rnd' : ℕ → Demo.Keygen.Rand} {files files' : List Demo.Keygen.KeyFile}
    (h : GG18Epochs Ae t n rnd rnd' files files') (d : Sc)
    (hd : d ≠ ∑ k ∈ (Finset.range n).erase c, (rnd (k + 1)).u)
    (hd' : d ≠ ∑ k ∈ (Finset.range n).erase c', (rnd' (k + 1)).u) :
    ∃ rnd2 rnd2' files2 files2', GG18Epochs Ae t n rnd2 rnd2' files2 files2' ∧
      (∀ file ∈ files2, file.y_sum = d • G) ∧ (∀ file ∈ files2', file.y_sum = d • G) ∧
      files2.length = n ∧ files2'.length = n ∧
      (∀ k ∈ A, ∀ file file2, files[k]? = some file → files2[k]? = some file2 →
        rnd2 (k + 1) = rnd (k + 1) ∧ gg18Holds file2 = gg18Holds file) ∧
      (∀ k ∈ B, ∀ file file2, files'[k]? = some file → files2'[k]? = some file2 →
        rnd2' (k + 1) = rnd' (k + 1) ∧ gg18Holds file2 = gg18Holds file) := by
  have hon : ∀ k < n, Spec.GG18.HonestKeygenRand t (rnd (k + 1)) :=
    fun k hk => h.honest _ (by omega) (by omega)
  have hon' : ∀ k < n, Spec.GG18.HonestKeygenRand t (rnd' (k + 1)) :=
    fun k hk => h.honest' _ (by omega) (by omega)
  have hup : ∀ {r : ℕ → Demo.Keygen.Rand}, (∀ k < n, Spec.GG18.HonestKeygenRand t (r (k + 1))) →
      ∀ i, 1 ≤ i → i ≤ n → Spec.GG18.HonestKeygenRand t (r i) := fun hr i h1 h2 => by
    obtain ⟨k, rfl⟩ := Nat.exists_eq_add_of_le' h1
    exact hr k (by omega)
  obtain ⟨rnd2, hon2, hof2, hs2, hx2⟩ := gg18_other_session ht hn hc hA hcA rnd hon d hd
  obtain ⟨rnd2', hon2', hof2', hs2', hx2'⟩ := gg18_other_session ht hn hc' hB hcB rnd' hon' d hd'
  obtain rfl := Res.ok.inj (h.first.symm.trans (Demo.Keygen.run_eq Ae ht hon))
  obtain rfl := Res.ok.inj (h.second.symm.trans (Demo.Keygen.run_eq Ae ht hon'))
  have hpub : ∀ rnd : ℕ → Demo.Keygen.Rand, ∑ k ∈ Finset.range n, (rnd (k + 1)).u = d →
      ∀ file ∈ (List.range n).map (Demo.Keygen.kFile t n rnd), file.y_sum = d • G := by
    intro rnd hs file hk
    obtain ⟨k, -, rfl⟩ := List.mem_map.1 hk
    exact (Demo.Keygen.kY_sum n rnd).trans (by rw [hs])
  have hholds : ∀ (S : Finset ℕ) (c : ℕ) (r r2 : ℕ → Demo.Keygen.Rand), c ∉ S →
      (∀ k, k ≠ c → r2 (k + 1) = r (k + 1)) → (∀ k ∈ S, Demo.Keygen.kX n r2 k = Demo.Keygen.kX n r k) →
      ∀ k ∈ S, ∀ file file2, ((List.range n).map (Demo.Keygen.kFile t n r))[k]? = some file →
        ((List.range n).map (Demo.Keygen.kFile t n r2))[k]? = some file2 →
        r2 (k + 1) = r (k + 1) ∧ gg18Holds file2 = gg18Holds file := by
    intro S c r r2 hc hof hx k hk file file2 h1 h2
    have e : r2 (k + 1) = r (k + 1) := hof k fun e => hc (e ▸ hk)
    obtain ⟨-, rfl⟩ := List.getElem?_eq_some_iff.1 h1
    obtain ⟨-, rfl⟩ := List.getElem?_eq_some_iff.1 h2
    refine ⟨e, ?_⟩
    simp only [List.getElem_map, List.getElem_range]
    show (⟨(r2 (k + 1)).u, Demo.Keygen.kX n r2 k, (r2 (k + 1)).dk⟩ : GG18.PartyPrivate) =
      ⟨(r (k + 1)).u, Demo.Keygen.kX n r k, (r (k + 1)).dk⟩
    rw [e, hx k hk]
  refine ⟨rnd2, rnd2', _, _, ⟨hup hon2, hup hon2', Demo.Keygen.run_eq Ae ht hon2,
      Demo.Keygen.run_eq Ae ht hon2', fun k => (rnd2' (k + 1)).u - (rnd2 (k + 1)).u, ?_, fun k file hk => ?_⟩,
    hpub _ hs2, hpub _ hs2', by simp, by simp,
    hholds A c _ _ hc2 hof2 hx2, hholds B c' _ _ hc2' hof2' hx2'⟩
  · rw [Finset.sum_sub_distrib, hs2, hs2', sub_self]
  · obtain ⟨-, rfl⟩ := List.getElem?_eq_some_iff.1 hk
    simp only [List.getElem_map, List.getElem_range]
    show GG18.Keys.create (k + 1) (rnd2' (k + 1)).u _ =
      GG18.Keys.create (k + 1) ((rnd2 (k + 1)).u + ((rnd2' (k + 1)).u - (rnd2 (k + 1)).u)) _
    rw [add_sub_cancel]

theorem refresh_new {s : Lindell17.Party1Private} {f : ℤ} {dk : DecKey} {r : ℤ} {a : Lindell17.PdlSetup}
    {out : Lindell17.Refreshed} (h : s.refresh_private_key f dk r a = some out) :
    out.party_one_private_new = ⟨s.x1 * (f : Sc), dk, r⟩ := by
  unfold Lindell17.Party1Private.refresh_private_key at h
  dsimp only at h
  obtain ⟨w, -, hw⟩ := Option.bind_eq_some_iff.1 h
  rw [← Option.some.inj hw]

/-- **C119** (Lindell17, party one robbed first). Fix what a thief takes from party one before a refresh and
from party two after it.  As the factor of the refresh runs through the non-zero scalars, every point but zero
is the public key exactly once. -/
theorem C119_lindell_one_then_two {dk dk' : DecKey} {r r' : ℤ} {x1 z2 : Sc} (h1 : x1 ≠ 0) (h2 : z2 ≠ 0)
    {a : Lindell17.PdlSetup} (hn : 0 < dk'.n) (hr : Int.gcd r' dk'.n = 1) (ha : GoodSetup a) :
    EachOnce {f : Sc | f ≠ 0} {Y | Y ≠ (0 : Pt)} (fun f Y =>
      let s1 : Lindell17.Party1Private := ⟨x1, dk, r⟩
      ∃ (s2 : Lindell17.Party2Private) (out : Lindell17.Refreshed),
        s1.refresh_private_key f.val dk' r' a = some out ∧ s2.update_private_key (f⁻¹).val = ⟨z2⟩ ∧
        Lindell17.compute_pubkey s1 (s2.x2 • G) = Y ∧
        Lindell17.compute_pubkey out.party_one_private_new (z2 • G) = Y) := by
  refine eachOnce_mul (c := x1 * z2) (mul_ne_zero h1 h2) fun f hf Y => ?_
  have hcast : ∀ x : Sc, (((x.val : ℕ) : ℤ) : Sc) = x := fun x => by
    rw [Int.cast_natCast, ZMod.natCast_zmod_val]
  dsimp only
  constructor
  · rintro ⟨s2, out, -, hs2, hY, -⟩
    have hx : s2.x2 * f⁻¹ = z2 := by
      have : s2.x2 * ((((f⁻¹).val : ℕ) : ℤ) : Sc) = z2 := congrArg Lindell17.Party2Private.x2 hs2
      rwa [hcast] at this
    rw [← hY, ← hx]
    show x1 • s2.x2 • (G : Pt) = _
    rw [smul_smul]
    congr 1
    field_simp
  · rintro rfl
    obtain ⟨out, hout, -⟩ := C55_refresh (r := r) (dk := dk) x1 (z2 * f) f.val (f⁻¹).val hn hr ha
    refine ⟨⟨z2 * f⟩, out, hout, ?_, ?_, ?_⟩
    · show (⟨z2 * f * ((((f⁻¹).val : ℕ) : ℤ) : Sc)⟩ : Lindell17.Party2Private) = _
      rw [hcast, mul_inv_cancel_right₀ hf]
    · show x1 • (z2 * f) • (G : Pt) = _
      rw [smul_smul]
      congr 1
      ring
    · rw [refresh_new hout]
      show (x1 * (((f.val : ℕ) : ℤ) : Sc)) • z2 • (G : Pt) = _
      rw [hcast, smul_smul]
      congr 1
      ring

/-- **C119** (Lindell17, party two robbed first): the same for what a thief takes from party two before a
refresh and from party one after it; `g` is party two's factor. -/
theorem C119_lindell_two_then_one {dk dk' : DecKey} {r r' : ℤ} {x2 z1 : Sc} (h1 : x2 ≠ 0) (h2 : z1 ≠ 0)
    {a : Lindell17.PdlSetup} (hn : 0 < dk'.n) (hr : Int.gcd r' dk'.n = 1) (ha : GoodSetup a) :
    EachOnce {g : Sc | g ≠ 0} {Y | Y ≠ (0 : Pt)} (fun g Y =>
      let s2 : Lindell17.Party2Private := ⟨x2⟩
      ∃ (x1 : Sc) (out : Lindell17.Refreshed),
        Lindell17.Party1Private.refresh_private_key ⟨x1, dk, r⟩ (g⁻¹).val dk' r' a = some out ∧
        out.party_one_private_new = ⟨z1, dk', r'⟩ ∧
        Lindell17.compute_pubkey ⟨x1, dk, r⟩ (s2.x2 • G) = Y ∧
        Lindell17.compute_pubkey out.party_one_private_new ((s2.update_private_key g.val).x2 • G) = Y) := by
  refine eachOnce_mul (c := x2 * z1) (mul_ne_zero h1 h2) fun g hg Y => ?_
  have hcast : ∀ x : Sc, (((x.val : ℕ) : ℤ) : Sc) = x := fun x => by
    rw [Int.cast_natCast, ZMod.natCast_zmod_val]
  dsimp only
  constructor
  · rintro ⟨x1, out, hout, hnew, -, hY⟩
    rw [hnew] at hY
    rw [← hY]
    show z1 • (x2 * (((g.val : ℕ) : ℤ) : Sc)) • (G : Pt) = _
    rw [hcast, smul_smul]
    congr 1
    ring
  · rintro rfl
    obtain ⟨out, hout, -⟩ := C55_refresh (r := r) (dk := dk) (z1 * g) x2 (g⁻¹).val g.val hn hr ha
    have hnew : out.party_one_private_new = ⟨z1, dk', r'⟩ := by
      rw [refresh_new hout]
      show (⟨z1 * g * ((((g⁻¹).val : ℕ) : ℤ) : Sc), dk', r'⟩ : Lindell17.Party1Private) = _
      rw [hcast, mul_inv_cancel_right₀ hg]
    refine ⟨z1 * g, out, hout, hnew, ?_, ?_⟩
    · show (z1 * g) • x2 • (G : Pt) = _
      rw [smul_smul]
      congr 1
      ring
    · rw [hnew]
      show z1 • (x2 * (((g.val : ℕ) : ℤ) : Sc)) • (G : Pt) = _
      rw [hcast, smul_smul]
      congr 1
      ring

/-- A polynomial of degree at most `t` that is one at zero and zero at at most `t` parties. -/
theorem exists_hiding_poly {t n : ℕ} (hn : n < q) {A : Finset ℕ} (hA : ∀ i ∈ A, 1 ≤ i ∧ i ≤ n)
    (hc : A.card ≤ t) : ∃ l : Polynomial Sc, l.degree < (t + 1 : ℕ) ∧ l.eval 0 = 1 ∧
      ∀ i ∈ A, l.eval (i : Sc) = 0 := by
  refine ⟨∏ i ∈ A, (1 - Polynomial.C ((i : Sc)⁻¹) * Polynomial.X), ?_, ?_, fun i hi => ?_⟩
  · refine lt_of_le_of_lt (Polynomial.degree_prod_le _ _) ?_
    refine lt_of_le_of_lt (Finset.sum_le_card_nsmul A _ 1 fun i _ => ?_) ?_
    · refine (Polynomial.degree_sub_le _ _).trans (max_le (Polynomial.degree_one_le.trans zero_le_one) ?_)
      exact (Polynomial.degree_C_mul_X_le _)
    · rw [nsmul_eq_mul, mul_one]
      exact_mod_cast Nat.lt_succ_of_le hc
  · rw [Polynomial.eval_prod]
    exact Finset.prod_eq_one fun i _ => by simp
  · rw [Polynomial.eval_prod]
    refine Finset.prod_eq_zero hi ?_
    have h0 : (i : Sc) ≠ 0 := fun h0 => by
      have := natCast_inj_of_lt (i := i) (j := 0) (lt_of_le_of_lt (hA i hi).2 hn) q_pos (by simpa using h0)
      have := (hA i hi).1
      omega
    simp [h0]

/-- **C119** (updating shares in place, GG20). Let the parties hold shares of a key with threshold `t`, both
additive and on a polynomial, and update them with shares of zero.  For every key `d` there are shares of `d`
and an update with shares of zero, such that at most `t` parties `A` hold the same before, and at most `t`
parties `B` the same after it. -/
theorem C119_update {t n : ℕ} (ht : t < n) (hn : n < q) {A B : Finset ℕ} (hA : ∀ i ∈ A, 1 ≤ i ∧ i ≤ n)
    (hB : ∀ i ∈ B, 1 ≤ i ∧ i ≤ n) (hcA : A.card ≤ t) (hcB : B.card ≤ t) (pp : ℕ → GG20.PartyPrivate)
    (fu fx : ℕ → Sc) (f g : Polynomial Sc) (hf : OnPolynomial t n (fun i => (pp i).x_i) f)
    (hu : ∑ i ∈ Finset.Icc 1 n, (pp i).u_i = f.eval 0)
    (hg : OnPolynomial t n fx g) (hg0 : g.eval 0 = 0) (hfu : ∑ i ∈ Finset.Icc 1 n, fu i = 0) (d : Sc) :
    ∃ (pp2 : ℕ → GG20.PartyPrivate) (fu2 fx2 : ℕ → Sc) (f2 g2 : Polynomial Sc),
      OnPolynomial t n (fun i => (pp2 i).x_i) f2 ∧ f2.eval 0 = d ∧ ∑ i ∈ Finset.Icc 1 n, (pp2 i).u_i = d ∧
      OnPolynomial t n fx2 g2 ∧ g2.eval 0 = 0 ∧ ∑ i ∈ Finset.Icc 1 n, fu2 i = 0 ∧
      (∀ i ∈ A, pp2 i = pp i) ∧
      (∀ i ∈ B, (pp2 i).update_private_key (fu2 i) (fx2 i) = (pp i).update_private_key (fu i) (fx i)) := by
  obtain ⟨lA, hA1, hA2, hA3⟩ := exists_hiding_poly hn hA hcA
  obtain ⟨lB, hB1, hB2, hB3⟩ := exists_hiding_poly hn hB hcB
  obtain ⟨c, hc1, hc2⟩ := Finset.exists_mem_notMem_of_card_lt_card (s := A) (t := Finset.Icc 1 n)
    (by rw [Nat.card_Icc]; omega)
  obtain ⟨c', hc1', hc2'⟩ := Finset.exists_mem_notMem_of_card_lt_card (s := B) (t := Finset.Icc 1 n)
    (by rw [Nat.card_Icc]; omega)
  have hdeg : ∀ {a b : Polynomial Sc}, a.degree < (t + 1 : ℕ) → b.degree < (t + 1 : ℕ) →
      (a + b).degree < (t + 1 : ℕ) := fun ha hb =>
    lt_of_le_of_lt (Polynomial.degree_add_le _ _) (max_lt ha hb)
  have hmul : ∀ (c : Sc) {a : Polynomial Sc}, a.degree < (t + 1 : ℕ) →
      (Polynomial.C c * a).degree < (t + 1 : ℕ) := fun c a ha => by
    rw [← Polynomial.smul_eq_C_mul]
    exact lt_of_le_of_lt (Polynomial.degree_smul_le _ _) ha
  set δ := d - f.eval 0 with hδ
  refine ⟨fun i => { pp i with
      u_i := (pp i).u_i + if i = c then δ else 0
      x_i := (pp i).x_i + δ * lA.eval (i : Sc) },
    fun i => fu i + (if i = c' then δ else 0) - if i = c then δ else 0,
    fun i => fx i + δ * lB.eval (i : Sc) - δ * lA.eval (i : Sc),
    f + Polynomial.C δ * lA, g + Polynomial.C δ * lB + Polynomial.C (-δ) * lA,
    ⟨hdeg hf.1 (hmul _ hA1), fun i h1 h2 => ?_⟩, ?_, ?_, ⟨hdeg (hdeg hg.1 (hmul _ hB1)) (hmul _ hA1),
      fun i h1 h2 => ?_⟩, ?_, ?_, fun i hi => ?_, fun i hi => ?_⟩
  · have := hf.2 i h1 h2
    dsimp only at this ⊢
    rw [this]; simp
  · simp [hA2, hδ]
  · dsimp only
    rw [Finset.sum_add_distrib, hu, Finset.sum_ite_eq', if_pos hc1, hδ, add_sub_cancel]
  · dsimp only
    rw [hg.2 i h1 h2]; simp; ring
  · simp [hA2, hB2, hg0]
  · dsimp only
    rw [Finset.sum_sub_distrib, Finset.sum_add_distrib, hfu, Finset.sum_ite_eq', Finset.sum_ite_eq', if_pos hc1,
      if_pos hc1', zero_add, sub_self]
  · have : i ≠ c := fun e => hc2 (e ▸ hi)
    simp [hA3 i hi, this]
  · have : i ≠ c' := fun e => hc2' (e ▸ hi)
    simp [GG20.PartyPrivate.update_private_key, hB3 i hi, this]

/-- **C119** (updating shares in place, GG18). Let the parties hold shares of a key with threshold `t`, both
additive and on a polynomial, and update them with shares of zero.  For every key `d` there are shares of `d`
and an update with shares of zero, such that at most `t` parties `A` hold the same before, and at most `t`
parties `B` the same after it. -/
theorem C119_gg18_update {t n : ℕ} (ht : t < n) (hn : n < q) {A B : Finset ℕ} (hA : ∀ i ∈ A, 1 ≤ i ∧ i ≤ n)
    (hB : ∀ i ∈ B, 1 ≤ i ∧ i ≤ n) (hcA : A.card ≤ t) (hcB : B.card ≤ t) (pp : ℕ → GG18.PartyPrivate)
    (fu fx : ℕ → Sc) (f g : Polynomial Sc) (hf : OnPolynomial t n (fun i => (pp i).x_i) f)
    (hu : ∑ i ∈ Finset.Icc 1 n, (pp i).u_i = f.eval 0)
    (hg : OnPolynomial t n fx g) (hg0 : g.eval 0 = 0) (hfu : ∑ i ∈ Finset.Icc 1 n, fu i = 0) (d : Sc) :
    ∃ (pp2 : ℕ → GG18.PartyPrivate) (fu2 fx2 : ℕ → Sc) (f2 g2 : Polynomial Sc),
      OnPolynomial t n (fun i => (pp2 i).x_i) f2 ∧ f2.eval 0 = d ∧ ∑ i ∈ Finset.Icc 1 n, (pp2 i).u_i = d ∧
      OnPolynomial t n fx2 g2 ∧ g2.eval 0 = 0 ∧ ∑ i ∈ Finset.Icc 1 n, fu2 i = 0 ∧
      (∀ i ∈ A, pp2 i = pp i) ∧
      (∀ i ∈ B, (pp2 i).update_private_key (fu2 i) (fx2 i) = (pp i).update_private_key (fu i) (fx i)) := by
  obtain ⟨lA, hA1, hA2, hA3⟩ := exists_hiding_poly hn hA hcA
  obtain ⟨lB, hB1, hB2, hB3⟩ := exists_hiding_poly hn hB hcB
  obtain ⟨c, hc1, hc2⟩ := Finset.exists_mem_notMem_of_card_lt_card (s := A) (t := Finset.Icc 1 n)
    (by rw [Nat.card_Icc]; omega)
  obtain ⟨c', hc1', hc2'⟩ := Finset.exists_mem_notMem_of_card_lt_card (s := B) (t := Finset.Icc 1 n)
    (by rw [Nat.card_Icc]; omega)
  have hdeg : ∀ {a b : Polynomial Sc}, a.degree < (t + 1 : ℕ) → b.degree < (t + 1 : ℕ) →
      (a + b).degree < (t + 1 : ℕ) := fun ha hb =>
    lt_of_le_of_lt (Polynomial.degree_add_le _ _) (max_lt ha hb)
  have hmul : ∀ (c : Sc) {a : Polynomial Sc}, a.degree < (t + 1 : ℕ) →
      (Polynomial.C c * a).degree < (t + 1 : ℕ) := fun c a ha => by
    rw [← Polynomial.smul_eq_C_mul]
    exact lt_of_le_of_lt (Polynomial.degree_smul_le _ _) ha
  set δ := d - f.eval 0 with hδ
  refine ⟨fun i => { pp i with
      u_i := (pp i).u_i + if i = c then δ else 0
      x_i := (pp i).x_i + δ * lA.eval (i : Sc) },
    fun i => fu i + (if i = c' then δ else 0) - if i = c then δ else 0,
    fun i => fx i + δ * lB.eval (i : Sc) - δ * lA.eval (i : Sc),
    f + Polynomial.C δ * lA, g + Polynomial.C δ * lB + Polynomial.C (-δ) * lA,
    ⟨hdeg hf.1 (hmul _ hA1), fun i h1 h2 => ?_⟩, ?_, ?_, ⟨hdeg (hdeg hg.1 (hmul _ hB1)) (hmul _ hA1),
      fun i h1 h2 => ?_⟩, ?_, ?_, fun i hi => ?_, fun i hi => ?_⟩
  · have := hf.2 i h1 h2
    dsimp only at this ⊢
    rw [this]; simp
  · simp [hA2, hδ]
  · dsimp only
    rw [Finset.sum_add_distrib, hu, Finset.sum_ite_eq', if_pos hc1, hδ, add_sub_cancel]
  · dsimp only
    rw [hg.2 i h1 h2]; simp; ring
  · simp [hA2, hB2, hg0]
  · dsimp only
    rw [Finset.sum_sub_distrib, Finset.sum_add_distrib, hfu, Finset.sum_ite_eq', Finset.sum_ite_eq', if_pos hc1,
      if_pos hc1', zero_add, sub_self]
  · have : i ≠ c := fun e => hc2 (e ▸ hi)
    simp [hA3 i hi, this]
  · have : i ≠ c' := fun e => hc2' (e ▸ hi)
    simp [GG18.PartyPrivate.update_private_key, hB3 i hi, this]

end

/-- C119: three parties with arbitrary secrets `u`, refreshed with the factors 1, 1 and -2: a thief who robs
party two before and party three after the refresh holds what fits every key. -/
example [Crypto] (h : 3 < q) (u : ℕ → Sc) (a b : Sc) : ∃ rnd rnd' keys keys', GG20Epochs 1 3 rnd rnd' keys keys' ∧
    (∀ k, (rnd k).u = u k) ∧ ∀ d : Sc, ∃ rnd2 rnd2' keys2 keys2', GG20Epochs 1 3 rnd2 rnd2' keys2 keys2' ∧
      (∀ key ∈ keys2, key.public_key = d • G) ∧ rnd2 1 = rnd 1 ∧ rnd2' 2 = rnd' 2 := by
  have hu := fun k => (honestRandomness_exists 1 (u k) [a] rfl).choose_spec
  have hu' := fun k => (honestRandomness_exists 1 (u k + if k = 2 then -2 else 1) [b] rfl).choose_spec
  obtain ⟨keys, -, -, -, -, h1, hl, -, -, -⟩ := C10_honest_keygen (t := 1) (n := 3) (by decide) h _
    (fun k _ => (hu k).1)
  obtain ⟨keys', -, -, -, -, h2, hl', -, -, -⟩ := C10_honest_keygen (t := 1) (n := 3) (by decide) h _
    (fun k _ => (hu' k).1)
  have he : GG20Epochs 1 3 _ _ keys keys' :=
    ⟨fun k _ => (hu k).1, fun k _ => (hu' k).1, h1, h2, fun k => if k = 2 then -2 else 1, by
      simp [Finset.sum_range_succ]; norm_num, fun k key _ => by
      show GG20.Keys.create (k + 1) _ _ _ = GG20.Keys.create (k + 1) (_ + _) _ _
      rw [(hu' k).2.1]
      show _ = GG20.Keys.create (k + 1)
        ((honestRandomness_exists 1 (u k) [a] rfl).choose.u + if k = 2 then (-2 : Sc) else 1) _ _
      rw [(hu k).2.1]⟩
  refine ⟨_, _, _, _, he, fun k => (hu k).2.1, fun d => ?_⟩
  obtain ⟨rnd2, rnd2', keys2, keys2', e, hp, -, hl2, hl2', hA, hB⟩ := C119_refresh (by decide) h (A := {1}) (B := {2})
    (by simp) (by simp) (by simp) (by simp) he d
  refine ⟨_, _, _, _, e, hp, (hA 1 (by simp) (keys[1]'(by omega)) (keys2[1]'(by omega))
    (List.getElem?_eq_getElem _) (List.getElem?_eq_getElem _)).1, (hB 2 (by simp) (keys'[2]'(by omega))
    (keys2'[2]'(by omega)) (List.getElem?_eq_getElem _) (List.getElem?_eq_getElem _)).1⟩

section examples

attribute [local instance] Toy.crypto

/-- The session of C16 after a refresh with the factors 1, 1 and -2. -/
def toyKg' (i : ℕ) : Demo.Keygen.Rand :=
  { toyKg i with u := (toyKg i).u + (if i = 3 then -2 else 1 : ZMod 31), coefs := [((20 + i : ℕ) : ZMod 31)] }

theorem toyEpochs : GG18Epochs toyAead 1 3 toyKg toyKg' ((List.range 3).map (Demo.Keygen.kFile 1 3 toyKg))
    ((List.range 3).map (Demo.Keygen.kFile 1 3 toyKg')) := by
  have hon' : ∀ i, 1 ≤ i → i ≤ 3 → Spec.GG18.HonestKeygenRand 1 (toyKg' i) := fun i h1 h2 => by
    refine ⟨?_, (toyKg_honest h1 h2).dk_valid, (toyKg_honest h1 h2).dk_large, rfl⟩
    interval_cases i <;> decide
  refine ⟨fun _ => toyKg_honest, hon', Demo.Keygen.run_eq _ (by decide) fun k hk => toyKg_honest (by omega) hk,
    Demo.Keygen.run_eq _ (by decide) fun k hk => hon' _ (by omega) hk,
    fun k => (if k = 2 then -2 else 1 : ZMod 31), by decide, fun k file hk => ?_⟩
  obtain ⟨hk3, rfl⟩ := List.getElem?_eq_some_iff.1 hk
  simp only [List.getElem_map, List.getElem_range]
  have hk3 : k < 3 := by simpa using hk3
  interval_cases k <;> rfl

/-- C119: a thief who robs party one before and party two after the refresh. -/
example := C119_gg18_refresh toyAead (c := 2) (c' := 2) (A := {0}) (B := {1}) (by decide) (by decide) (by decide)
  (by decide) (by decide) (by decide) (by decide) (by decide) (by decide) (by decide) toyEpochs (9 : ZMod 31)
  (by decide +kernel) (by decide +kernel)

example := C119_lindell_one_then_two (dk := toyKey2) (dk' := toyKey) (r := 5) (r' := 7) (x1 := (9 : ZMod 31))
  (z2 := (5 : ZMod 31)) (by decide) (by decide) (a := toySetup) (by decide) (by decide)
  toySetup_good
example := C119_lindell_two_then_one (dk := toyKey2) (dk' := toyKey) (r := 5) (r' := 7) (x2 := (9 : ZMod 31))
  (z1 := (5 : ZMod 31)) (by decide) (by decide) (a := toySetup) (by decide) (by decide)
  toySetup_good

/-- C119: shares on `5 + 7 X`, updated with shares on `3 X`; parties one and two are robbed. -/
example := C119_update (t := 1) (n := 3) (by decide) (by decide) (A := {1}) (B := {2}) (by decide) (by decide)
  (by decide) (by decide) (fun i => ⟨((if i = 1 then 5 else 0 : ℕ) : ZMod 31), ((5 + 7 * i : ℕ) : ZMod 31), toyKey⟩)
  (fun _ => (0 : ZMod 31)) (fun i => ((3 * i : ℕ) : ZMod 31))
  (Polynomial.C (5 : ZMod 31) + Polynomial.C (7 : ZMod 31) * Polynomial.X)
  (Polynomial.C (3 : ZMod 31) * Polynomial.X)
  ⟨lt_of_le_of_lt (Polynomial.degree_add_le _ _) (max_lt (lt_of_le_of_lt Polynomial.degree_C_le (by decide))
      (lt_of_le_of_lt (Polynomial.degree_C_mul_X_le _) (by decide))),
    fun i _ _ => by simp⟩ (by simp)
  ⟨lt_of_le_of_lt (Polynomial.degree_C_mul_X_le _) (by decide), fun i _ _ => by simp⟩ (by simp) (by simp)
  (9 : ZMod 31)
example := C119_gg18_update (t := 1) (n := 3) (by decide) (by decide) (A := {1}) (B := {2}) (by decide) (by decide)
  (by decide) (by decide) (fun i => ⟨((if i = 1 then 5 else 0 : ℕ) : ZMod 31), ((5 + 7 * i : ℕ) : ZMod 31), toyKey⟩)
  (fun _ => (0 : ZMod 31)) (fun i => ((3 * i : ℕ) : ZMod 31))
  (Polynomial.C (5 : ZMod 31) + Polynomial.C (7 : ZMod 31) * Polynomial.X)
  (Polynomial.C (3 : ZMod 31) * Polynomial.X)
  ⟨lt_of_le_of_lt (Polynomial.degree_add_le _ _) (max_lt (lt_of_le_of_lt Polynomial.degree_C_le (by decide))
      (lt_of_le_of_lt (Polynomial.degree_C_mul_X_le _) (by decide))),
    fun i _ _ => by simp⟩ (by simp)
  ⟨lt_of_le_of_lt (Polynomial.degree_C_mul_X_le _) (by decide), fun i _ _ => by simp⟩ (by simp) (by simp)
  (9 : ZMod 31)

end examples

end Verif.Props
