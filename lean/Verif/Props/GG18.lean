import Verif.Lemmas.DemoSign
import Verif.Props.Sign

/-!
# C15, C16, C18, C51, C52, C62, C69, C70, C71: GG18 key generation and signing

The theorems on whole runs are about the demo clients (`Demo.Keygen.run`, `Demo.Sign.run`), which call the
GG18 functions in the order the protocol prescribes and exchange their results.
-/

namespace Verif.Props

open EC Crypto Spec Spec.GG18 GG18

/-! ### Collecting messages -/

/-- **C62.** Polling the other parties in ascending order and inserting the own value, in the three ways the
clients do it, puts party `j`'s value at position `j - 1`. -/
theorem C62_reassemble {ε α : Type} {n me : ℕ} (h1 : 1 ≤ me) (h2 : me ≤ n) (posted : ℕ → α) :
    ∃ v : List α,
      (Demo.reassemble n me (posted me) (Demo.poll me n posted) : Res ε (List α)) = .ok v ∧
      (Demo.format_vec_from_reads (Demo.poll me n posted) me (posted me) : Res ε (List α)) = .ok v ∧
      me - 1 ≤ (Demo.poll me n posted).length ∧
      (Demo.poll me n posted).insertIdx (me - 1) (posted me) = v ∧
      v.length = n ∧ ∀ j, 1 ≤ j → j ≤ n → v[j - 1]? = some (posted j) := by
  obtain ⟨k, rfl⟩ : ∃ k, me = k + 1 := ⟨me - 1, by omega⟩
  have hk : k < n := by omega
  have hp : Demo.poll (k + 1) n posted = (GG20.Sign.others n k).map (fun j => posted (j + 1)) :=
    Demo.filter_range'_others n k posted
  refine ⟨(List.range n).map (fun j => posted (j + 1)), ?_, ?_, ?_, ?_, by simp, ?_⟩
  · rw [hp]; exact Demo.reassemble_others n k (fun j => posted (j + 1))
  · rw [hp]; exact Demo.format_others hk (fun j => posted (j + 1))
  · rw [hp, List.length_map, length_others hk]; omega
  · rw [hp, Nat.add_sub_cancel]
    have := Demo.vecRemove_range (ε := Empty) hk (fun j => posted (j + 1))
    unfold Demo.vecRemove at this
    rw [GG20.Keygen.get_map_range hk, Res.bind_ok, Res.ok.injEq, Prod.mk.injEq] at this
    rw [← this.2]
    have e : posted (k + 1) = ((List.range n).map (fun j => posted (j + 1)))[k]'(by simpa using hk) := by simp
    rw [e, List.insertIdx_eraseIdx_getElem]
  · intro j hj1 hj2
    rw [List.getElem?_map, List.getElem?_range (by omega)]
    simp [Nat.sub_add_cancel hj1]

example := C62_reassemble (ε := Unit) (n := 4) (me := 3) (by decide) (by decide) (fun j => 10 * j)
example : Demo.poll 3 4 (fun j => 10 * j) = [10, 20, 40] := by decide

section

variable [Crypto]

/-! ### Key generation among honest parties -/

/-- **C16.** When `n` honest parties run the GG18 key generation with threshold `t < n`, every check passes,
every party gets the same public key `d G`, where `d` is the sum of the parties' secrets, and the parties'
shares reconstruct `d` from any `t + 1` of them. -/
theorem C16_honest_keygen (A : Aead) {t n : ℕ} (ht : t < n) (hn : n < q) (rnd : ℕ → Demo.Keygen.Rand)
    (hon : ∀ i, 1 ≤ i → i ≤ n → HonestKeygenRand t (rnd i)) :
    ∃ (files : List Demo.Keygen.KeyFile) (d : Sc) (x : ℕ → Sc),
      Demo.Keygen.run A t n rnd = .ok files ∧ files.length = n ∧
      d = ∑ k ∈ Finset.range n, (rnd (k + 1)).u ∧ Reconstructs t n x d ∧
      ∀ (k : ℕ) (file : Demo.Keygen.KeyFile), files[k]? = some file →
        file.shared_keys.y = d • G ∧
        KeyFileOf n (d • G) x (fun i => (rnd i).dk) (k + 1) file := by
  have hon' : ∀ k < n, HonestKeygenRand t (rnd (k + 1)) := fun k hk => hon _ (by omega) (by omega)
  obtain ⟨f, hf, hf0⟩ := Demo.Keygen.kX_onPolynomial (n := n) (fun k hk => (hon' k hk).coefs_len)
  refine ⟨_, ∑ k ∈ Finset.range n, (rnd (k + 1)).u, fun i => Demo.Keygen.kX n rnd (i - 1),
    Demo.Keygen.run_eq A ht hon', by simp, rfl, hf0 ▸ hf.reconstructs hn, ?_⟩
  intro k file hfile
  obtain ⟨hk, rfl⟩ := List.getElem?_eq_some_iff.1 hfile
  have hk : k < n := by simpa using hk
  simp only [List.getElem_map, List.getElem_range]
  refine ⟨Demo.Keygen.kY_sum n rnd, ?_⟩
  exact
    { i_pos := by omega
      i_le := hk
      index := rfl
      public_key := Demo.Keygen.kY_sum n rnd
      share := rfl
      dk_own := rfl
      ek_own := rfl
      eks := rfl
      vss_len := by simp [Demo.Keygen.kFile]
      vss_ne := by
        intro v hv
        obtain ⟨j, -, rfl⟩ := List.mem_map.1 hv
        simp [Demo.Keygen.kVss]
      vss := by
        intro j hj1 hj2
        show (((List.range n).map (Demo.Keygen.kVss t n rnd)).map _).sum = _
        rw [List.map_map]
        simp only [Demo.Keygen.kX, sum_map_range_eq, Finset.sum_smul]
        refine Finset.sum_congr rfl fun l _ => ?_
        simp only [Function.comp, Demo.Keygen.kVss, feldmanEval_map, Demo.Keygen.kShare,
          Nat.sub_add_cancel hj1] }

/-- **C16** (signing shares). For every list of at least `t + 1` different holders of the key the re-shared
secrets `w_i` add up to the discrete logarithm of the public key, and any holder computes every other's
`w_i G` from the polynomial commitments. -/
theorem C16_signing_shares {t n : ℕ} {d : Sc} {x : ℕ → Sc} {dk : ℕ → DecKey} (hn : n < q) (hu : n < 65536)
    (hx : Reconstructs t n x d) {s_l : List ℕ} (hnd : s_l.Nodup) (hmem : ∀ i ∈ s_l, 1 ≤ i ∧ i ≤ n)
    (hlen : t + 1 ≤ s_l.length) (file : ℕ → Demo.Keygen.KeyFile)
    (hfile : ∀ i ∈ s_l, KeyFileOf n (d • G) x dk i (file i)) (gamma k : ℕ → Sc) :
    ∃ w : ℕ → Sc, (s_l.map w).sum = d ∧
      ∀ i ∈ s_l,
        (∃ sk : SignKeys, (SignKeys.create
            (PartyPrivate.set_private (file i).party_keys (file i).shared_keys) (i - 1)
            (s_l.map (· - 1)) (gamma i) (k i) : Res Error SignKeys) = .ok sk ∧
          sk.w_i = w i ∧ sk.g_w_i = w i • G) ∧
        ∃ pts : List Pt, (get_commitments_to_xi (file i).vss_scheme_vec : Res Error (List Pt)) = .ok pts ∧
          pts.length = n ∧
          ∀ j ∈ s_l, ∃ X, pts[j - 1]? = some X ∧
            (update_commitments_to_xi X (j - 1) (s_l.map (· - 1)) : Res Error Pt) = .ok (w j • G) := by
  have hcoef : ∀ i ∈ s_l, mapShareToNewParams (i - 1) (s_l.map (· - 1)) =
      some (lagrangeCoeff s_l.toFinset i) := by
    intro i hi
    obtain ⟨k, hk, rfl⟩ := List.getElem_of_mem hi
    have := GG20.Sign.coeff_eq hmem hnd hn hk
    rw [List.getD_eq_getElem?_getD, List.getElem?_eq_getElem hk] at this
    exact this
  refine ⟨fun i => lagrangeCoeff s_l.toFinset i * x i, ?_, ?_⟩
  · have := hx s_l.toFinset (fun i hi => hmem i (by simpa using hi))
      (by rwa [List.toFinset_card_of_nodup hnd])
    rw [← this, List.sum_toFinset _ hnd]
  · intro i hi
    have hK := hfile i hi
    refine ⟨⟨⟨lagrangeCoeff s_l.toFinset i * x i, (lagrangeCoeff s_l.toFinset i * x i) • G, k i, gamma i,
      gamma i • G⟩, ?_, rfl, rfl⟩, (List.range n).map (fun j => x (j + 1) • G), ?_, by simp, ?_⟩
    · unfold SignKeys.create
      rw [hcoef i hi, Res.ofOption_some, Res.bind_ok]
      simp only [PartyPrivate.set_private, hK.share]
    · obtain ⟨v, hv⟩ : ∃ v : ℕ → Vss, (file i).vss_scheme_vec = (List.range n).map v := by
        refine ⟨fun j => (file i).vss_scheme_vec.getD j ⟨0, 0, []⟩, ?_⟩
        rw [← hK.vss_len]
        refine List.ext_getElem (by simp) fun i h1 h2 => ?_
        simp [h1]
      rw [hv, get_commitments_to_xi_eq v hu]
      · congr 1
        refine List.map_congr_left fun l hl => ?_
        have hl : l < n := by simpa using hl
        have := hK.vss (l + 1) (by omega) (by omega)
        rw [hv, List.map_map] at this
        exact this
      · intro j hj
        exact hK.vss_ne _ (by rw [hv]; exact List.mem_map.2 ⟨j, by simpa using hj, rfl⟩)
    · intro j hj
      have := hmem j hj
      refine ⟨x j • G, ?_, ?_⟩
      · rw [List.getElem?_map, List.getElem?_range (by omega)]
        simp [Nat.sub_add_cancel this.1]
      · unfold update_commitments_to_xi
        rw [hcoef j hj, Res.ofOption_some, Res.bind_ok, mul_smul]

/-! ### Signing among honest parties -/

/-- **C51.** Holders of a GG18 key `d G` of threshold `t`, at least `t + 1` of them and in any order, with
honest samples, run the signing client: every check passes, and (unless `m + r d = 0`) every signer outputs
the same signature, which is valid for the message and has low `s`. -/
theorem C51_honest_signing {t n : ℕ} {d : Sc} {x : ℕ → Sc} {dk : ℕ → DecKey} {s_l : List ℕ}
    {key : ℕ → Demo.Keygen.KeyFile} {rnd : ℕ → Demo.Sign.Rand}
    (h : HonestRoom n (d • G) x dk s_l key rnd) (hx : Reconstructs t n x d) (hlen : t + 1 ≤ s_l.length)
    (message : ℤ)
    (hm : ∀ xr y, coords ((∑ j ∈ Finset.range s_l.length, (rnd (j + 1)).k)⁻¹ • (G : Pt)) = some (xr, y) →
      (message : Sc) + (xr : Sc) * d ≠ 0) :
    ∃ sig, Demo.Sign.run (s_l.length - 1) key message rnd = .ok (List.replicate s_l.length sig) ∧
      EcdsaEq (d • G) message sig.r sig.s ∧ LowS sig.s := by
  obtain ⟨xr, y, hc, hse, hs0⟩ := Demo.Sign.honest_equation h hx hlen message hm
  have he := GG20.Sign.ecdsaEq_of_eq hc hs0 hse
  refine ⟨⟨(xr : Sc), normS (∑ i ∈ Finset.range s_l.length, Demo.Sign.cS x s_l rnd message xr i),
    recidOf (∑ i ∈ Finset.range s_l.length, Demo.Sign.cS x s_l rnd message xr i) y⟩,
    (Demo.Sign.run_eq h message hc (by omega) hse hs0).trans ?_, ecdsaEq_normS.2 he, normS_low _⟩
  rw [List.map_const', List.length_range]

/-- The key files of an honest key generation make an honest signing room. -/
theorem keygen_room (A : Aead) {t n : ℕ} (ht : t < n) (hn : n < q) (hu : n < 65536)
    {krnd : ℕ → Demo.Keygen.Rand} (hon : ∀ i, 1 ≤ i → i ≤ n → HonestKeygenRand t (krnd i))
    {files : List Demo.Keygen.KeyFile} (hfiles : Demo.Keygen.run A t n krnd = .ok files)
    {s_l : List ℕ} (hnd : s_l.Nodup) (hmem : ∀ i ∈ s_l, 1 ≤ i ∧ i ≤ n)
    {key : ℕ → Demo.Keygen.KeyFile} (hkey : ∀ k i, s_l[k]? = some i → files[i - 1]? = some (key (k + 1)))
    {x : ℕ → Sc} (hxk : ∀ i file, files[i]? = some file → file.shared_keys.x_i = x (i + 1))
    {rnd : ℕ → Demo.Sign.Rand}
    (hs : ∀ k < s_l.length, HonestSignRand s_l.length (fun j => (krnd (s_l.getD j 0)).dk.n)
      (fun j => (rnd (j + 1)).k) (signShare x s_l) k (rnd (k + 1)))
    (hk0 : ∑ j ∈ Finset.range s_l.length, (rnd (j + 1)).k ≠ 0)
    (hg0 : ∑ j ∈ Finset.range s_l.length, (rnd (j + 1)).gamma ≠ 0) :
    ∃ d : Sc, (∀ file ∈ files, file.y_sum = d • G) ∧
      HonestRoom n (d • G) x (fun i => (krnd i).dk) s_l key rnd ∧ Reconstructs t n x d := by
  obtain ⟨files', d, x', hrun, hfl, -, hrec, hof⟩ := C16_honest_keygen A ht hn krnd hon
  rw [hrun, Res.ok.injEq] at hfiles
  subst hfiles
  have hget : ∀ i, 1 ≤ i → i ≤ n → ∃ file, files'[i - 1]? = some file ∧
      KeyFileOf n (d • G) x' (fun i => (krnd i).dk) i file := by
    intro i h1 h2
    have hi : i - 1 < files'.length := by omega
    refine ⟨files'[i - 1], List.getElem?_eq_getElem hi, ?_⟩
    have := (hof (i - 1) _ (List.getElem?_eq_getElem hi)).2
    rwa [Nat.sub_add_cancel h1] at this
  have hx' : ∀ i, 1 ≤ i → i ≤ n → x i = x' i := by
    intro i h1 h2
    obtain ⟨file, e, hK⟩ := hget i h1 h2
    have := hxk (i - 1) file e
    rw [Nat.sub_add_cancel h1, hK.share] at this
    exact this.symm
  have hrec' : Reconstructs t n x d := by
    intro S hS hc
    rw [← hrec S hS hc]
    refine Finset.sum_congr rfl fun i hi => ?_
    rw [hx' i (hS i hi).1 (hS i hi).2]
  have hH : HonestRoom n (d • G) x (fun i => (krnd i).dk) s_l key rnd :=
    { n_lt := hn, n_u16 := hu, nodup := hnd, members := hmem
      holds := by
        intro k hk
        have hm := hmem _ (GG20.Sign.getD_mem hk)
        obtain ⟨file, e, hK⟩ := hget _ hm.1 hm.2
        have h1 := hkey k (s_l.getD k 0) (by simp [hk])
        rw [e, Option.some.injEq] at h1
        rw [← h1]
        exact { hK with
          share := by rw [hx' _ hm.1 hm.2]; exact hK.share
          vss := fun j h1 h2 => by rw [hx' j h1 h2]; exact hK.vss j h1 h2 }
      dk_valid := fun i h1 h2 => (hon i h1 h2).dk_valid
      sample := hs, k_sum := hk0, gamma_sum := hg0 }
  refine ⟨d, ?_, hH, hrec'⟩
  intro file hfile
  obtain ⟨k, hk, rfl⟩ := List.getElem_of_mem hfile
  exact (hof k _ (List.getElem?_eq_getElem hk)).2.public_key

/-- **C51** (from key generation to signature): the same for a key made by the key generation clients. -/
theorem C51_keygen_then_sign (A : Aead) {t n : ℕ} (ht : t < n) (hn : n < q) (hu : n < 65536)
    {krnd : ℕ → Demo.Keygen.Rand} (hon : ∀ i, 1 ≤ i → i ≤ n → HonestKeygenRand t (krnd i))
    {files : List Demo.Keygen.KeyFile} (hfiles : Demo.Keygen.run A t n krnd = .ok files)
    {s_l : List ℕ} (hnd : s_l.Nodup) (hmem : ∀ i ∈ s_l, 1 ≤ i ∧ i ≤ n) (hlen : t + 1 ≤ s_l.length)
    {key : ℕ → Demo.Keygen.KeyFile} (hkey : ∀ k i, s_l[k]? = some i → files[i - 1]? = some (key (k + 1)))
    {x : ℕ → Sc} (hxk : ∀ i file, files[i]? = some file → file.shared_keys.x_i = x (i + 1))
    {rnd : ℕ → Demo.Sign.Rand}
    (hs : ∀ k < s_l.length, HonestSignRand s_l.length (fun j => (krnd (s_l.getD j 0)).dk.n)
      (fun j => (rnd (j + 1)).k) (signShare x s_l) k (rnd (k + 1)))
    (hk0 : ∑ j ∈ Finset.range s_l.length, (rnd (j + 1)).k ≠ 0)
    (hg0 : ∑ j ∈ Finset.range s_l.length, (rnd (j + 1)).gamma ≠ 0) :
    ∃ d, (∀ file ∈ files, file.y_sum = d • G) ∧
      ∀ message : ℤ,
        (∀ xr y, coords ((∑ j ∈ Finset.range s_l.length, (rnd (j + 1)).k)⁻¹ • (G : Pt)) = some (xr, y) →
          (message : Sc) + (xr : Sc) * d ≠ 0) →
        ∃ sig, Demo.Sign.run (s_l.length - 1) key message rnd = .ok (List.replicate s_l.length sig) ∧
          EcdsaEq (d • G) message sig.r sig.s ∧ LowS sig.s := by
  obtain ⟨d, hY, hH, hrec⟩ := keygen_room A ht hn hu hon hfiles hnd hmem hkey hxk hs hk0 hg0
  exact ⟨d, hY, fun message hm => C51_honest_signing hH hrec hlen message hm⟩

/-! ### Phase 5 -/

/-- **C52.** Signers with partial signatures `s k`, blinding values `l k`, `rho k` and one nonce point `R`
run phase 5: the checks of phase 5c pass, and the comparison of phase 5d releases the partial signatures
exactly when the sum of the `rho k` is zero or the sum of the partial signatures satisfies the verification
equation `s R = m G + r Y`. -/
theorem C52_phase5 {m : ℕ} {R : Pt} {xr y : ℕ} (hR : coords R = some (xr, y)) (Y : Pt) (message : ℤ)
    (l rho s : ℕ → Sc) (blind5a blind5c : ℕ → ℤ) (dlogNonce heg1 heg2 : ℕ → Sc)
    (sig : ℕ → LocalSignature) (hsig : ∀ k, sig k = ⟨l k, rho k, R, s k, message, Y⟩)
    (com1 : ℕ → Phase5Com1) (decom1 : ℕ → Phase5ADecom1) (heg : ℕ → HomoElGamalProof)
    (dlog : ℕ → DLogProof)
    (h5a : ∀ k, (sig k).phase5a (blind5a k) (dlogNonce k) (heg1 k) (heg2 k) =
      (com1 k, decom1 k, heg k, dlog k)) :
    ∃ (com2 : ℕ → Phase5Com2) (decom2 : ℕ → Phase5DDecom2),
      (∀ k < m, (sig k).phase5c ((GG20.Sign.others m k).map decom1) ((GG20.Sign.others m k).map com1)
        ((GG20.Sign.others m k).map heg) ((GG20.Sign.others m k).map dlog) (decom1 k).V_i R (blind5c k) =
          .ok (com2 k, decom2 k)) ∧
      ∀ k, (sig k).phase5d ((List.range m).map decom2) ((List.range m).map com2)
          ((List.range m).map decom1) =
        if ∑ j ∈ Finset.range m, rho j = 0 ∨
            (∑ j ∈ Finset.range m, s j) • R = (message : Sc) • G + (xr : Sc) • Y
        then .ok (s k) else .err .InvalidKey := by
  obtain rfl : sig = pSig R Y message l rho s := funext hsig
  have e := fun k => (phase5a_eq R Y message l rho s blind5a dlogNonce heg1 heg2 k).symm.trans (h5a k)
  simp only [Prod.mk.injEq] at e
  obtain rfl : pC1 R l rho s blind5a = com1 := funext fun k => (e k).1
  obtain rfl : pD1 R l rho s blind5a = decom1 := funext fun k => (e k).2.1
  obtain rfl : pHeg R l rho s blind5a heg1 heg2 = heg := funext fun k => (e k).2.2.1
  obtain rfl : pDl rho dlogNonce = dlog := funext fun k => (e k).2.2.2
  exact ⟨_, _, fun k hk => phase5c_honest R Y message l rho s blind5a blind5c dlogNonce heg1 heg2 hR hk,
    fun k => phase5d_honest R Y message l rho s blind5a blind5c⟩

/-- **C52** (what is released): the verification equation with a non-zero sum makes a valid signature, and a
zero sum can only satisfy it when `m G + r Y = 0`. -/
theorem C52_released_valid {R Y : Pt} {xr y : ℕ} (hR : coords R = some (xr, y)) {message : ℤ} {s : Sc}
    (h : s • R = (message : Sc) • G + (xr : Sc) • Y) :
    EcdsaEq Y message (xr : Sc) s ∨ (s = 0 ∧ (message : Sc) • G + (xr : Sc) • Y = 0) := by
  by_cases hs : s = 0
  · exact Or.inr ⟨hs, by rw [← h, hs, zero_smul]⟩
  · exact Or.inl (GG20.Sign.ecdsaEq_of_eq hR hs h)

/-- **C71** (acceptance). On vectors of one length `phase5c` accepts exactly when every peer's opening
matches its commitment and both its proofs verify; otherwise it reports `InvalidCom`. -/
theorem C71_phase5c_iff (self : LocalSignature) {xr y : ℕ} (hR : coords self.R = some (xr, y))
    {decoms : List Phase5ADecom1} {coms : List Phase5Com1} {hegs : List HomoElGamalProof}
    {dlogs : List DLogProof} (v_i R : Pt) (blind : ℤ) (h1 : decoms.length = coms.length)
    (h2 : hegs.length = coms.length) (h3 : dlogs.length = coms.length) :
    ((∃ out, self.phase5c decoms coms hegs dlogs v_i R blind = .ok out) ↔
      ∀ i < coms.length, Opens5a R decoms coms hegs dlogs i) ∧
    (self.phase5c decoms coms hegs dlogs v_i R blind = .err .InvalidCom ↔
      ∃ i < coms.length, ¬ Opens5a R decoms coms hegs dlogs i) := by
  rcases phase5c_cases self hR v_i R blind h1 h2 h3 with ⟨ha, e⟩ | ⟨hb, e⟩
  · refine ⟨⟨fun _ => ha, fun _ => ⟨_, e⟩⟩, ⟨fun h => ?_, fun ⟨i, hi, hn⟩ => absurd (ha i hi) hn⟩⟩
    rw [e] at h; cases h
  · refine ⟨⟨fun ⟨out, h⟩ => ?_, fun h => ?_⟩, ⟨fun _ => hb, fun _ => e⟩⟩
    · rw [e] at h; cases h
    · obtain ⟨i, hi, hn⟩ := hb
      exact absurd (h i hi) hn

/-- **C71** (extraction). Two accepting transcripts of the phase 5b proof with the same first message and
different challenges determine `s` and `l` with `V = s R + l G` and `B = l A`. -/
theorem C71_extract {R : Pt} {d : Phase5ADecom1} {T A3 : Pt} {e e' z1 z1' z2 z2' : Sc} (hne : e ≠ e')
    (h1 : z1 • R + z2 • G = T + e • d.V_i) (h2 : z2 • d.A_i = A3 + e • d.B_i)
    (h1' : z1' • R + z2' • G = T + e' • d.V_i) (h2' : z2' • d.A_i = A3 + e' • d.B_i) :
    d.V_i = ((z1 - z1') / (e - e')) • R + ((z2 - z2') / (e - e')) • G ∧
      d.B_i = ((z2 - z2') / (e - e')) • d.A_i := by
  have hd : e - e' ≠ 0 := sub_ne_zero.2 hne
  constructor
  · refine (smul_pt_inj hd).1 ?_
    rw [smul_add, ← mul_smul, ← mul_smul, mul_div_cancel₀ _ hd, mul_div_cancel₀ _ hd]
    have : (z1 • R + z2 • G) - (z1' • R + z2' • G) = (T + e • d.V_i) - (T + e' • d.V_i) := by rw [h1, h1']
    rw [sub_smul, sub_smul, sub_smul]
    rw [add_sub_add_comm, add_sub_add_left_eq_sub] at this
    exact this.symm
  · refine (smul_pt_inj hd).1 ?_
    rw [← mul_smul, mul_div_cancel₀ _ hd]
    have : z2 • d.A_i - z2' • d.A_i = (A3 + e • d.B_i) - (A3 + e' • d.B_i) := by rw [h2, h2']
    rw [sub_smul, sub_smul, this, add_sub_add_left_eq_sub]

/-- **C71 is violated** in one respect: the proof of knowledge that accompanies an opening need not be
about its `A_i`.  Whatever opening and ElGamal proof a peer sends, replacing its discrete-log proof by a
proof for a freely chosen `sk` leaves it accepted. -/
theorem C71_rho_proof_unbound {R : Pt} {d : Phase5ADecom1} {c : Phase5Com1} {h : HomoElGamalProof}
    {p : DLogProof} (hacc : Opens5a R [d] [c] [h] [p] 0) (sk nonce : Sc) :
    Opens5a R [d] [c] [h] [DLogProof.prove sk nonce] 0 := by
  obtain ⟨d', c', h', p', e1, e2, e3, -, g1, g2, -⟩ := hacc
  exact ⟨d', c', h', _, e1, e2, e3, rfl, g1, g2, DLogProof.verify_prove _ _⟩

/-! ### The nonce point -/

/-- **C70.** With one proof, one opening and one commitment per peer, `phase4` returns the sum of the
opened points times `delta⁻¹` exactly when every opening matches its commitment and the point of the peer's
MtA proof; otherwise it reports `InvalidKey`. -/
theorem C70_phase4_iff_partial (delta_inv : Sc) {b_proofs : List DLogProof}
    {decoms : List SignDecommitPhase1} {bcs : List SignBroadcastPhase1}
    (h1 : decoms.length = b_proofs.length) (h2 : bcs.length = b_proofs.length) :
    ((∃ R, phase4 delta_inv b_proofs decoms bcs = .ok R) ↔
      ∀ i < decoms.length, OpensGamma b_proofs decoms bcs i) ∧
    (∀ R, phase4 delta_inv b_proofs decoms bcs = .ok R →
      R = delta_inv • (decoms.map (·.g_gamma_i)).sum) ∧
    (phase4 delta_inv b_proofs decoms bcs = .err .InvalidKey ↔
      ∃ i < decoms.length, ¬ OpensGamma b_proofs decoms bcs i) := by
  rw [h1]
  rcases GG18.phase4_cases delta_inv h1.ge h2.ge with ⟨ha, e⟩ | ⟨hb, e⟩
  · refine ⟨⟨fun _ => ha, fun _ => ⟨_, e⟩⟩, fun R h => ?_,
      ⟨fun h => ?_, fun ⟨i, hi, hn⟩ => absurd (ha i hi) hn⟩⟩
    · rw [e] at h; exact (Res.ok.inj h).symm
    · rw [e] at h; cases h
  · refine ⟨⟨fun ⟨out, h⟩ => ?_, fun h => ?_⟩, fun R h => ?_, ⟨fun _ => hb, fun _ => e⟩⟩
    · rw [e] at h; cases h
    · obtain ⟨i, hi, hn⟩ := hb
      exact absurd (h i hi) hn
    · rw [e] at h; cases h

/-- **C70 is violated** when there are more openings than proofs: `phase4` adds the surplus openings without
looking at their commitments, so that they shift its result to any point. -/
theorem C70_surplus_unchecked (delta_inv : Sc) (hd : delta_inv ≠ 0) {b_proofs : List DLogProof}
    {decoms : List SignDecommitPhase1} {bcs : List SignBroadcastPhase1}
    (h1 : decoms.length = b_proofs.length) (h2 : b_proofs.length ≤ bcs.length)
    (hall : ∀ i < b_proofs.length, OpensGamma b_proofs decoms bcs i) (R : Pt) :
    ∃ extra : SignDecommitPhase1, phase4 delta_inv b_proofs (decoms ++ [extra]) bcs = .ok R := by
  refine ⟨⟨0, delta_inv⁻¹ • R - (decoms.map (·.g_gamma_i)).sum⟩, ?_⟩
  rcases GG18.phase4_cases delta_inv (b_proofs := b_proofs)
    (decoms := decoms ++ [⟨0, delta_inv⁻¹ • R - (decoms.map (·.g_gamma_i)).sum⟩]) (bcs := bcs)
    (by simp [h1]) h2 with ⟨-, e⟩ | ⟨⟨i, hi, hb⟩, -⟩
  · rw [e]
    simp only [List.map_append, List.map_cons, List.map_nil, List.sum_append, List.sum_cons, List.sum_nil,
      add_zero, add_sub_cancel]
    rw [← mul_smul, mul_inv_cancel₀ hd, one_smul]
  · refine absurd ?_ hb
    obtain ⟨pf, d, bc, g1, g2, g3, g4, g5⟩ := hall i hi
    exact ⟨pf, d, bc, g1, by rw [List.getElem?_append_left (by omega)]; exact g2, g3, g4, g5⟩

/-! ### The checks of key generation -/

/-- **C69** (openings). The first check accepts exactly when every party's opening matches its commitment
and its Paillier-key proof verifies. -/
theorem C69_openings_iff (k : Keys) {t n : ℕ} (ht : t < n) {decoms : List KeyGenDecommitMessage1}
    {bcs : List KeyGenBroadcastMessage1} (coefs : List Sc) (h1 : decoms.length = n) (h2 : bcs.length = n) :
    ((∃ out, k.phase1_verify_distribute ⟨t, n⟩ decoms bcs coefs = .ok out) ↔
      ∀ i < n, GG18.ValidBroadcastAt bcs decoms i) ∧
    (k.phase1_verify_distribute ⟨t, n⟩ decoms bcs coefs = .err .InvalidKey ↔
      ∃ i < n, ¬ GG18.ValidBroadcastAt bcs decoms i ∧ ¬ GG18.PanickingBroadcastAt bcs decoms i ∧
        ∀ j < i, GG18.ValidBroadcastAt bcs decoms j) ∧
    (k.phase1_verify_distribute ⟨t, n⟩ decoms bcs coefs = .panic ↔
      ∃ i < n, GG18.PanickingBroadcastAt bcs decoms i ∧
        ∀ j < i, GG18.ValidBroadcastAt bcs decoms j) := by
  have hdisj : ∀ i < n, GG18.PanickingBroadcastAt bcs decoms i → ¬ GG18.ValidBroadcastAt bcs decoms i := by
    intro i hi h
    rw [panickingBroadcastAt_iff h1 h2 hi] at h
    rw [validBroadcastAt_iff h1 h2 hi, h]
    simp
  have hfirst : ∀ i j, (∀ l < i, GG18.ValidBroadcastAt bcs decoms l) →
      (∀ l < j, GG18.ValidBroadcastAt bcs decoms l) → ¬ GG18.ValidBroadcastAt bcs decoms i →
      ¬ GG18.ValidBroadcastAt bcs decoms j → i = j := by
    intro i j a b c d
    rcases lt_trichotomy i j with h | h | h
    · exact absurd (b i h) c
    · exact h
    · exact absurd (a j h) d
  rcases phase1_cases k ht coefs h1 h2 with ⟨ha, e⟩ | ⟨i, hi, hb, hp, ⟨hc, e⟩ | ⟨hc, e⟩⟩
  · rw [e]
    simp only [Res.ok.injEq, exists_eq', true_iff, reduceCtorEq, false_iff]
    exact ⟨ha, fun ⟨i, hi, hn, _⟩ => hn (ha i hi), fun ⟨i, hi, hn, _⟩ => hdisj i hi hn (ha i hi)⟩
  · rw [e]
    simp only [reduceCtorEq, exists_false, false_iff, true_iff]
    exact ⟨fun h => hb (h i hi), ⟨i, hi, hb, hc, hp⟩, fun ⟨j, hj, hn, hp'⟩ =>
      hc (hfirst i j hp hp' hb (hdisj j hj hn) ▸ hn)⟩
  · rw [e]
    simp only [reduceCtorEq, exists_false, false_iff, true_iff]
    exact ⟨fun h => hb (h i hi), fun ⟨j, hj, hn, hn', hp'⟩ => hn' (hfirst i j hp hp' hb hn ▸ hc),
      i, hi, hc, hp⟩

/-- **C69** (shares). The second check accepts exactly when every dealer's share lies on its committed
polynomial and the commitment starts with the dealer's announced public share; then the party's key is the
sum of the announced shares and its secret the sum of its shares. -/
theorem C69_shares_iff {t n : ℕ} {ys : List Pt} {shares : List Sc} {vss : List Vss} (index : ℕ) (nonce : Sc)
    (h1 : ys.length = n) (h2 : shares.length = n) (h3 : vss.length = n) :
    ((∃ out, Keys.phase2_verify_vss ⟨t, n⟩ ys shares vss index nonce = .ok out) ↔
      ∀ i < n, ValidShareAt ys shares vss index i) ∧
    (∀ sk pf, Keys.phase2_verify_vss ⟨t, n⟩ ys shares vss index nonce = .ok (sk, pf) →
      sk.y = ys.sum ∧ sk.x_i = shares.sum ∧ pf.pk = shares.sum • G ∧ pf.verify = true ∧
      shares.sum • G = (vss.map (fun v => feldmanEval v.commitments (index : Sc))).sum) := by
  rcases phase2_cases (t := t) (n := n) index nonce h1 h2 h3 with ⟨ha, e⟩ | ⟨i, hi, hb, -, -, e⟩ | ⟨i, hi, hb, -, e⟩
  · refine ⟨⟨fun _ => ha, fun _ => ⟨_, e⟩⟩, fun sk pf h => ?_⟩
    rw [e, Res.ok.injEq, Prod.mk.injEq] at h
    obtain ⟨rfl, rfl⟩ := h
    refine ⟨rfl, rfl, rfl, DLogProof.verify_prove _ _, ?_⟩
    have hl : vss.map (fun v => feldmanEval v.commitments (index : Sc)) = shares.map (fun s => s • G) := by
      refine List.ext_getElem (by simp [h2, h3]) fun i g1 g2 => ?_
      have hi : i < n := by simpa [h3] using g1
      obtain ⟨y, s, v, -, e2, e3, e4, -⟩ := ha i hi
      rw [List.getElem?_eq_getElem (by omega), Option.some.injEq] at e2 e3
      simp only [List.getElem_map]
      rw [e2, e3, e4]
    rw [hl]
    clear e ha hl h2
    induction shares with
    | nil => simp
    | cons a l ih => simp only [List.sum_cons, List.map_cons, add_smul, ih]
  · refine ⟨⟨fun ⟨out, h⟩ => ?_, fun h => absurd (h i hi) hb⟩, fun sk pf h => ?_⟩ <;>
    · rw [e] at h; cases h
  · refine ⟨⟨fun ⟨out, h⟩ => ?_, fun h => ?_⟩, fun sk pf h => ?_⟩
    · rw [e] at h; cases h
    · obtain ⟨y, s, v, -, -, e3, -, e5⟩ := h i hi
      rw [e3, Option.map_some, Option.some.injEq] at hb
      rw [hb] at e5; cases e5
    · rw [e] at h; cases h

/-- **C69** (partial). The last check accepts exactly when every discrete-log proof verifies; that the
proofs are about the parties' public shares is not checked. -/
theorem C69_dlog_iff_partial {t n : ℕ} {proofs : List DLogProof} {ys : List Pt} (h1 : ys.length = n)
    (h2 : proofs.length = n) :
    (verify_dlog_proofs ⟨t, n⟩ proofs ys = .ok () ↔ ∀ i < n, ValidProofAt proofs i) ∧
    (verify_dlog_proofs ⟨t, n⟩ proofs ys = .err .InvalidKey ↔ ∃ i < n, ¬ ValidProofAt proofs i) := by
  rcases dlog_cases (t := t) (n := n) h1 h2 with ⟨ha, e⟩ | ⟨hb, e⟩
  · refine ⟨⟨fun _ => ha, fun _ => e⟩, ⟨fun h => ?_, fun ⟨i, hi, hn⟩ => absurd (ha i hi) hn⟩⟩
    rw [e] at h; cases h
  · refine ⟨⟨fun h => ?_, fun h => ?_⟩, ⟨fun _ => hb, fun _ => e⟩⟩
    · rw [e] at h; cases h
    · obtain ⟨i, hi, hn⟩ := hb
      exact absurd (h i hi) hn

/-- **C69 is violated**: the last check accepts the same proof of a freely chosen secret from every party,
whatever the parties' keys and polynomial commitments are. -/
theorem C69_dlog_unbound {t n : ℕ} {ys : List Pt} (h1 : ys.length = n) (sk nonce : Sc) :
    verify_dlog_proofs ⟨t, n⟩ (List.replicate n (DLogProof.prove sk nonce)) ys = .ok () := by
  refine (C69_dlog_iff_partial h1 (by simp)).1.2 fun i hi => ⟨DLogProof.prove sk nonce, by simp [hi],
    DLogProof.verify_prove _ _⟩

/-- **C69 is violated** (size): the first check accepts a genuine Paillier key of any size
(with prime factors above 6370). -/
theorem C69_any_key_size (k : Keys) {t n : ℕ} (ht : t < n) (coefs : List Sc) {dk : DecKey} (hdk : dk.Valid)
    (hl : dk.Large) (u : Sc) (blind : ℤ) :
    ∃ out, k.phase1_verify_distribute ⟨t, n⟩
      (List.replicate n ((Keys.create 1 u dk).phase1_broadcast blind).2)
      (List.replicate n ((Keys.create 1 u dk).phase1_broadcast blind).1) coefs = .ok out := by
  refine (C69_openings_iff k ht coefs (by simp) (by simp)).1.2 fun i hi => ?_
  exact ⟨((Keys.create 1 u dk).phase1_broadcast blind).1, ((Keys.create 1 u dk).phase1_broadcast blind).2,
    by simp [hi], by simp [hi], rfl, ck_complete _ hdk hl⟩

/-! ### No panic on peer data -/

/-- **C15** (GG18). On vectors with one entry per party the last check never panics, and the first does not
if no verification of a proof by the dependency panics. -/
theorem C15_gg18_no_panic {t n : ℕ} (ht : t < n) (k : Keys) {decoms : List KeyGenDecommitMessage1}
    {bcs : List KeyGenBroadcastMessage1} (coefs : List Sc) {proofs : List DLogProof} {ys : List Pt}
    (h1 : decoms.length = n) (h2 : bcs.length = n) (h3 : ys.length = n) (h4 : proofs.length = n) :
    ((∀ i < n, ¬ GG18.PanickingBroadcastAt bcs decoms i) →
      k.phase1_verify_distribute ⟨t, n⟩ decoms bcs coefs ≠ .panic) ∧
    verify_dlog_proofs ⟨t, n⟩ proofs ys ≠ .panic := by
  constructor
  · intro hp
    rw [ne_eq, (C69_openings_iff k ht coefs h1 h2).2.2]
    exact fun ⟨i, hi, hc, _⟩ => hp i hi hc
  · rcases dlog_cases (t := t) (n := n) h3 h4 with ⟨-, e⟩ | ⟨-, e⟩ <;> rw [e] <;> simp

/-- **C15 is violated** for the share check: it panics exactly when the first dealer with unusable data sent
an empty polynomial commitment. -/
theorem C15_gg18_shares_panic_iff {t n : ℕ} {ys : List Pt} {shares : List Sc} {vss : List Vss} (index : ℕ)
    (nonce : Sc) (h1 : ys.length = n) (h2 : shares.length = n) (h3 : vss.length = n) :
    Keys.phase2_verify_vss ⟨t, n⟩ ys shares vss index nonce = .panic ↔
      ∃ i < n, vss[i]?.map (·.commitments) = some [] ∧ ∀ j < i, ValidShareAt ys shares vss index j := by
  rcases phase2_cases (t := t) (n := n) index nonce h1 h2 h3 with ⟨ha, e⟩ | ⟨i, hi, hb, hc, hp, e⟩ | ⟨i, hi, hb, hp, e⟩
  · refine ⟨fun h => absurd (e.symm.trans h) (by simp), fun ⟨i, hi, hb, _⟩ => ?_⟩
    obtain ⟨y, s, v, -, -, e3, -, e5⟩ := ha i hi
    rw [e3, Option.map_some, Option.some.injEq] at hb
    rw [hb] at e5; cases e5
  · refine ⟨fun h => absurd (e.symm.trans h) (by simp), fun ⟨j, hj, hbj, hpj⟩ => ?_⟩
    rcases lt_trichotomy i j with hl | rfl | hl
    · exact absurd (hpj i hl) hb
    · exact absurd hbj hc
    · obtain ⟨y, s, v, -, -, e3, -, e5⟩ := hp j hl
      rw [e3, Option.map_some, Option.some.injEq] at hbj
      rw [hbj] at e5; cases e5
  · exact ⟨fun _ => ⟨i, hi, hb, hp⟩, fun _ => e⟩

/-- **C15 is violated** for the key generation client: a peer that opens its commitment to the point at
infinity makes it panic (before the opening is checked). -/
theorem C15_gg18_client_panics (A : Aead) (params : Parameters) (rnd : ℕ → Demo.Keygen.Rand) (me : ℕ)
    (st : Demo.Keygen.St2) (ans : List KeyGenDecommitMessage1) (h : ∃ d ∈ ans, d.y_i = 0) :
    Demo.Keygen.round3 A params rnd me st ans = .panic := by
  have hm : Res.mapM (Demo.Keygen.encKey st.keys.u_i) ans = .panic := by
    obtain ⟨d, hd, h0⟩ := h
    have e : Demo.Keygen.encKey st.keys.u_i d = .panic := by
      unfold Demo.Keygen.encKey
      rw [h0, smul_zero, xc_eq_none.2 rfl]
      rfl
    cases hr : Res.mapM (Demo.Keygen.encKey st.keys.u_i) ans with
    | ok l =>
      obtain ⟨i, hi, rfl⟩ := List.getElem_of_mem hd
      have := (List.forall₂_iff_get.1 (Res.mapM_eq_ok.1 hr))
      have h2 := this.2 i hi (this.1 ▸ hi)
      simp only [List.get_eq_getElem] at h2
      rw [e] at h2; cases h2
    | err e => exact e.elim
    | panic => rfl
  unfold Demo.Keygen.round3
  cases hr : (Demo.reassemble params.share_count me st.decom ans : Res Empty _) with
  | ok l => rw [Res.bind_ok, hm]; rfl
  | err e => exact e.elim
  | panic => rfl

/-! ### Refresh and update -/

/-- **C18** (GG18). Updating every party with shares (of the same threshold) of `δ` shifts the shared secret
by exactly `δ`. -/
theorem C18_gg18_update_shifts_secret {t n : ℕ} (hn : n < q) (k : ℕ → Keys) (sk : ℕ → SharedKeys)
    (fu fx : ℕ → Sc) (f g : Polynomial Sc)
    (hf : OnPolynomial t n (fun i => (sk i).x_i) f) (hg : OnPolynomial t n fx g) :
    let pp := fun i => PartyPrivate.set_private (k i) (sk i)
    Reconstructs t n (fun i => (pp i).x_i) (f.eval 0) ∧
    Reconstructs t n (fun i => ((pp i).update_private_key (fu i) (fx i)).x_i)
      (f.eval 0 + g.eval 0) ∧
    ∀ i, ((pp i).update_private_key (fu i) (fx i)).u_i = (k i).u_i + fu i ∧
      (pp i).public_y_i = (k i).u_i • G ∧
      ((pp i).update_private_key (fu i) (fx i)).public_y_i = (pp i).public_y_i + fu i • G ∧
      ((pp i).update_private_key (fu i) (fx i)).dk = (k i).dk := by
  intro pp
  refine ⟨hf.reconstructs hn, ?_, fun i => ⟨rfl, rfl, add_smul _ _ _, rfl⟩⟩
  have : OnPolynomial t n (fun i => ((pp i).update_private_key (fu i) (fx i)).x_i) (f + g) := by
    refine ⟨lt_of_le_of_lt (Polynomial.degree_add_le _ _) (max_lt hf.1 hg.1), fun i h1 h2 => ?_⟩
    rw [Polynomial.eval_add, ← hf.2 i h1 h2, ← hg.2 i h1 h2]
    rfl
  simpa using this.reconstructs hn

/-- **C18** (GG18, refresh). Re-running key generation with every party's additive secret refreshed by a
factor yields a public key shifted by the sum of the factors. -/
theorem C18_gg18_refresh_shifts_public_key (A : Aead) {t n : ℕ} (ht : t < n) (hn : n < q)
    (rnd rnd' : ℕ → Demo.Keygen.Rand) (pp : ℕ → PartyPrivate) (factor : ℕ → Sc)
    (hpp : ∀ i, 1 ≤ i → i ≤ n → (pp i).u_i = (rnd i).u)
    (hrefresh : ∀ i, 1 ≤ i → i ≤ n → Keys.create i (rnd' i).u (rnd' i).dk =
      (pp i).refresh_private_key (factor i) i (rnd' i).dk)
    (hon : ∀ i, 1 ≤ i → i ≤ n → HonestKeygenRand t (rnd i))
    (hon' : ∀ i, 1 ≤ i → i ≤ n → HonestKeygenRand t (rnd' i)) :
    ∃ files files', Demo.Keygen.run A t n rnd = .ok files ∧ Demo.Keygen.run A t n rnd' = .ok files' ∧
      ∀ (k : ℕ) (file file' : Demo.Keygen.KeyFile), files[k]? = some file → files'[k]? = some file' →
        file'.y_sum = file.y_sum + (∑ k ∈ Finset.range n, factor (k + 1)) • G := by
  obtain ⟨files, d, x, h1, -, hd, -, h2⟩ := C16_honest_keygen A ht hn rnd hon
  obtain ⟨files', d', x', h1', -, hd', -, h2'⟩ := C16_honest_keygen A ht hn rnd' hon'
  refine ⟨files, files', h1, h1', fun k key key' hk hk' => ?_⟩
  rw [(h2 k key hk).2.public_key, (h2' k key' hk').2.public_key, hd, hd', ← add_smul,
    ← Finset.sum_add_distrib]
  congr 1
  refine Finset.sum_congr rfl fun k hk => ?_
  have hk : k < n := by simpa using hk
  have := congrArg Keys.u_i (hrefresh (k + 1) (by omega) (by omega))
  rw [← hpp (k + 1) (by omega) (by omega)]
  exact this

end

/-! ### Concrete cases -/

section examples

attribute [local instance] Toy.crypto

/-- An idealised cipher. -/
def toyAead : Aead := ⟨List UInt8 × List UInt8 × ℕ, fun k m n => (k, m, n),
  fun k c => if c.1 = k then some c.2.1 else none, fun _ _ _ _ => if_pos rfl⟩

/-- Samples of party `i`: secret `i`, polynomial `i + (6 + i) X`. -/
def toyKg (i : ℕ) : Demo.Keygen.Rand :=
  { u := (i : ZMod 31), dk := toyKey3, blind := 5 + i, coefs := [((6 + i : ℕ) : ZMod 31)]
    aesNonce := fun j => j, dlogNonce := (9 : ZMod 31) }

theorem toyKg_honest {i : ℕ} (h1 : 1 ≤ i) (h2 : i ≤ 3) : HonestKeygenRand 1 (toyKg i) := by
  refine ⟨?_, toyKey3_valid, toyKey3_large, rfl⟩
  interval_cases i <;> decide

/-- C16's hypotheses hold for a 2-of-3 key. -/
example := C16_honest_keygen toyAead (t := 1) (n := 3) (by decide) (by decide) toyKg
  fun _ => toyKg_honest

example := C18_gg18_refresh_shifts_public_key toyAead (t := 1) (n := 3) (by decide) (by decide) toyKg
  (fun i => { toyKg i with u := (toyKg i).u + (4 : ZMod 31) })
  (fun i => ⟨(toyKg i).u, (0 : ZMod 31), toyKey3⟩) (fun _ => (4 : ZMod 31)) (fun _ _ _ => rfl)
  (fun _ _ _ => rfl) (fun _ => toyKg_honest)
  (fun i h1 h2 => ⟨by interval_cases i <;> decide, toyKey3_valid, toyKey3_large, rfl⟩)

/-- Samples of the signer at position `i - 1`. -/
def toyRoom (i : ℕ) : Demo.Sign.Rand :=
  { gamma := ((4 + 2 * i : ℕ) : ZMod 31), k := ((2 + i : ℕ) : ZMod 31), blind := 77, ra := 1
    gammaR := fun _ => 1, gammaBeta := fun j => 990 + j
    gammaT1 := fun _ => (3 : ZMod 31), gammaT2 := fun _ => (4 : ZMod 31), wR := fun _ => 1
    wBeta := fun j => 900 + j, wT1 := fun _ => (3 : ZMod 31), wT2 := fun _ => (4 : ZMod 31)
    l := (8 : ZMod 31), rho := ((9 + i : ℕ) : ZMod 31), blind5a := 3, blind5c := 4
    dlogNonce := (10 : ZMod 31), heg1 := (11 : ZMod 31), heg2 := (12 : ZMod 31) }

theorem toyRoom_honest {N : ℕ → ℕ} (hN : ∀ j < 2, 1902 ≤ N j) (w : ℕ → ZMod 31) (k : ℕ) :
    HonestSignRand 2 N (fun j => (toyRoom (j + 1)).k) w k (toyRoom (k + 1)) := by
  have hv : ∀ a b : ZMod 31, (((a.val * b.val : ℕ)) : ℤ) ≤ 900 := by decide
  constructor
  · simp [toyRoom]
  · intro j _ _; simp [toyRoom]
  · intro j _ _; simp [toyRoom]
  · intro j _ _; simp [toyRoom]; omega
  · intro j _ _; simp [toyRoom]; omega
  · intro j hj _
    have h1 := hv (toyRoom (j + 1)).k (toyRoom (k + 1)).gamma
    have h2 := hN j hj
    have h3 : (toyRoom (k + 1)).gammaBeta (j + 1) = 990 + ((j + 1 : ℕ) : ℤ) := rfl
    rw [h3]
    push_cast at h1 ⊢
    have h4 : ((toyRoom (j + 1)).k.val : ℤ) * ((toyRoom (k + 1)).gamma.val : ℤ) ≤ 900 := h1
    omega
  · intro j hj _
    have h1 := hv (toyRoom (j + 1)).k (w k)
    have h2 := hN j hj
    have h3 : (toyRoom (k + 1)).wBeta (j + 1) = 900 + ((j + 1 : ℕ) : ℤ) := rfl
    rw [h3]
    push_cast at h1 ⊢
    have h4 : ((toyRoom (j + 1)).k.val : ℤ) * ((w k).val : ℤ) ≤ 900 := h1
    omega

/-- The room of parties 3 and 1 of a 2-of-3 key. -/
theorem toyRoom_room : ∃ x dk, HonestRoom 3 ((6 : ZMod 31) • (G : Pt)) x dk [3, 1]
    (fun k => Demo.Keygen.kFile 1 3 toyKg ([3, 1].getD (k - 1) 0 - 1)) toyRoom ∧
    Reconstructs 1 3 x (6 : ZMod 31) := by
  have hrun := Demo.Keygen.run_eq toyAead (t := 1) (n := 3) (rnd := toyKg) (by decide)
    (fun k hk => toyKg_honest (by omega) (by omega))
  have hdk : ∀ i, (toyKg i).dk = toyKey3 := fun _ => rfl
  obtain ⟨d, h1, h2, h3⟩ := keygen_room toyAead (t := 1) (n := 3) (by decide) (by decide) (by decide)
    (krnd := toyKg) (fun _ => toyKg_honest) hrun (s_l := [3, 1]) (by decide) (by decide)
    (key := fun k => Demo.Keygen.kFile 1 3 toyKg ([3, 1].getD (k - 1) 0 - 1))
    (by intro k i hi; rcases k with _ | _ | k <;> simp at hi <;> subst hi <;> rfl)
    (x := fun i => Demo.Keygen.kX 3 toyKg (i - 1))
    (by
      intro i k hk
      rw [List.getElem?_map] at hk
      obtain ⟨j, hj, rfl⟩ := Option.map_eq_some_iff.1 hk
      obtain ⟨h1, rfl⟩ := List.getElem?_eq_some_iff.1 hj
      simp only [List.getElem_range]
      rfl)
    (rnd := toyRoom)
    (fun k _ => toyRoom_honest (fun j hj => by simp only [hdk]; decide) _ k)
    (by decide) (by decide)
  have hd : d • (G : Pt) = (6 : ZMod 31) • (G : Pt) := by
    rw [← h1 (Demo.Keygen.kFile 1 3 toyKg 0) (List.mem_map.2 ⟨0, by simp, rfl⟩)]
    decide +kernel
  obtain rfl : d = (6 : ZMod 31) := smul_G_inj.1 hd
  exact ⟨_, _, h2, h3⟩

theorem toyRoom_message : ∀ xr y,
    coords ((∑ j ∈ Finset.range [3, 1].length, (toyRoom (j + 1)).k)⁻¹ • (G : Pt)) = some (xr, y) →
      ((10 : ℤ) : ZMod 31) + (xr : ZMod 31) * 6 ≠ 0 := by
  intro xr y h
  have : ∀ xy ∈ coords ((∑ j ∈ Finset.range [3, 1].length, (toyRoom (j + 1)).k)⁻¹ • (G : Pt)),
    ((10 : ℤ) : ZMod 31) + (xy.1 : ZMod 31) * 6 ≠ 0 := by decide +kernel
  exact this (xr, y) h

/-- The hypotheses of `C51_keygen_then_sign` (and with them those of `C16_signing_shares` and
`C51_honest_signing`) hold for parties 3 and 1 of a 2-of-3 key and the message 10. -/
example : ∃ files sig, Demo.Keygen.run toyAead 1 3 toyKg = .ok files ∧
    Demo.Sign.run 1 (fun k => Demo.Keygen.kFile 1 3 toyKg ([3, 1].getD (k - 1) 0 - 1)) 10 toyRoom =
      .ok [sig, sig] ∧
    EcdsaEq ((6 : ZMod 31) • (G : Pt)) 10 sig.r sig.s ∧ LowS sig.s := by
  have hrun := Demo.Keygen.run_eq toyAead (t := 1) (n := 3) (rnd := toyKg) (by decide)
    (fun k hk => toyKg_honest (by omega) (by omega))
  have hdk : ∀ i, (toyKg i).dk = toyKey3 := fun _ => rfl
  obtain ⟨d, h1, h2⟩ := C51_keygen_then_sign toyAead (t := 1) (n := 3) (by decide) (by decide) (by decide)
    (krnd := toyKg) (fun _ => toyKg_honest) hrun (s_l := [3, 1]) (by decide) (by decide) (by decide)
    (key := fun k => Demo.Keygen.kFile 1 3 toyKg ([3, 1].getD (k - 1) 0 - 1))
    (by intro k i hi; rcases k with _ | _ | k <;> simp at hi <;> subst hi <;> rfl)
    (x := fun i => Demo.Keygen.kX 3 toyKg (i - 1))
    (by
      intro i k hk
      rw [List.getElem?_map] at hk
      obtain ⟨j, hj, rfl⟩ := Option.map_eq_some_iff.1 hk
      obtain ⟨h1, rfl⟩ := List.getElem?_eq_some_iff.1 hj
      simp only [List.getElem_range]
      rfl)
    (rnd := toyRoom)
    (fun k _ => toyRoom_honest (fun j hj => by simp only [hdk]; decide) _ k)
    (by decide) (by decide)
  have hd : d • (G : Pt) = (6 : ZMod 31) • (G : Pt) := by
    rw [← h1 (Demo.Keygen.kFile 1 3 toyKg 0) (List.mem_map.2 ⟨0, by simp, rfl⟩)]
    decide +kernel
  obtain rfl : d = (6 : ZMod 31) := smul_G_inj.1 hd
  obtain ⟨sig, h3, h4, h5⟩ := h2 10 (by
    intro xr y h
    have : ∀ xy ∈ coords ((∑ j ∈ Finset.range [3, 1].length, (toyRoom (j + 1)).k)⁻¹ • (G : Pt)),
      ((10 : ℤ) : ZMod 31) + (xy.1 : ZMod 31) * 6 ≠ 0 := by decide +kernel
    exact this (xr, y) h)
  exact ⟨_, sig, hrun, h3, h4, h5⟩

/-- Phase 5 of two signers: nonce point `2 G`, partial signatures 5 and 6. -/
example := C52_phase5 (m := 2) (R := (2 : ZMod 31)) (xr := ((coords (2 : ZMod 31)).getD (0, 0)).1)
  (y := ((coords (2 : ZMod 31)).getD (0, 0)).2) (by decide) (7 : ZMod 31) 10
  (fun k => ((3 + k : ℕ) : ZMod 31)) (fun k => ((4 + k : ℕ) : ZMod 31)) (fun k => ((5 + k : ℕ) : ZMod 31))
  (fun _ => 1) (fun _ => 2) (fun _ => (3 : ZMod 31)) (fun _ => (4 : ZMod 31)) (fun _ => (5 : ZMod 31))
  _ (fun _ => rfl) _ _ _ _ (fun _ => rfl)

/-- A released `s`: 11 for the nonce point `4 G`, message 10 and key `9 G`. -/
example := C52_released_valid (R := (4 : ZMod 31)) (Y := (9 : ZMod 31))
  (xr := ((coords (4 : ZMod 31)).getD (0, 0)).1) (y := ((coords (4 : ZMod 31)).getD (0, 0)).2) (by decide)
  (message := 10) (s := (11 : ZMod 31)) (by decide)

/-- A peer's phase 5 message with `s = 5`, `l = 3`, `rho = 4` for the nonce point `2 G`. -/
def toy5a := (LocalSignature.mk (3 : ZMod 31) (4 : ZMod 31) (2 : ZMod 31) (5 : ZMod 31) 10 (7 : ZMod 31)).phase5a
  1 (3 : ZMod 31) (4 : ZMod 31) (5 : ZMod 31)

theorem toy5a_opens : Opens5a (2 : ZMod 31) [toy5a.2.1] [toy5a.1] [toy5a.2.2.1] [toy5a.2.2.2] 0 :=
  ⟨toy5a.2.1, toy5a.1, toy5a.2.2.1, toy5a.2.2.2, rfl, rfl, rfl, rfl, by decide +kernel, by decide +kernel,
    by decide +kernel⟩

example := C71_rho_proof_unbound toy5a_opens (9 : ZMod 31) (1 : ZMod 31)
example : (DLogProof.prove (9 : ZMod 31) (1 : ZMod 31)).pk ≠ toy5a.2.1.A_i := by decide +kernel

example := (C71_phase5c_iff ⟨(3 : ZMod 31), (4 : ZMod 31), (2 : ZMod 31), (5 : ZMod 31), 10, (7 : ZMod 31)⟩
  (xr := ((coords (2 : ZMod 31)).getD (0, 0)).1) (y := ((coords (2 : ZMod 31)).getD (0, 0)).2) (by decide)
  (decoms := [toy5a.2.1]) (coms := [toy5a.1]) (hegs := [toy5a.2.2.1]) (dlogs := [toy5a.2.2.2]) (1 : ZMod 31)
  (2 : ZMod 31) 3 rfl rfl rfl).1.2 fun i hi => by
    obtain rfl : i = 0 := by simpa using hi
    exact toy5a_opens

/-- Two transcripts for `V = 5 R + 3 G`, `B = 3 A` with `R = 2`, `A = 4` and challenges 1 and 2. -/
example := C71_extract (R := (2 : ZMod 31)) (d := ⟨(13 : ZMod 31), (4 : ZMod 31), (12 : ZMod 31), 0⟩)
  (T := (3 : ZMod 31)) (A3 := (4 : ZMod 31)) (e := (1 : ZMod 31)) (e' := (2 : ZMod 31)) (z1 := (6 : ZMod 31))
  (z1' := (11 : ZMod 31)) (z2 := (4 : ZMod 31)) (z2' := (7 : ZMod 31)) (by decide) (by decide) (by decide)
  (by decide) (by decide)

theorem toy_opensGamma : ∀ i < [toyPf].length, OpensGamma [toyPf] [⟨5, (7 : ZMod 31)⟩]
    [⟨hashCom (ser (7 : ZMod 31)) 5⟩] i := by
  intro i hi
  obtain rfl : i = 0 := by simpa using hi
  exact ⟨_, _, _, rfl, rfl, rfl, by decide +kernel, rfl⟩

example := (C70_phase4_iff_partial (2 : ZMod 31) (b_proofs := [toyPf]) (decoms := [⟨5, (7 : ZMod 31)⟩])
  (bcs := [⟨hashCom (ser (7 : ZMod 31)) 5⟩]) rfl rfl).1.2 toy_opensGamma

/-- The sum of the openings can be moved to any point, here `17 G`. -/
example := C70_surplus_unchecked (2 : ZMod 31) (by decide) (b_proofs := [toyPf])
  (decoms := [⟨5, (7 : ZMod 31)⟩]) (bcs := [⟨hashCom (ser (7 : ZMod 31)) 5⟩]) rfl (by decide) toy_opensGamma
  (17 : ZMod 31)

example := C69_any_key_size (Keys.create 2 (3 : ZMod 31) toyKey) (t := 1) (n := 3) (by decide)
  [(4 : ZMod 31)] toyKey3_valid toyKey3_large (5 : ZMod 31) 6
example := C69_dlog_unbound (t := 1) (n := 3) (ys := [(1 : ZMod 31), (2 : ZMod 31), (3 : ZMod 31)]) rfl
  (9 : ZMod 31) (1 : ZMod 31)

/-- Two dealers' polynomials `2 + 3 X` and `4 + X`, as seen by party 1. -/
theorem toy_validShares : ∀ i < 2, ValidShareAt [(2 : ZMod 31), (4 : ZMod 31)] [(5 : ZMod 31), (5 : ZMod 31)]
    [⟨1, 2, [(2 : ZMod 31), (3 : ZMod 31)]⟩, ⟨1, 2, [(4 : ZMod 31), (1 : ZMod 31)]⟩] 1 i := by
  intro i hi
  interval_cases i
  · exact ⟨(2 : ZMod 31), (5 : ZMod 31), ⟨1, 2, [(2 : ZMod 31), (3 : ZMod 31)]⟩, rfl, rfl, rfl,
      by decide +kernel, rfl⟩
  · exact ⟨(4 : ZMod 31), (5 : ZMod 31), ⟨1, 2, [(4 : ZMod 31), (1 : ZMod 31)]⟩, rfl, rfl, rfl,
      by decide +kernel, rfl⟩

example := (C69_shares_iff (t := 1) (n := 2) 1 (3 : ZMod 31) rfl rfl rfl).1.2 toy_validShares

/-- Party 1 panics on a second dealer's empty commitment. -/
example := (C15_gg18_shares_panic_iff (t := 1) (n := 2) (ys := [(2 : ZMod 31), (4 : ZMod 31)])
  (shares := [(5 : ZMod 31), (5 : ZMod 31)]) (vss := [⟨1, 2, [(2 : ZMod 31), (3 : ZMod 31)]⟩, ⟨1, 2, []⟩])
  1 (3 : ZMod 31) rfl rfl rfl).2 ⟨1, by decide, rfl, fun j hj => by
    obtain rfl : j = 0 := by omega
    exact ⟨(2 : ZMod 31), (5 : ZMod 31), ⟨1, 2, [(2 : ZMod 31), (3 : ZMod 31)]⟩, rfl, rfl, rfl,
      by decide +kernel, rfl⟩⟩

example := C15_gg18_client_panics toyAead ⟨1, 2⟩ toyKg 1
  ⟨Keys.create 1 (3 : ZMod 31) toyKey, [], ⟨5, (3 : ZMod 31)⟩⟩ [⟨6, (0 : ZMod 31)⟩] ⟨_, List.mem_singleton.2 rfl, rfl⟩

example := C15_gg18_no_panic (t := 1) (n := 2) (by decide) (Keys.create 2 (3 : ZMod 31) toyKey)
  (decoms := [⟨5, (7 : ZMod 31)⟩, ⟨5, (0 : ZMod 31)⟩]) (bcs := [⟨0, 0, ()⟩, ⟨1, 2, ()⟩]) []
  (proofs := [toyPf, toyPf]) (ys := [(0 : ZMod 31), (0 : ZMod 31)]) rfl rfl rfl rfl

end examples

end Verif.Props
