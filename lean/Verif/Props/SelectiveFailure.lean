import Verif.Spec.SelectiveFailure
import Verif.Props.Sign

/-!
# Property C111: accepting a response of the share conversion and the asker's secret
-/

namespace Verif.Props

open EC Crypto Spec GG20 GG20.Sign

section
variable [Crypto]

theorem probe_mask_range {N B : ℕ} {b : Sc} (hb0 : b ≠ 0) (hB : 1 ≤ B) (hBq : B ≤ q)
    (hq : (q : ℤ) ^ 2 ≤ N) : (0 : ℤ) ≤ N - B * b.val ∧ (N : ℤ) - B * b.val < N := by
  have h1 : 1 ≤ b.val := Nat.one_le_iff_ne_zero.2 (by rwa [ne_eq, ZMod.val_eq_zero])
  have h2 : (b.val : ℤ) < q := by exact_mod_cast ZMod.val_lt b
  have h3 : (B : ℤ) ≤ q := by exact_mod_cast hBq
  have h4 : (1 : ℤ) ≤ B := by exact_mod_cast hB
  have h5 : (1 : ℤ) ≤ b.val := by exact_mod_cast h1
  constructor
  · nlinarith
  · nlinarith

theorem probe_iff {N B : ℕ} {a b : Sc} (hb0 : b ≠ 0) :
    (a.val : ℤ) * b.val + (N - B * b.val) < N ↔ a.val < B := by
  have h1 : 1 ≤ b.val := Nat.one_le_iff_ne_zero.2 (by rwa [ne_eq, ZMod.val_eq_zero])
  have h5 : (0 : ℤ) < b.val := by exact_mod_cast h1
  rw [show (a.val : ℤ) * b.val + (N - B * b.val) < N ↔ (a.val : ℤ) * b.val < B * b.val by
    constructor <;> intro h <;> linarith, mul_lt_mul_iff_left₀ h5]
  exact_mod_cast Iff.rfl

/-- **C111 fails** (one exchange): Bob answers with the function of the protocol and a mask from the
range masks are drawn from, chosen as `N - B b` for any bound `B` of his choice.  Alice then accepts
exactly if her secret is below `B`, and otherwise stops with an error. -/
theorem C111_probe {dk : DecKey} (hv : dk.Valid) {a b : Sc} (hb0 : b ≠ 0) {B : ℕ} (hB : 1 ≤ B)
    (hBq : B ≤ q) {m_a : MessageA} {ra r : ℤ} {sts : List DLogStatement} {t_b t_beta : Sc}
    {m_b : MessageB} {beta : Sc} (hra : Int.gcd ra dk.n = 1) (hr : Int.gcd r dk.n = 1)
    (hq : (q : ℤ) ^ 2 ≤ dk.n) (hqn : ¬ q ∣ dk.n) (hc : m_a.c = Paillier.encrypt dk.n a.val ra)
    (hb : MessageB.b b dk.n m_a r (dk.n - B * b.val) sts t_b t_beta = .ok (m_b, beta)) :
    (0 ≤ (dk.n : ℤ) - B * b.val ∧ (dk.n : ℤ) - B * b.val < dk.n) ∧
    ((∃ alpha share, m_b.verify_proofs_get_alpha dk a = .ok (alpha, share)) ↔ a.val < B) ∧
    (B ≤ a.val → m_b.verify_proofs_get_alpha dk a = .err .InvalidKey) := by
  have hm := probe_mask_range hb0 hB hBq hq
  have hiff := C26_accepts_iff hv hra hr hq hqn hm.1 hm.2 hc hb
  rw [probe_iff hb0] at hiff
  refine ⟨hm, hiff, fun hBa => ?_⟩
  have hver := mta_verify_honest hv hra hr hb (by rw [hc]; exact Paillier.isEnc_encrypt dk.n a.val ra)
  dsimp only at hver
  rw [hver] at hiff ⊢
  split_ifs with h
  · rw [if_pos h] at hiff
    exact absurd (hiff.1 ⟨_, _, rfl⟩) (by omega)
  · rfl

/-- **C111 fails** (one exchange, GG18): the same. -/
theorem C111_probe_gg18 {dk : DecKey} (hv : dk.Valid) {a b : Sc} (hb0 : b ≠ 0) {B : ℕ} (hB : 1 ≤ B)
    (hBq : B ≤ q) {m_a : MessageA} {ra r : ℤ} {sts : List DLogStatement} {t_b t_beta : Sc}
    {m_b : MessageB} {beta : Sc} (hra : Int.gcd ra dk.n = 1) (hr : Int.gcd r dk.n = 1)
    (hq : (q : ℤ) ^ 2 ≤ dk.n) (hqn : ¬ q ∣ dk.n) (hc : m_a.c = Paillier.encrypt dk.n a.val ra)
    (hb : MessageB.b b dk.n m_a r (dk.n - B * b.val) sts t_b t_beta = .ok (m_b, beta)) :
    ((∃ alpha, m_b.verify_proofs_get_alpha_gg18 dk a = .ok alpha) ↔ a.val < B) ∧
    (B ≤ a.val → m_b.verify_proofs_get_alpha_gg18 dk a = .err .InvalidKey) := by
  obtain ⟨-, h1, h2⟩ := C111_probe hv hb0 hB hBq hra hr hq hqn hc hb
  rw [C27_gg18_same, ← h1]
  refine ⟨⟨fun ⟨alpha, h⟩ => ?_, fun ⟨alpha, share, h⟩ => ⟨alpha, by rw [h]; rfl⟩⟩,
    fun h => by rw [h2 h]; rfl⟩
  obtain ⟨⟨a', s'⟩, h, -⟩ := Res.bind_eq_ok.1 h
  exact ⟨a', s', h⟩

/-- **C111** (partial): a response made with a mask of at most `N - q^2` is accepted whatever the
asker's secret is.  Missing: the masks above that, which nothing keeps a responder from choosing, as
the protocol has no range proof for responses. -/
theorem C111_small_mask_partial {dk : DecKey} (hv : dk.Valid) {a b : Sc} {m_a : MessageA}
    {ra r beta_tag : ℤ} {sts : List DLogStatement} {t_b t_beta : Sc} {m_b : MessageB} {beta : Sc}
    (hra : Int.gcd ra dk.n = 1) (hr : Int.gcd r dk.n = 1) (hbt : 0 ≤ beta_tag)
    (hbt2 : beta_tag ≤ (dk.n : ℤ) - (q : ℤ) ^ 2) (hc : m_a.c = Paillier.encrypt dk.n a.val ra)
    (hb : MessageB.b b dk.n m_a r beta_tag sts t_b t_beta = .ok (m_b, beta)) :
    m_b.verify_proofs_get_alpha dk a = .ok (a * b + beta_tag, a.val * b.val + beta_tag) := by
  have hver := mta_verify_honest hv hra hr hb (by rw [hc]; exact Paillier.isEnc_encrypt dk.n a.val ra)
  have ha : (a.val : ℤ) < q := by exact_mod_cast ZMod.val_lt a
  have hb' : (b.val : ℤ) < q := by exact_mod_cast ZMod.val_lt b
  have h0 : (0 : ℤ) ≤ b.val := Int.natCast_nonneg _
  have hlt : (a.val : ℤ) * b.val + beta_tag < dk.n := by nlinarith
  have hmod : ((a.val : ℤ) * b.val + beta_tag) % dk.n = a.val * b.val + beta_tag :=
    Int.emod_eq_of_lt (by positivity) hlt
  have hcast : (((a.val : ℤ) * b.val + beta_tag : ℤ) : Sc) = a * b + beta_tag := by push_cast; simp
  simp only [hmod] at hver
  rw [if_pos hcast] at hver
  rw [hver, hcast]

/-! ### The whole offline stage -/

omit [Crypto] in
theorem Res.mapM_err {ε α β : Type} {f : α → Res ε β} {e : ε} {l : List α}
    (h : ∀ x ∈ l, (∃ b, f x = .ok b) ∨ f x = .err e) (hx : ∃ x ∈ l, f x = .err e) :
    Res.mapM f l = .err e := by
  induction l with
  | nil => simp at hx
  | cons a l ih =>
    rw [Res.mapM]
    rcases h a (List.mem_cons_self ..) with ⟨b, hb⟩ | hb
    · obtain ⟨y, hy, hye⟩ := hx
      rcases List.mem_cons.1 hy with rfl | hy
      · rw [hye] at hb; cases hb
      · rw [hb, Res.bind_ok, ih (fun x hx => h x (List.mem_cons_of_mem _ hx)) ⟨y, hy, hye⟩]
        rfl
    · rw [hb]; rfl

variable {t n : ℕ} {x : ℕ → Sc} {d : Sc} {Y : Pt} {dk : ℕ → DecKey} {sts : List DLogStatement}
  {s_l : List ℕ} {key : ℕ → LocalKey} {rnd : ℕ → SignRandomness}

theorem HonestSigners.masked (h : HonestSigners n Y x dk sts s_l key rnd) {a v : ℕ} {mask : ℤ}
    (h0 : 0 ≤ mask) (h1 : (rnd v).k.val * (rnd a).gamma.val + mask < (dk (s_l.getD v 0)).n) :
    HonestSigners n Y x dk sts s_l key (withMask a v mask rnd) :=
  { n_lt := h.n_lt, n_u16 := h.n_u16, nodup := h.nodup, members := h.members, holds := h.holds
    aux := h.aux, dk_valid := h.dk_valid
    sample := fun k hk => by
      have hs := h.sample k hk
      refine ⟨hs.ra_unit, hs.alpha_nonneg, hs.in_range, hs.gammaR_unit, hs.wR_unit, ?_,
        hs.wBeta_nonneg, ?_, hs.w_no_wrap⟩
      · intro j hj hne
        simp only [withMask]
        split_ifs
        · exact h0
        · exact hs.gammaBeta_nonneg j hj hne
      · intro j hj hne
        simp only [withMask]
        split_ifs with e
        · obtain ⟨rfl, rfl⟩ := e
          exact h1
        · exact hs.gamma_no_wrap j hj hne
    k_sum := h.k_sum
    gamma_sum := h.gamma_sum }

/-- The response that `v` rejects stops the offline stage. -/
theorem offline_masked_err (h : HonestSigners n Y x dk sts s_l key rnd) {a v : ℕ} {mask : ℤ}
    (ha : a < s_l.length) (hv : v < s_l.length) (hav : a ≠ v) (h0 : 0 ≤ mask)
    (h1 : mask < (dk (s_l.getD v 0)).n) (hq : (q : ℤ) ^ 2 ≤ (dk (s_l.getD v 0)).n)
    (hqn : ¬ q ∣ (dk (s_l.getD v 0)).n)
    (hw : ((dk (s_l.getD v 0)).n : ℤ) ≤ (rnd v).k.val * (rnd a).gamma.val + mask) :
    offline s_l key (withMask a v mask rnd) = .err (.Round3 ⟨errorString .InvalidKey, []⟩) := by
  obtain ⟨mA, hmA0⟩ := exists_mA h
  have hmA : IsMA dk sts s_l (withMask a v mask rnd) mA := hmA0
  have hK := keyed h
  have hra : ∀ k < s_l.length, Int.gcd (withMask a v mask rnd k).ra (oN dk s_l k) = 1 :=
    fun k hk => (h.sample k hk).ra_unit
  have hans : ∀ {j k}, j < s_l.length → k < s_l.length → k ≠ j → ¬ (j = a ∧ k = v) →
      Answers x dk s_l (withMask a v mask rnd) j k := by
    intro j k hj hk hne hn
    have hs := answers h hj hk hne
    refine ⟨hs.gammaR_unit, hs.wR_unit, ?_, hs.wBeta_nonneg, ?_, hs.w_no_wrap⟩
    · simp only [withMask, if_neg hn]; exact hs.gammaBeta_nonneg
    · simp only [withMask, if_neg hn]; exact hs.gamma_no_wrap
  unfold offline
  simp only
  rw [Res.mapM_ok_of_forall (g := fun k => (st1 x s_l key (withMask a v mask rnd) mA k,
      [⟨k + 1, none, (mA k, oCom (withMask a v mask rnd) k)⟩]))
    (fun k hk => round0_keyed hmA hK (by simpa using hk)), Res.bind_ok]
  rw [Res.mapM_ok_of_forall (g := fun k => (st2 x s_l key (withMask a v mask rnd) mA k,
      (others s_l.length k).map (fun j =>
        ⟨k + 1, some (j + 1), (oBg dk s_l (withMask a v mask rnd) mA k j,
          oBw x dk s_l (withMask a v mask rnd) mA k j)⟩)))
    (fun k hk => by
      have hk : k < s_l.length := by simpa using hk
      rw [Keygen.get_map_range hk, Res.bind_ok, List.map_map]
      refine Eq.trans ?_ (round1_keyed hmA hK hk)
      exact congrArg (fun l => (st1 x s_l key (withMask a v mask rnd) mA k).proceed l _)
        (inbox_broadcast s_l.length k (fun j => (mA j, oCom (withMask a v mask rnd) j)))), Res.bind_ok]
  have hin : ∀ k < s_l.length, inbox ((List.range s_l.length).map (Prod.snd ∘ fun k =>
      (st2 x s_l key (withMask a v mask rnd) mA k, (others s_l.length k).map (fun j =>
        (⟨k + 1, some (j + 1), (oBg dk s_l (withMask a v mask rnd) mA k j,
          oBw x dk s_l (withMask a v mask rnd) mA k j)⟩ : Msg (MessageB × MessageB)))))) (k + 1) =
      (others s_l.length k).map (fun j => (oBg dk s_l (withMask a v mask rnd) mA j k,
        oBw x dk s_l (withMask a v mask rnd) mA j k)) := fun k hk =>
    inbox_p2p hk (fun j i => (oBg dk s_l (withMask a v mask rnd) mA j i,
      oBw x dk s_l (withMask a v mask rnd) mA j i))
  have hbad : ∀ j < s_l.length - 1, otherInd v j = a →
      (st2 x s_l key (withMask a v mask rnd) mA v).shares
        ((List.range s_l.length).map (fun k => signShare x s_l k • G))
        ((others s_l.length v).map (fun j => (oBg dk s_l (withMask a v mask rnd) mA j v,
          oBw x dk s_l (withMask a v mask rnd) mA j v))) j =
        .err (.Round3 ⟨errorString .InvalidKey, []⟩) := by
    intro j hj hja
    obtain ⟨-, hc, hl, hver⟩ := hmA v hv
    have hmask : (withMask a v mask rnd a).gammaBeta v = mask := by simp [withMask]
    have hb := (MessageB.b_ok_iff (b := (rnd a).gamma) (r := (rnd a).gammaR v)
      (beta_tag := mask) (t_b := (rnd a).gammaT1 v) (t_beta := (rnd a).gammaT2 v)
      (N := oN dk s_l v)).2 ⟨hl, hver, rfl⟩
    have hval := h.dk_valid _ (h.members _ (getD_mem hv)).1 (h.members _ (getD_mem hv)).2
    have hmv := mta_verify_honest hval (hra v hv) (answers h ha hv hav.symm).gammaR_unit hb
      (by rw [hc]; exact Paillier.isEnc_encrypt _ _ _)
    have hno := (C26_accepts_iff hval (hra v hv) (answers h ha hv hav.symm).gammaR_unit hq hqn h0 h1 hc
      hb).not.2 (not_lt.2 hw)
    dsimp only at hmv
    rw [hmv] at hno
    rw [if_neg (fun e => hno ⟨_, _, if_pos e⟩)] at hmv
    unfold Round2.shares
    simp only [st2, Nat.add_sub_cancel, oSK]
    rw [show (others s_l.length v) = (List.range s_l.length).filter (fun j => decide (j ≠ v)) from rfl,
      get_others hv hj, Res.bind_ok, (h.holds v hv).dk_own, hja]
    simp only [oBg, hmask]
    erw [hmv]
    rfl
  have hvic : (st2 x s_l key (withMask a v mask rnd) mA v).proceed
      ((others s_l.length v).map (fun j => (oBg dk s_l (withMask a v mask rnd) mA j v,
        oBw x dk s_l (withMask a v mask rnd) mA j v))) (withMask a v mask rnd v) =
      .err (.Round3 ⟨errorString .InvalidKey, []⟩) := by
    unfold Round2.proceed
    have e1 : (st2 x s_l key (withMask a v mask rnd) mA v).local_key.pk_vec =
      (List.range n).map (fun j => x (j + 1) • G) := (h.holds v hv).pks
    have e2 : (st2 x s_l key (withMask a v mask rnd) mA v).s_l = s_l := rfl
    rw [e1, e2, g_w_vec_eq h.members h.nodup h.n_lt h.n_u16, Res.bind_ok,
      Res.mapM_err (e := .Round3 ⟨errorString .InvalidKey, []⟩)]
    · rfl
    · intro j hj
      have hj : j < s_l.length - 1 := by simpa using hj
      by_cases hja : otherInd v j = a
      · right
        exact hbad j hj hja
      · left
        exact ⟨_, shares_keyed hmA hK hv (hra v hv) hj
          (hans (otherInd_lt hj) hv (fun e => otherInd_ne e.symm) (fun e => hja e.1))⟩
    · have hmem : a ∈ (List.range (s_l.length - 1)).map (otherInd v) := by
        rw [range_map_otherInd hv]; simpa using ⟨ha, hav⟩
      obtain ⟨j, hj, hja⟩ := List.mem_map.1 hmem
      exact ⟨j, hj, hbad j (by simpa using hj) hja⟩
  rw [Res.mapM_err (e := .Round3 ⟨errorString .InvalidKey, []⟩)]
  · rfl
  · intro k hk
    have hk : k < s_l.length := by simpa using hk
    rw [Keygen.get_map_range hk, Res.bind_ok, List.map_map, hin k hk]
    by_cases hkv : k = v
    · subst hkv; right; exact hvic
    · left
      exact ⟨_, round2_keyed hmA hK hk (hra k hk)
        (fun j hj hne => hans hj hk hne (fun e => hkv e.2))⟩
  · refine ⟨v, by simpa using hv, ?_⟩
    rw [Keygen.get_map_range hv, Res.bind_ok, List.map_map, hin v hv]
    exact hvic

/-- **C111 fails** (a whole signing): the signer at position `a` follows the protocol except for the mask
`N - B γ` in its response to the signer at position `v`, for a bound `B` of its choice.  Then the offline
stage completes exactly if the nonce share of `v` is below `B`.  If it completes, signing goes on to a
valid signature, as if nothing had happened; otherwise `v` stops with an error that names nobody.  So
every signing tells the responder one bit of its choice about the position of `v`'s nonce share. -/
theorem C111_nonce_oracle (h : HonestSigners n (d • G) x dk sts s_l key rnd) (hx : Reconstructs t n x d)
    (hlen : t + 1 ≤ s_l.length) {a v : ℕ} (ha : a < s_l.length) (hv : v < s_l.length) (hav : a ≠ v)
    (hg : (rnd a).gamma ≠ 0) {N : ℕ} (hN : N = (dk (s_l.getD v 0)).n) (hq : (q : ℤ) ^ 2 ≤ N)
    (hqn : ¬ q ∣ N) {B : ℕ} (hB : 1 ≤ B) (hBq : B ≤ q) :
    ((∃ cs, offline s_l key (withMask a v (N - B * (rnd a).gamma.val) rnd) = .ok cs) ↔
      (rnd v).k.val < B) ∧
    (B ≤ (rnd v).k.val → offline s_l key (withMask a v (N - B * (rnd a).gamma.val) rnd) =
      .err (.Round3 ⟨errorString .InvalidKey, []⟩)) ∧
    ((rnd v).k.val < B → ∃ cs,
      offline s_l key (withMask a v (N - B * (rnd a).gamma.val) rnd) = .ok cs ∧
      ∀ message : ℤ,
        (∀ xr y, coords ((∑ j ∈ Finset.range s_l.length, (rnd j).k)⁻¹ • (G : Pt)) = some (xr, y) →
          (message : Sc) + (xr : Sc) * d ≠ 0) →
        ∃ sig, online message cs = .ok (List.replicate s_l.length sig) ∧
          EcdsaEq (d • G) message sig.r sig.s ∧ LowS sig.s) := by
  subst hN
  have hm := probe_mask_range hg hB hBq hq
  have hbad : B ≤ (rnd v).k.val →
      offline s_l key (withMask a v ((dk (s_l.getD v 0)).n - B * (rnd a).gamma.val) rnd) =
        .err (.Round3 ⟨errorString .InvalidKey, []⟩) := fun hk =>
    offline_masked_err h ha hv hav hm.1 hm.2 hq hqn
      (not_lt.1 ((probe_iff hg).not.2 (not_lt.2 hk)))
  have hgood : (rnd v).k.val < B → ∃ cs,
      offline s_l key (withMask a v ((dk (s_l.getD v 0)).n - B * (rnd a).gamma.val) rnd) = .ok cs ∧
      ∀ message : ℤ,
        (∀ xr y, coords ((∑ j ∈ Finset.range s_l.length, (rnd j).k)⁻¹ • (G : Pt)) = some (xr, y) →
          (message : Sc) + (xr : Sc) * d ≠ 0) →
        ∃ sig, online message cs = .ok (List.replicate s_l.length sig) ∧
          EcdsaEq (d • G) message sig.r sig.s ∧ LowS sig.s := by
    intro hk
    obtain ⟨cs, h1, -, -, h2⟩ := C39_honest_signing
      (HonestSigners.masked h (a := a) (v := v) hm.1 ((probe_iff hg).2 hk)) hx hlen
    exact ⟨cs, h1, h2⟩
  refine ⟨⟨fun ⟨cs, hcs⟩ => ?_, fun hk => ?_⟩, hbad, hgood⟩
  · by_contra hk
    rw [hbad (not_lt.1 hk)] at hcs
    cases hcs
  · obtain ⟨cs, h1, -⟩ := hgood hk
    exact ⟨cs, h1⟩

end

/-! ### Examples: the 31-point group -/

section
attribute [local instance] Toy.crypto

/-- Party 3 finds out whether the nonce share of party 1 is below 16. -/
example := C111_nonce_oracle toyHonest (t := 1)
  (by simpa using toyX_poly.reconstructs (by decide)) (by decide) (a := 0) (v := 1) (by decide) (by decide)
  (by decide) (by decide) (N := 2021) rfl (by decide) (by decide) (B := 16) (by decide) (by decide)

/-- Both outcomes occur: its nonce share is 4. -/
example : ∃ B₁ B₂ : ℕ,
    (∃ cs, offline [3, 1] (fun k => toyLocal ([3, 1].getD k 0))
      (withMask 0 1 (2021 - B₁ * (toySign 0).gamma.val) toySign) = .ok cs) ∧
    offline [3, 1] (fun k => toyLocal ([3, 1].getD k 0))
      (withMask 0 1 (2021 - B₂ * (toySign 0).gamma.val) toySign) =
        .err (.Round3 ⟨errorString .InvalidKey, []⟩) := by
  have h := fun (B : ℕ) => C111_nonce_oracle toyHonest (t := 1)
    (by simpa using toyX_poly.reconstructs (by decide)) (by decide) (a := 0) (v := 1) (by decide)
    (by decide) (by decide) (by decide) (N := 2021) rfl (by decide) (by decide) (B := B)
  exact ⟨31, 1, ((h 31) (by decide) (by decide)).1.2 (by decide),
    ((h 1) (by decide) (by decide)).2.1 (by decide)⟩

/-- Alice's secret is 9; Bob's is 20, and he asks whether hers is below 9. -/
example {c : ℤ} (hc : c = Paillier.encrypt toyKey.n ((9 : ZMod 31).val : ℕ) 5) :=
  C111_probe toyKey_valid (a := (9 : ZMod 31)) (b := (20 : ZMod 31)) (by decide) (B := 9)
    (by decide) (by decide) (m_a := ⟨c, []⟩) (ra := 5) (r := 7) (sts := [])
    (t_b := (3 : ZMod 31)) (t_beta := (4 : ZMod 31)) (by decide) (by decide) (by decide) (by decide) hc
    (MessageB.b_ok_iff.2 ⟨rfl, by simp, rfl⟩)

example {c : ℤ} (hc : c = Paillier.encrypt toyKey.n ((9 : ZMod 31).val : ℕ) 5) :=
  C111_probe_gg18 toyKey_valid (a := (9 : ZMod 31)) (b := (20 : ZMod 31)) (by decide) (B := 9)
    (by decide) (by decide) (m_a := ⟨c, []⟩) (ra := 5) (r := 7) (sts := [])
    (t_b := (3 : ZMod 31)) (t_beta := (4 : ZMod 31)) (by decide) (by decide) (by decide) (by decide) hc
    (MessageB.b_ok_iff.2 ⟨rfl, by simp, rfl⟩)

example {c : ℤ} (hc : c = Paillier.encrypt toyKey.n ((9 : ZMod 31).val : ℕ) 5) :=
  C111_small_mask_partial toyKey_valid (a := (9 : ZMod 31)) (b := (20 : ZMod 31)) (m_a := ⟨c, []⟩)
    (ra := 5) (r := 7) (beta_tag := 1000) (sts := [])
    (t_b := (3 : ZMod 31)) (t_beta := (4 : ZMod 31)) (by decide) (by decide) (by decide) (by decide) hc
    (MessageB.b_ok_iff.2 ⟨rfl, by simp, rfl⟩)

end
end Verif.Props
