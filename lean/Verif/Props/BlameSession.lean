import Verif.Props.BlameExact
import Verif.Props.Sign
import Verif.Model.GG20.BlameRun
import Verif.Lemmas.SignRounds

/-!
# Blame after a session of honest signers some of which publish wrong values: property C134
-/

namespace Verif.Props

open EC Crypto GG20 Sign Spec Res BlameRun

section

variable [Crypto] {n : ℕ} {Y : Pt} {x : ℕ → Sc} {dk : ℕ → DecKey} {sts : List DLogStatement}
  {s_l : List ℕ} {key : ℕ → LocalKey} {rnd : ℕ → SignRandomness}

theorem firstMessages_ok {ε : Type} (h : HonestSigners n Y x dk sts s_l key rnd) :
    ∃ mA, IsMA dk sts s_l rnd mA ∧
      (firstMessages s_l.length (oN dk s_l) sts rnd : Res ε _) = .ok ((List.range s_l.length).map mA) := by
  obtain ⟨mA, hmA⟩ := exists_mA h
  refine ⟨mA, hmA, mapM_range_ok (by simp) fun i hi b hb => ?_⟩
  rw [List.getElem?_map, List.getElem?_range hi] at hb
  cases hb
  exact Res.ofOption_eq_ok.2 (hmA i hi).1

theorem answerRows_ok {ε : Type} {mA : ℕ → MessageA} (hmA : IsMA dk sts s_l rnd mA) (b : ℕ → Sc)
    (r tag : ℕ → ℕ → ℤ) (t1 t2 : ℕ → ℕ → Sc) :
    (answerRows s_l.length (oN dk s_l) sts ((List.range s_l.length).map mA) b r tag t1 t2 : Res ε _) =
      .ok ((List.range s_l.length).map (fun i => (others s_l.length i).map (fun a =>
        (⟨Paillier.add (oN dk s_l i) (Paillier.mul (oN dk s_l i) (mA i).c (b a).val)
            (Paillier.encrypt (oN dk s_l i) (tag a i) (r a i)),
          DLogProof.prove (b a) (t1 a i), DLogProof.prove ((tag a i : ℤ) : Sc) (t2 a i)⟩ : MessageB)))) := by
  refine mapM_range_ok (by simp) fun i hi row hrow => ?_
  rw [List.getElem?_map, List.getElem?_range hi] at hrow
  cases hrow
  refine mapM_others hi _ fun j hj => ?_
  obtain ⟨-, -, hl, hv⟩ := hmA i hi
  have hb := (MessageB.b_ok_iff (b := b (otherInd i j)) (r := r (otherInd i j) i)
    (beta_tag := tag (otherInd i j) i) (t_b := t1 (otherInd i j) i)
    (t_beta := t2 (otherInd i j) i) (N := oN dk s_l i)).2 ⟨hl, hv, rfl⟩
  rw [Keygen.get_map_range hi, Res.bind_ok, hb]
  rfl

omit [Crypto] in
theorem others_at {β : Type} {m i a : ℕ} (f : ℕ → β) (ha : a < m) (hi : i < m) (hne : a ≠ i) :
    ((others m i).map f)[peerPos i a]? = some (f a) := by
  rw [show others m i = (List.range m).filter (fun j => decide (j ≠ i)) from rfl, ← range_map_otherInd hi,
    List.map_map, List.getElem?_map, List.getElem?_range (peerPos_lt ha hi hne)]
  simp [otherInd_peerPos hne]

omit [Crypto] in
theorem map_otherInd {β : Type} {m i : ℕ} (f : ℕ → β) (hi : i < m) :
    (List.range (m - 1)).map (fun j => f (otherInd i j)) = (others m i).map f := by
  rw [show others m i = (List.range m).filter (fun j => decide (j ≠ i)) from rfl, ← range_map_otherInd hi,
    List.map_map]
  rfl

omit [Crypto] in
theorem others_length {m i : ℕ} (hi : i < m) : (others m i).length = m - 1 := by
  rw [show others m i = (List.range m).filter (fun j => decide (j ≠ i)) from rfl, ← range_map_otherInd hi]
  simp

omit [Crypto] in
theorem map_range_at {β : Type} {m i : ℕ} (f : ℕ → β) (hi : i < m) :
    ((List.range m).map f)[i]? = some (f i) := by
  rw [List.getElem?_map, List.getElem?_range hi]; rfl

/-- The states that the signers of a session open for the nonce phase are true ones. -/
theorem session_nonce (h : HonestSigners n Y x dk sts s_l key rnd) {mA : ℕ → MessageA}
    (hmA : IsMA dk sts s_l rnd mA) :
    TrueNonce ((List.range s_l.length).map (oN dk s_l))
      ((List.range s_l.length).map (rightDelta s_l.length rnd))
      ((List.range s_l.length).map (fun k => (rnd k).gamma • G)) ((List.range s_l.length).map mA)
      ((List.range s_l.length).map (fun i => (others s_l.length i).map (fun a => oBg dk s_l rnd mA a i)))
      ((List.range s_l.length).map (openNonce s_l.length (oN dk s_l) rnd)) where
  count := by simp
  each := by
    intro k L hL
    have hk : k < s_l.length := by
      have := (List.getElem?_eq_some_iff.1 hL).1
      simpa using this
    rw [map_range_at _ hk] at hL
    cases hL
    simp only [List.length_map, List.length_range]
    refine ⟨dk (s_l.getD k 0), ?_⟩
    exact
      { ek := map_range_at _ hk
        gamma := map_range_at _ hk
        first := ⟨mA k, sts, (rnd k).alice, map_range_at _ hk, (hmA k hk).1⟩
        answers := by
          intro i hi hne
          obtain ⟨-, -, hl, hv⟩ := hmA i hi
          refine ⟨oN dk s_l i, mA i, _, oBg dk s_l rnd mA k i, (rnd k).gammaBeta i, (rnd k).gammaR i, sts,
            (rnd k).gammaT1 i, (rnd k).gammaT2 i, oBeta rnd k i, map_range_at _ hi, map_range_at _ hi,
            map_range_at _ hi, others_at _ hk hi hne.symm, ?_, ?_,
            MessageB.b_ok_iff.2 ⟨hl, hv, rfl⟩⟩
          · simp only [openNonce]
            rw [map_otherInd _ hk, others_at _ hi hk hne]
          · simp only [openNonce]
            rw [map_otherInd _ hk, others_at _ hi hk hne]
        tags := by simp [openNonce]
        delta := by
          refine ⟨_, (others s_l.length k).map (oAlpha rnd k), map_range_at _ hk, by
            rw [List.length_map, others_length hk], ?_, ?_⟩
          · rw [List.forall₂_map_left_iff, List.forall₂_map_right_iff, List.forall₂_same]
            intro j hj
            obtain ⟨hj1, hj2⟩ := mem_others.1 hj
            have ha := answers h hj1 hk hj2.symm
            exact ⟨_, alpha_eq hmA (keyed h) hk (h.sample k hk).ra_unit ha.gammaR_unit ha.gammaBeta_nonneg
              ha.gamma_no_wrap⟩
          · rw [map_range_at _ hk]
            simp only [openNonce]
            rw [map_otherInd _ hk, List.map_map, add_assoc, ← List.sum_map_add]
            unfold rightDelta oAlpha others
            congr 3
            refine List.map_congr_left fun j _ => ?_
            simp only [Function.comp]
            ring
        phase4 := by
          intro j hj hne
          exact ⟨_, _, map_range_at _ hk, others_at _ hj hk hne, map_range_at _ hj⟩ }

/-- The right values are shares of the products that the protocol is after: the deltas add up to the product
of the sums of all `k` and all `gamma`, the `sigma` to that of all `k` and all key shares. -/
theorem C134_right_sums (m : ℕ) (rnd : ℕ → SignRandomness) (w : ℕ → Sc) :
    ∑ i ∈ Finset.range m, rightDelta m rnd i =
      (∑ i ∈ Finset.range m, (rnd i).k) * ∑ i ∈ Finset.range m, (rnd i).gamma ∧
    ∑ i ∈ Finset.range m, rightSigma m rnd w i =
      (∑ i ∈ Finset.range m, (rnd i).k) * ∑ i ∈ Finset.range m, w i := by
  refine ⟨?_, ?_⟩
  · rw [← sum_cross m (fun k => (rnd k).k) (fun k => (rnd k).gamma)
      (fun j k => (((rnd j).gammaBeta k : ℤ) : Sc))]
    refine Finset.sum_congr rfl fun i _ => ?_
    unfold rightDelta
    simp only [sub_eq_add_neg, zero_add]
    rfl
  · rw [← sum_cross m (fun k => (rnd k).k) w (fun j k => (((rnd j).wBeta k : ℤ) : Sc))]
    refine Finset.sum_congr rfl fun i _ => ?_
    unfold rightSigma
    simp only [sub_eq_add_neg, zero_add]
    rfl

/-- **C134, for whole sessions, nonce phase.**  Signers that hold the key and draw usable values exchange
their messages, publish the deltas `deltas`, whatever they are, and then open what they did.  The blame
procedure names exactly those whose delta is not the one that follows from the session. -/
theorem C134_session_nonce {ε : Type} (h : HonestSigners n Y x dk sts s_l key rnd) {deltas : List Sc}
    (hlen : deltas.length = s_l.length) :
    let m := s_l.length
    let N := fun k => (dk (s_l.getD k 0)).n
    ∃ mas mbs g, (firstMessages m N sts rnd : Res ε _) = .ok mas ∧
      (gammaRows m N sts rnd mas : Res ε _) = .ok mbs ∧
      (GlobalStatePhase5.local_state_to_global_state ((List.range m).map N) deltas
        ((List.range m).map (fun k => (rnd k).gamma • G)) mas mbs
        ((List.range m).map (openNonce m N rnd)) : Res ε GlobalStatePhase5) = .ok g ∧
      g.phase5_blame = .err ⟨"phase6_blame",
        (List.range m).filter (fun i => deltas[i]? ≠ some (rightDelta m rnd i))⟩ := by
  intro m N
  obtain ⟨mA, hmA, h1⟩ := firstMessages_ok (ε := ε) h
  obtain ⟨g, hg, he⟩ := C134_nonce_exact (ε := ε) (deltas := deltas) (session_nonce h hmA) (by simpa using hlen)
  refine ⟨_, _, g, h1, answerRows_ok hmA _ _ _ _ _, hg, he.trans ?_⟩
  simp only [List.length_map, List.length_range]
  congr 2
  refine List.filter_congr fun i hi => ?_
  rw [map_range_at _ (List.mem_range.1 hi)]

theorem answer_canonical (h : HonestSigners n Y x dk sts s_l key rnd) {mA : ℕ → MessageA}
    (hmA : IsMA dk sts s_l rnd mA) {k j : ℕ} (hk : k < s_l.length) (hj : j < s_l.length) (hne : k ≠ j) :
    let c := (oBw x dk s_l rnd mA j k).c
    (0 ≤ c ∧ c < (oN dk s_l k : ℤ) * oN dk s_l k ∧ Int.gcd c (oN dk s_l k) = 1) ∧
      (∃ r, (extract_paillier_randomness c (dk (s_l.getD k 0)) : Res Error ℤ) = .ok r) := by
  intro c
  have ha := answers h hj hk hne
  have hpos := oN_pos h hk
  have hnn : (0 : ℤ) < (oN dk s_l k : ℤ) * oN dk s_l k := by positivity
  have hra := (h.sample k hk).ra_unit
  have hc : (mA k).c = _ := (hmA k hk).2.1
  have h1 : Paillier.IsEnc (oN dk s_l k) (mA k).c (rnd k).k.val (rnd k).ra := by
    rw [hc]; exact Paillier.isEnc_encrypt _ _ _
  have h2 : Paillier.IsEnc (oN dk s_l k) c _ _ :=
    (h1.mul (signShare x s_l j).val).add (Paillier.isEnc_encrypt _ ((rnd j).wBeta k) ((rnd j).wR k))
  have hu : Int.gcd ((rnd k).ra ^ (signShare x s_l j).val * (rnd j).wR k) (oN dk s_l k) = 1 := by
    rw [← Int.isCoprime_iff_gcd_eq_one] at *
    exact IsCoprime.mul_left (IsCoprime.pow_left hra) (Int.isCoprime_iff_gcd_eq_one.2 ha.wR_unit)
  have he := Paillier.encrypt_range (r := (rnd j).wR k) hpos ha.wBeta_nonneg
  have hr : c = (Paillier.mul (oN dk s_l k) (mA k).c (signShare x s_l j).val *
      Paillier.encrypt (oN dk s_l k) ((rnd j).wBeta k) ((rnd j).wR k)) % (oN dk s_l k * oN dk s_l k : ℤ) := by
    show Paillier.add _ _ _ = _
    unfold Paillier.add
    exact rem_of_nonneg (mul_nonneg (Int.emod_nonneg _ hnn.ne') he.1)
  refine ⟨⟨?_, ?_, h2.coprime hu⟩, ?_⟩
  · rw [hr]; exact Int.emod_nonneg _ hnn.ne'
  · rw [hr]; exact Int.emod_lt_of_pos _ hnn
  · unfold extract_paillier_randomness
    rw [Paillier.open_spec (valid_at h hk) h2 hu]
    exact ⟨_, rfl⟩

/-- What a signer of a session opens for the key phase. -/
theorem openKey_ok (h : HonestSigners n Y x dk sts s_l key rnd) {mA : ℕ → MessageA}
    (hmA : IsMA dk sts s_l rnd mA) {k : ℕ} (hk : k < s_l.length) (R : Pt) (sigma nonce : Sc) :
    ∃ rs, List.Forall₂ (fun (mb : MessageB) r =>
        (extract_paillier_randomness mb.c (dk (s_l.getD k 0)) : Res Error ℤ) = .ok r)
        ((others s_l.length k).map (fun a => oBw x dk s_l rnd mA a k)) rs ∧
      openKey (dk (s_l.getD k 0)) (rnd k).k (rnd k).ra
        ((others s_l.length k).map (fun a => oBw x dk s_l rnd mA a k)) R sigma nonce =
      .ok { k := (rnd k).k, k_randomness := (rnd k).ra
            miu := (others s_l.length k).map (fun a =>
              ((rnd k).k.val * (signShare x s_l a).val + (rnd a).wBeta k : ℤ))
            miu_randomness := rs, proof_of_eq_dlog := ecddh_proof sigma R (sigma • R) nonce } := by
  obtain ⟨rs, hrs⟩ := mapM_total (f := fun mb : MessageB =>
      (extract_paillier_randomness mb.c (dk (s_l.getD k 0)) : Res Error ℤ))
    (l := (others s_l.length k).map (fun a => oBw x dk s_l rnd mA a k)) (by
      intro mb hmb
      obtain ⟨a, ha, rfl⟩ := List.mem_map.1 hmb
      obtain ⟨h1, h2⟩ := mem_others.1 ha
      exact (answer_canonical h hmA hk h1 h2.symm).2)
  refine ⟨rs, Res.mapM_eq_ok.1 hrs, ?_⟩
  have hm : Res.mapM (fun mb : MessageB => do
      let (_, y) ← MessageB.verify_proofs_get_alpha mb (dk (s_l.getD k 0)) (rnd k).k
      .ok y) ((others s_l.length k).map (fun a => oBw x dk s_l rnd mA a k)) =
      .ok ((others s_l.length k).map (fun a =>
        ((rnd k).k.val * (signShare x s_l a).val + (rnd a).wBeta k : ℤ))) := by
    rw [Res.mapM_eq_ok, List.forall₂_map_left_iff, List.forall₂_map_right_iff, List.forall₂_same]
    intro j hj
    obtain ⟨hj1, hj2⟩ := mem_others.1 hj
    have ha := answers h hj1 hk hj2.symm
    have := alpha_eq hmA (keyed h) hk (h.sample k hk).ra_unit (t1 := (rnd j).wT1 k) (t2 := (rnd j).wT2 k)
      ha.wR_unit ha.wBeta_nonneg ha.w_no_wrap
    simp only [oBw]
    rw [this]
    rfl
  unfold openKey
  rw [hm, Res.bind_ok, hrs]
  rfl

/-- **C134, for whole sessions, key phase.**  Signers that hold the key and draw usable values exchange
their messages; signer `i` goes on with `sg i` as its `sigma`, publishes `sg i` times `R` and then opens what
it did.  Unless a hash value happens to be 0, the blame procedure names exactly the signers whose `sigma` is
not the one that follows from the session. -/
theorem C134_session_key (h : HonestSigners n Y x dk sts s_l key rnd) {R : Pt} (hR : R ≠ 0)
    {sg nonce : ℕ → Sc}
    (hch : ∀ i < s_l.length, rightSigma s_l.length rnd (signShare x s_l) i ≠ sg i →
      blameChallenge (rightSigma s_l.length rnd (signShare x s_l) i • G) R (sg i) (nonce i) ≠ 0) :
    let m := s_l.length
    let N := fun k => (dk (s_l.getD k 0)).n
    ∃ mas mbs ls g, (firstMessages m N sts rnd : Res Error _) = .ok mas ∧
      (shareRows m N sts rnd (signShare x s_l) mas : Res Error _) = .ok mbs ∧
      openKeys m (fun k => dk (s_l.getD k 0)) rnd mbs R sg nonce = .ok ls ∧
      (GlobalStatePhase6.local_state_to_global_state ((List.range m).map N)
        ((List.range m).map (fun k => sg k • R)) ((List.range m).map (fun k => signShare x s_l k • G)) mas mbs
        ls : Res Error GlobalStatePhase6) = .ok g ∧
      g.phase6_blame R = .err ⟨"phase6_blame",
        (List.range m).filter (fun i => sg i ≠ rightSigma m rnd (signShare x s_l) i)⟩ := by
  intro m N
  obtain ⟨mA, hmA, h1⟩ := firstMessages_ok (ε := Error) h
  have hrow : ∀ k < m, ((List.range m).map (fun i => (others m i).map (fun a =>
      oBw x dk s_l rnd mA a i)))[k]? = some _ := fun k hk => map_range_at _ hk
  obtain ⟨ls, hls⟩ := mapM_total (l := List.range m) (f := fun i => do
      let row ← Res.get ((List.range m).map (fun i => (others m i).map (fun a =>
        oBw x dk s_l rnd mA a i))) i
      openKey (dk (s_l.getD i 0)) (rnd i).k (rnd i).ra row R (sg i) (nonce i)) (by
    intro k hk
    rw [List.mem_range] at hk
    obtain ⟨rs, -, ho⟩ := openKey_ok h hmA hk R (sg k) (nonce k)
    rw [Keygen.get_map_range hk, Res.bind_ok]
    exact ⟨_, ho⟩)
  have hfa := Res.mapM_eq_ok.1 hls
  have hlen : ls.length = m := by rw [← hfa.length_eq, List.length_range]
  have hat : ∀ k < m, ∃ rs, List.Forall₂ (fun (mb : MessageB) r =>
        (extract_paillier_randomness mb.c (dk (s_l.getD k 0)) : Res Error ℤ) = .ok r)
        ((others m k).map (fun a => oBw x dk s_l rnd mA a k)) rs ∧
      ls[k]? = some { k := (rnd k).k, k_randomness := (rnd k).ra
                      miu := (others m k).map (fun a =>
                        ((rnd k).k.val * (signShare x s_l a).val + (rnd a).wBeta k : ℤ))
                      miu_randomness := rs
                      proof_of_eq_dlog := ecddh_proof (sg k) R (sg k • R) (nonce k) } := by
    intro k hk
    obtain ⟨rs, hrs, ho⟩ := openKey_ok h hmA hk R (sg k) (nonce k)
    refine ⟨rs, hrs, ?_⟩
    have := (List.forall₂_iff_get.1 hfa).2 k (by simpa using hk) (hlen ▸ hk)
    simp only [List.get_eq_getElem, List.getElem_range] at this
    rw [Keygen.get_map_range hk, Res.bind_ok, ho] at this
    rw [List.getElem?_eq_getElem (hlen ▸ hk), ← Res.ok.inj this]
  have T : TrueKey ((List.range m).map N)
      ((List.range m).map (fun k => rightSigma m rnd (signShare x s_l) k • R))
      ((List.range m).map (fun k => signShare x s_l k • G)) ((List.range m).map mA)
      ((List.range m).map (fun i => (others m i).map (fun a => oBw x dk s_l rnd mA a i))) R ls := by
    refine ⟨fun k L hL => ?_⟩
    have hk : k < m := hlen ▸ (List.getElem?_eq_some_iff.1 hL).1
    obtain ⟨rs, hrs, he⟩ := hat k hk
    rw [hL] at he
    cases he
    rw [hlen]
    refine ⟨dk (s_l.getD k 0), signShare x s_l k, (others m k).map (rnd k).wBeta,
      ecddh_proof (rightSigma m rnd (signShare x s_l) k) R (rightSigma m rnd (signShare x s_l) k • R) 0,
      ?_, ?_⟩
    · exact
        { ek := map_range_at _ hk
          valid := valid_at h hk
          share := map_range_at _ hk
          first := ⟨mA k, sts, (rnd k).alice, map_range_at _ hk, (hmA k hk).1⟩
          answers := by
            intro i hi hne
            obtain ⟨-, -, hl, hv⟩ := hmA i hi
            exact ⟨oN dk s_l i, mA i, _, oBw x dk s_l rnd mA k i, (rnd k).wBeta i, (rnd k).wR i, sts,
              (rnd k).wT1 i, (rnd k).wT2 i, oNi rnd k i, map_range_at _ hi, map_range_at _ hi,
              map_range_at _ hi, others_at _ hk hi hne.symm, others_at _ hi hk hne,
              MessageB.b_ok_iff.2 ⟨hl, hv, rfl⟩⟩
          masks := by rw [List.length_map, others_length hk]
          opens := by
            refine ⟨_, map_range_at _ hk, by rw [List.length_map, others_length hk], ?_, hrs⟩
            rw [List.forall₂_map_left_iff, List.forall₂_map_right_iff, List.forall₂_same]
            intro j hj
            obtain ⟨hj1, hj2⟩ := mem_others.1 hj
            have ha := answers h hj1 hk hj2.symm
            exact ⟨_, alpha_eq hmA (keyed h) hk (h.sample k hk).ra_unit ha.wR_unit ha.wBeta_nonneg
              ha.w_no_wrap⟩
          sigma := by
            refine ⟨0, ?_⟩
            have hs : (rnd k).k * signShare x s_l k + (((others m k).map (fun a =>
                ((rnd k).k.val * (signShare x s_l a).val + (rnd a).wBeta k : ℤ))).map
                  (fun y : ℤ => (y : Sc))).sum +
                (((others m k).map (rnd k).wBeta).map (fun b : ℤ => 0 - (b : Sc))).sum =
                rightSigma m rnd (signShare x s_l) k := by
              rw [List.map_map, List.map_map, add_assoc, ← List.sum_map_add]
              unfold rightSigma others
              congr 3
              funext j
              simp only [Function.comp]
              push_cast
              simp only [ZMod.natCast_val, ZMod.cast_id', id]
              ring
            simp only
            rw [hs]
            exact ⟨map_range_at _ hk, rfl⟩ }
    · intro row hr mb hmb
      rw [map_range_at _ hk] at hr
      cases hr
      obtain ⟨a, ha, rfl⟩ := List.mem_map.1 hmb
      obtain ⟨h1, h2⟩ := mem_others.1 ha
      exact (answer_canonical h hmA hk h1 h2.symm).1
  have hinj : ∀ a b : Sc, a • R = b • R ↔ a = b := fun a b => by
    rw [← sub_eq_zero, ← sub_smul, smul_eq_zero_iff, sub_eq_zero, or_iff_left hR]
  obtain ⟨g, hg, he⟩ := C134_key_exact (ε := Error) (Ss := (List.range m).map (fun k => sg k • R))
    (sg := sg) (nonce := nonce) hR T (by
      intro i hi
      rw [hlen] at hi
      obtain ⟨rs, -, he⟩ := hat i hi
      exact ⟨map_range_at _ hi, _, he, rfl⟩) (by
      intro i hi tau ht hne
      rw [hlen] at hi
      rw [map_range_at _ hi] at ht
      have := (hinj _ _).1 (Option.some.inj ht)
      subst this
      exact hch i hi hne)
  refine ⟨_, _, ls, g, h1, answerRows_ok hmA _ _ _ _ _, hls, hg, he.trans ?_⟩
  rw [hlen]
  congr 2
  refine List.filter_congr fun i hi => ?_
  rw [map_range_at _ (List.mem_range.1 hi), map_range_at _ (List.mem_range.1 hi)]
  simp only [ne_eq, Option.some.injEq, hinj]

/-- **C134, for whole sessions (the nonce check).** It passes exactly when the published deltas have the sum
that follows from the session. -/
theorem C134_session_nonce_check (h : HonestSigners n Y x dk sts s_l key rnd) {deltas : List Sc} {deltaInv : Sc}
    (hd : (phase3_reconstruct_delta deltas : Res Error Sc) = .ok deltaInv) :
    let m := s_l.length
    phase5_check_R_dash_sum ((List.range m).map (fun i => (rnd i).k • (deltaInv •
        ∑ j ∈ Finset.range m, (rnd j).gamma • (G : Pt)))) = .ok () ↔
      deltas.sum = ∑ i ∈ Finset.range m, rightDelta m rnd i := by
  intro m
  obtain ⟨mA, hmA⟩ := exists_mA h
  have := C134_nonce_check (session_nonce h hmA) (by simp) hd
  rw [List.map_map, sum_map_range_eq, sum_map_range_eq] at this
  exact this

/-- **C134, for whole sessions (the key check).** If the nonce point is the right one, the key check passes
exactly when the `sigma` that were used have the sum that follows from the session. -/
theorem C134_session_key_check {t : ℕ} {d : Sc} (h : HonestSigners n (d • G) x dk sts s_l key rnd)
    (hx : Reconstructs t n x d) (hlen : t + 1 ≤ s_l.length) {R : Pt}
    (hR : (∑ i ∈ Finset.range s_l.length, (rnd i).k) • R = G) (sg : ℕ → Sc) :
    let m := s_l.length
    phase6_check_S_i_sum (d • G) ((List.range m).map (fun i => sg i • R)) = .ok () ↔
      ∑ i ∈ Finset.range m, sg i = ∑ i ∈ Finset.range m, rightSigma m rnd (signShare x s_l) i := by
  intro m
  have hR0 : R ≠ 0 := by
    rintro rfl
    rw [smul_zero] at hR
    exact EC.G_ne_zero hR.symm
  rw [checkS_ok, sum_map_range_eq, ← Finset.sum_smul, ← hR, ← mul_smul, (C134_right_sums m rnd _).2,
    signShare_sum h.members h.nodup hx hlen, ← sub_eq_zero, ← sub_smul, smul_eq_zero_iff, or_iff_left hR0,
    sub_eq_zero, mul_comm d]

omit [Crypto] in
theorem range_filter_eq {m c : ℕ} (hc : c < m) : (List.range m).filter (fun i => i = c) = [c] := by
  have h := (List.nodup_range (n := m)).filter (fun i => decide (i = c))
  have h2 : ∀ i, i ∈ (List.range m).filter (fun i => decide (i = c)) ↔ i ∈ [c] := by
    intro i
    simp only [List.mem_filter, List.mem_range, decide_eq_true_eq, List.mem_singleton]
    exact ⟨fun h => h.2, fun h => ⟨h ▸ hc, h⟩⟩
  exact List.perm_singleton.1 ((List.perm_ext_iff_of_nodup h (List.nodup_singleton c)).2 h2)

/-- **C134 (one cheater, nonce phase).** If one signer alone publishes a wrong delta, the nonce check fails
and the blame procedure names that signer and nobody else. -/
theorem C134_one_cheater_nonce {ε : Type} (h : HonestSigners n Y x dk sts s_l key rnd) {deltas : List Sc}
    {deltaInv : Sc} (hd : (phase3_reconstruct_delta deltas : Res Error Sc) = .ok deltaInv)
    (hlen : deltas.length = s_l.length) {c : ℕ} (hc : c < s_l.length)
    (hbad : ∀ i < s_l.length, deltas[i]? = some (rightDelta s_l.length rnd i) ↔ i ≠ c) :
    let m := s_l.length
    let N := fun k => (dk (s_l.getD k 0)).n
    phase5_check_R_dash_sum ((List.range m).map (fun i => (rnd i).k • (deltaInv •
        ∑ j ∈ Finset.range m, (rnd j).gamma • (G : Pt)))) = .err .Phase5BadSum ∧
    ∃ mas mbs g, (firstMessages m N sts rnd : Res ε _) = .ok mas ∧
      (gammaRows m N sts rnd mas : Res ε _) = .ok mbs ∧
      (GlobalStatePhase5.local_state_to_global_state ((List.range m).map N) deltas
        ((List.range m).map (fun k => (rnd k).gamma • G)) mas mbs
        ((List.range m).map (openNonce m N rnd)) : Res ε GlobalStatePhase5) = .ok g ∧
      g.phase5_blame = .err ⟨"phase6_blame", [c]⟩ := by
  intro m N
  have hfilter := range_filter_eq hc
  refine ⟨?_, ?_⟩
  · have hne : ¬ phase5_check_R_dash_sum ((List.range m).map (fun i => (rnd i).k • (deltaInv •
        ∑ j ∈ Finset.range m, (rnd j).gamma • (G : Pt)))) = .ok () := by
      intro he
      replace he := (C134_session_nonce_check h hd).1 he
      have hs : deltas.sum = ∑ i ∈ Finset.range m, deltas.getD i 0 := by
        refine list_sum_range hlen fun i hi => ?_
        rw [List.getD_eq_getElem?_getD, List.getElem?_eq_getElem (by omega)]
        rfl
      rw [hs, ← Finset.add_sum_erase _ _ (Finset.mem_range.2 hc),
        ← Finset.add_sum_erase _ (rightDelta m rnd) (Finset.mem_range.2 hc)] at he
      have hrest : ∑ i ∈ (Finset.range m).erase c, deltas.getD i 0 =
          ∑ i ∈ (Finset.range m).erase c, rightDelta m rnd i := by
        refine Finset.sum_congr rfl fun i hi => ?_
        obtain ⟨h1, h2⟩ := Finset.mem_erase.1 hi
        rw [List.getD_eq_getElem?_getD, (hbad i (Finset.mem_range.1 h2)).2 h1]
        rfl
      rw [hrest] at he
      refine absurd rfl ((hbad c hc).1 ?_)
      have hc' : c < deltas.length := by omega
      have h1 := add_right_cancel he
      rw [List.getD_eq_getElem?_getD, List.getElem?_eq_getElem hc'] at h1
      rw [List.getElem?_eq_getElem hc']
      exact congrArg some h1
    unfold phase5_check_R_dash_sum at hne ⊢
    simp only at hne ⊢
    split
    · rename_i he
      rw [if_pos he] at hne
      exact absurd rfl hne
    · rfl
  · obtain ⟨mas, mbs, g, h1, h2, h3, h4⟩ := C134_session_nonce (ε := ε) h hlen
    refine ⟨mas, mbs, g, h1, h2, h3, h4.trans ?_⟩
    rw [← hfilter]
    congr 2
    refine List.filter_congr fun i hi => ?_
    have := hbad i (List.mem_range.1 hi)
    by_cases hi' : i = c <;> simp_all

/-- **C134 (one cheater, key phase).** If one signer alone goes on with a wrong `sigma`, the key check fails
and, unless a hash value happens to be 0, the blame procedure names that signer and nobody else. -/
theorem C134_one_cheater_key {t : ℕ} {d : Sc} (h : HonestSigners n (d • G) x dk sts s_l key rnd)
    (hx : Reconstructs t n x d) (hlen : t + 1 ≤ s_l.length) {R : Pt}
    (hR : (∑ i ∈ Finset.range s_l.length, (rnd i).k) • R = G) {sg nonce : ℕ → Sc} {c : ℕ}
    (hc : c < s_l.length)
    (hbad : ∀ i < s_l.length, sg i = rightSigma s_l.length rnd (signShare x s_l) i ↔ i ≠ c)
    (hch : blameChallenge (rightSigma s_l.length rnd (signShare x s_l) c • G) R (sg c) (nonce c) ≠ 0) :
    let m := s_l.length
    let N := fun k => (dk (s_l.getD k 0)).n
    phase6_check_S_i_sum (d • G) ((List.range m).map (fun i => sg i • R)) = .err .Phase6Error ∧
    ∃ mas mbs ls g, (firstMessages m N sts rnd : Res Error _) = .ok mas ∧
      (shareRows m N sts rnd (signShare x s_l) mas : Res Error _) = .ok mbs ∧
      openKeys m (fun k => dk (s_l.getD k 0)) rnd mbs R sg nonce = .ok ls ∧
      (GlobalStatePhase6.local_state_to_global_state ((List.range m).map N)
        ((List.range m).map (fun k => sg k • R)) ((List.range m).map (fun k => signShare x s_l k • G)) mas mbs
        ls : Res Error GlobalStatePhase6) = .ok g ∧
      g.phase6_blame R = .err ⟨"phase6_blame", [c]⟩ := by
  intro m N
  have hR0 : R ≠ 0 := by
    rintro rfl
    rw [smul_zero] at hR
    exact EC.G_ne_zero hR.symm
  have hfilter := range_filter_eq hc
  refine ⟨?_, ?_⟩
  · have hne : ¬ phase6_check_S_i_sum (d • G) ((List.range m).map (fun i => sg i • R)) = .ok () := by
      intro he
      replace he := (C134_session_key_check h hx hlen hR sg).1 he
      rw [← Finset.add_sum_erase _ _ (Finset.mem_range.2 hc),
        ← Finset.add_sum_erase _ (rightSigma m rnd (signShare x s_l)) (Finset.mem_range.2 hc)] at he
      have hrest : ∑ i ∈ (Finset.range m).erase c, sg i =
          ∑ i ∈ (Finset.range m).erase c, rightSigma m rnd (signShare x s_l) i := by
        refine Finset.sum_congr rfl fun i hi => ?_
        obtain ⟨h1, h2⟩ := Finset.mem_erase.1 hi
        exact (hbad i (Finset.mem_range.1 h2)).2 h1
      rw [hrest] at he
      exact absurd rfl ((hbad c hc).1 (add_right_cancel he))
    unfold phase6_check_S_i_sum at hne ⊢
    simp only at hne ⊢
    split
    · rename_i he
      rw [if_pos he] at hne
      exact absurd rfl hne
    · rfl
  · obtain ⟨mas, mbs, ls, g, h1, h2, h3, h4, h5⟩ := C134_session_key h hR0 (sg := sg) (nonce := nonce) (by
      intro i hi hne
      have : i = c := by
        by_contra hn
        exact hne ((hbad i hi).2 hn).symm
      subst this
      exact hch)
    refine ⟨mas, mbs, ls, g, h1, h2, h3, h4, h5.trans ?_⟩
    rw [← hfilter]
    congr 2
    refine List.filter_congr fun i hi => ?_
    have := hbad i (List.mem_range.1 hi)
    by_cases hi' : i = c <;> simp_all

end

/-! ### Concrete cases -/

section

attribute [local instance] Toy.crypto

/-- Signers 3 and 1 of a 3-party key; the second one publishes a delta that is too large by 1. -/
example : ∃ g : GlobalStatePhase5, g.phase5_blame = .err ⟨"phase6_blame", [1]⟩ := by
  obtain ⟨-, -, g, -, -, -, he⟩ := C134_session_nonce (ε := Error) toyHonest
    (deltas := [rightDelta 2 toySign 0, rightDelta 2 toySign 1 + (1 : ZMod 31)]) rfl
  exact ⟨g, he.trans (by decide +kernel)⟩

/-- The nonce check of that session fails. -/
example : ∃ g : GlobalStatePhase5, g.phase5_blame = .err ⟨"phase6_blame", [1]⟩ := by
  obtain ⟨-, -, -, g, -, -, -, he⟩ := C134_one_cheater_nonce (ε := Error) toyHonest
    (deltas := [rightDelta 2 toySign 0, rightDelta 2 toySign 1 + (1 : ZMod 31)])
    (deltaInv := (rightDelta 2 toySign 0 + rightDelta 2 toySign 1 + (1 : ZMod 31))⁻¹) (by decide +kernel) rfl
    (c := 1) (by decide) (by decide +kernel)
  exact ⟨g, he⟩

/-- The first one goes on with a wrong `sigma`. -/
example : ∃ g : GlobalStatePhase6, g.phase6_blame (G : Pt) = .err ⟨"phase6_blame", [0]⟩ := by
  obtain ⟨-, -, -, g, -, -, -, -, he⟩ := C134_session_key toyHonest (R := (G : Pt)) (by decide +kernel)
    (sg := fun i => rightSigma 2 toySign (signShare toyX [3, 1]) i + if i = 0 then (1 : ZMod 31) else 0)
    (nonce := fun _ => (7 : ZMod 31)) (by decide +kernel)
  exact ⟨g, he.trans (by decide +kernel)⟩

/-- The key check of that session fails, with the nonce point of the session. -/
example : ∃ g : GlobalStatePhase6,
    g.phase6_blame (((7 : ZMod 31)⁻¹ • G : Pt)) = .err ⟨"phase6_blame", [0]⟩ := by
  obtain ⟨-, -, -, -, g, -, -, -, -, he⟩ := C134_one_cheater_key (t := 1) toyHonest
    (by simpa using toyX_poly.reconstructs (by decide)) (by decide)
    (R := ((7 : ZMod 31)⁻¹ • G : Pt)) (by decide +kernel)
    (sg := fun i => rightSigma 2 toySign (signShare toyX [3, 1]) i + if i = 0 then (1 : ZMod 31) else 0)
    (nonce := fun _ => (7 : ZMod 31)) (c := 0) (by decide) (by decide +kernel) (by decide +kernel)
  exact ⟨g, he⟩

end

end Verif.Props
