import Verif.Lemmas.Culprits
import Verif.Props.KeygenBlame
import Verif.Props.SignSM

/-!
# C113: a session that fails names a culprit
-/

namespace Verif.Props

open EC Crypto GG20 GG20.Sign Spec

section
variable [Crypto]

/-- **C113** (key generation). Whatever the others send, an error of key generation names exactly one
party, which is one of the others. -/
theorem C113_keygen_names_one {t n : ℕ} (ht : t < n) {i : ℕ} (hi1 : 1 ≤ i) (hin : i ≤ n)
    {r : KeygenRandomness} (hr : Keygen.HonestRandomness t r) {c1 : ℕ → KeyGenBroadcastMessage1}
    {c2 : ℕ → KeyGenDecommitMessage1} {c3 : ℕ → Vss × Sc} {c4 : ℕ → DLogProof}
    {e : Keygen.ProceedError} (h : (keygenLine r i t n c1 c2 c3 c4).2 = .err e) :
    ∃ p, accused e = [p] ∧ 1 ≤ p ∧ p ≤ n ∧ p ≠ i := by
  have hni := C112_not_itself ht hi1 hin hr h
  obtain ⟨k, rfl⟩ : ∃ k, i = k + 1 := ⟨i - 1, by omega⟩
  suffices ∃ p, accused e = [p] ∧ 1 ≤ p ∧ p ≤ n by
    obtain ⟨p, hp, h1, h2⟩ := this
    refine ⟨p, hp, h1, h2, ?_⟩
    rintro rfl
    exact hni (by simp [hp])
  rcases Keygen.keygenLine_cases (rnd := r) ht hin c1 c2 c3 c4 with
    ⟨j, hj, -, hl | hl⟩ | ⟨-, j, hj, -, hl | ⟨-, hl⟩⟩ |
      ⟨-, -, ⟨j, hj, -, -, -, hl⟩ | ⟨-, r', hr', hl⟩⟩ <;> rw [hl] at h
  · cases h; exact ⟨j + 1, rfl, by omega, hj⟩
  · cases h
  · cases h; exact ⟨j + 1, rfl, by omega, hj⟩
  · cases h
  · cases h; exact ⟨j + 1, rfl, by omega, hj⟩
  · exact absurd h (hr' e)

/-- Such errors occur: party 1 tells party 2 and party 3 different commitments, and the error of party 2
names party 3. -/
example {t n : ℕ} (ht : t < n) (hn : n < q) (h3 : 3 ≤ n) {rnd : ℕ → KeygenRandomness}
    (hon : ∀ k < n, Keygen.HonestRandomness t (rnd k)) :
    ∃ c1 c2 c3 c4 e, (keygenLine (rnd 1) 2 t n c1 c2 c3 c4).2 = .err e ∧
      ∃ p, accused e = [p] ∧ 1 ≤ p ∧ p ≤ n ∧ p ≠ 2 := by
  obtain ⟨V, hV⟩ := C112_anyone_can_be_framed ht hn (Keygen.all_honest ht hon) (v := 2) (j := 3) (by omega)
    (by omega) (by omega) h3 (by omega)
  have he := congrArg Prod.snd hV
  exact ⟨_, _, _, _, _, he, C113_keygen_names_one ht (by omega) (by omega) (hon 1 (by omega)) he⟩

variable {s_l : List ℕ} {i : ℕ} {r : SignRandomness} {lk : LocalKey} {b : SignerMsgs} {e : SignError}

/-- **C113** (signing, partial). Whatever the others send, an error of the offline stage names somebody
unless it is one of the five errors of `anonymousErrors`, and those it names are signers.

Missing with respect to the property: the five errors, of which at least the first two can be caused by
one signer alone, see `C113_nobody_named` and C111. -/
theorem C113_offline_names_partial (h1 : 1 ≤ i) (h2 : i ≤ s_l.length)
    (h : (offlineLine r i s_l lk b).2 = .err e) :
    (namedSigners e = [] ↔ e ∈ anonymousErrors) ∧ ∀ p ∈ namedSigners e, 1 ≤ p ∧ p ≤ s_l.length := by
  obtain ⟨k, rfl⟩ : ∃ k, i = k + 1 := ⟨i - 1, by omega⟩
  have hanon : e ∈ anonymousErrors → namedSigners e = [] := by
    intro he
    simp only [anonymousErrors, List.mem_cons, List.not_mem_nil, or_false] at he
    rcases he with rfl | rfl | rfl | rfl | rfl <;> rfl
  rcases (offlineLine_err h2 h).1 with ha | ⟨hn, hb⟩
  · exact ⟨⟨fun _ => ha, hanon⟩, by rw [hanon ha]; simp⟩
  · exact ⟨⟨fun h0 => absurd h0 hn, hanon⟩, hb⟩

/-- **C113** (signing, whom it names). The error about the openings of the shares of the nonce's inverse
names one of the other signers, and the three messages received from that one contradict each other. -/
theorem C113_opening_evidence (h1 : 1 ≤ i) (h2 : i ≤ s_l.length)
    {bad : List ℕ} (h : (offlineLine r i s_l lk b).2 = .err (.Round5 ⟨"bad gamma_i decommit", bad⟩)) :
    ∃ p, namedSigners (.Round5 ⟨"bad gamma_i decommit", bad⟩) = [p] ∧ 1 ≤ p ∧ p ≤ s_l.length ∧ p ≠ i ∧
      ¬ ((b.b2 p).1.b_proof.pk = (b.b4 p).g_gamma_i ∧
        hashCom (ser (b.b4 p).g_gamma_i) (b.b4 p).blind_factor = (b.b1 p).2.com) := by
  obtain ⟨k, rfl⟩ : ∃ k, i = k + 1 := ⟨i - 1, by omega⟩
  obtain ⟨j, hj, hjk, rfl, hc⟩ := (offlineLine_err h2 h).2 bad rfl
  exact ⟨j + 1, rfl, by omega, by omega, by omega, hc⟩

end

section
variable [Crypto] {n : ℕ} {x : ℕ → Sc} {Y : Pt} {dk : ℕ → DecKey} {sts : List DLogStatement}
  {s_l : List ℕ} {key : ℕ → LocalKey} {rnd : ℕ → SignRandomness}

/-- **C113 fails** (signing). Signer `a + 1` sends a first message without range proofs, all others run
the program and receive each other's first messages.  Then every one of them stops with the same error,
and the error names nobody. -/
theorem C113_nobody_named (h : HonestSigners n Y x dk sts s_l key rnd) {a : ℕ} (ha : a < s_l.length)
    {b : ℕ → SignerMsgs} (hbad : ∀ v < s_l.length, v ≠ a → ((b v).b1 (a + 1)).1.range_proofs = [])
    (hgood : ∀ v < s_l.length, ∀ p < s_l.length, v ≠ a → p ≠ a → p ≠ v →
      (offlineLine (rnd p) (p + 1) s_l (key p) (b p)).1.head? =
        some ⟨p + 1, none, .M1 ((b v).b1 (p + 1))⟩) :
    ∃ e, namedSigners e = [] ∧ ∀ v < s_l.length, v ≠ a →
      (offlineLine (rnd v) (v + 1) s_l (key v) (b v)).2 = .err e := by
  refine ⟨.Round1 ⟨errorString .InvalidKey, []⟩, rfl, fun v hv hva => ?_⟩
  obtain ⟨mA, hmA⟩ := exists_mA h
  have hK := keyed h
  have hn : 0 < sts.length := by
    have := h.members _ (getD_mem hv)
    rw [h.aux.count]; omega
  have hpeer : ∀ p < s_l.length, p ≠ a → p ≠ v → (b v).b1 (p + 1) = (mA p, oCom rnd p) := by
    intro p hp hpa hpv
    have h1 := hgood v hv p hp hva hpa hpv
    rw [offlineLine_head (round0_keyed hmA hK hp)] at h1
    simpa using h1.symm
  have hr1 : (st1 x s_l key rnd mA v).proceed ((peers (v + 1) s_l.length).map (b v).b1) (rnd v) =
      .err (.Round1 ⟨errorString .InvalidKey, []⟩) := by
    unfold Round1.proceed
    have e1 : (st1 x s_l key rnd mA v).i = v + 1 := rfl
    have e4 : (st1 x s_l key rnd mA v).s_l = s_l := rfl
    rw [peers_eq_others, List.map_map]
    simp only [e1, e4]
    rw [intoVec_others hv, Res.bind_eq_err]
    left
    rw [List.map_map]
    have hbada : ∀ j < s_l.length - 1, otherInd v j = a →
        (st1 x s_l key rnd mA v).answer ((List.range s_l.length).map (Prod.fst ∘ fun j =>
          if j = v then ((st1 x s_l key rnd mA v).m_a.1, (st1 x s_l key rnd mA v).phase1_com) else
            ((b v).b1 ∘ fun j => j + 1) j)) (rnd v) j = .err (.Round1 ⟨errorString .InvalidKey, []⟩) := by
      intro j hj hja
      have hK' := hK.holds v hv
      have hm := hK.members _ (getD_mem ha)
      unfold Round1.answer
      simp only [st1, Nat.add_sub_cancel, hja]
      rw [get_zeroBased ha, Res.bind_ok, hK'.eks,
        Keygen.get_map_range (show s_l.getD a 0 - 1 < n by omega), Res.bind_ok, Keygen.get_map_range ha,
        Res.bind_ok, hK'.sts_eq]
      simp only [Function.comp_apply, if_neg (Ne.symm hva)]
      unfold MessageB.b
      rw [hbad v hv hva, if_pos (by simpa using hn.ne)]
      rfl
    refine Res.mapM_err (fun j hj => ?_) ?_
    · rw [List.mem_range] at hj
      by_cases hja : otherInd v j = a
      · exact Or.inr (hbada j hj hja)
      · left
        refine ⟨_, Eq.trans ?_ (answer_eq (rnd := rnd) (j := j) hmA hK hv hj)⟩
        have hj' := otherInd_lt (k := v) hj
        unfold Round1.answer
        simp only [st1, Nat.add_sub_cancel]
        rw [Keygen.get_map_range hj', Keygen.get_map_range hj']
        simp only [Function.comp_apply, if_neg (otherInd_ne (k := v)), hpeer _ hj' hja otherInd_ne]
    · obtain ⟨j, hj, hja⟩ := index_of_other hv ha (Ne.symm hva)
      refine ⟨j, List.mem_range.2 hj, hbada j hj hja⟩
  unfold offlineLine
  refine Script.step_of_err (Script.step_of_err (Script.step_of_err (Script.step_of_err
    (Script.step_of_err ?_))))
  simp only [Script.step, round0_keyed hmA hK hv, sending, Res.bind_ok, hr1]
  rfl

end

/-! ### Examples: the 31-point group -/

section
attribute [local instance] Toy.crypto

/-- Signer 2 sends its first message without range proofs. -/
def anon1 : SignerMsgs := { toyMsgs with b1 := fun _ => (⟨(toyB1 1).1.c, []⟩, (toyB1 1).2) }

/-- Signer 2 answers with a ciphertext of something else. -/
def anon2 : SignerMsgs := { toyMsgs with b2 := fun _ => ({ (toyB2 1).1 with c := 1 }, (toyB2 1).2) }

/-- Signer 2 sends a wrong proof for `T`. -/
def anon3 : SignerMsgs := { toyMsgs with
  b3 := fun _ => { toyB3 1 with t_i_proof := { (toyB3 1).t_i_proof with z1 := (0 : ZMod 31) } } }

/-- Signer 2 continues with another share of `delta`, consistently. -/
def anon4X3 := toyX3 1 >>= fun r =>
  .ok ({ r.1 with delta_i := show ZMod 31 from 1 + (show ZMod 31 from r.1.delta_i) }, r.2)
def anon4X4 := anon4X3 >>= fun r => r.1.proceed [toyB3 0]
def anon4X5 := anon4X4 >>= fun r => r.1.proceed [toyB4 0] (toySign 1)
def anon4 : SignerMsgs := { toyMsgs with
  b3 := fun _ => { toyB3 1 with delta_i := show ZMod 31 from 1 + (show ZMod 31 from (toyB3 1).delta_i) }
  b5 := fun _ => bodyOr ((0 : ZMod 31), []) anon4X5 }

/-- Signer 2 continues with another share of `sigma`, consistently. -/
def anon5T : Sc → Pt × Sc × PedersenProof := fun s =>
  phase3_compute_t_i (show ZMod 31 from 1 + (show ZMod 31 from s)) (toySign 1).l (toySign 1).ped1
    (toySign 1).ped2
def anon5X3 := toyX3 1 >>= fun r =>
  .ok ({ r.1 with
    sigma_i := show ZMod 31 from 1 + (show ZMod 31 from r.1.sigma_i)
    t_i := (anon5T r.1.sigma_i).1, t_i_proof := (anon5T r.1.sigma_i).2.2 },
    [(⟨2, none, ⟨r.1.delta_i, (anon5T r.1.sigma_i).1, (anon5T r.1.sigma_i).2.2⟩⟩ : Msg TMsg)])
def anon5X4 := anon5X3 >>= fun r => r.1.proceed [toyB3 0]
def anon5X5 := anon5X4 >>= fun r => r.1.proceed [toyB4 0] (toySign 1)
def anon5X6 := anon5X5 >>= fun r => r.1.proceed [toyB5 0] (toySign 1)
def anon5 : SignerMsgs := { toyMsgs with
  b3 := fun _ => bodyOr ⟨(0 : ZMod 31), (0 : ZMod 31), toyPed⟩ anon5X3
  b5 := fun _ => bodyOr ((0 : ZMod 31), []) anon5X5
  b6 := fun _ => bodyOr ((0 : ZMod 31), toyHeg) anon5X6 }

theorem line_err_of {b : SignerMsgs} {e : SignError}
    (h : (match (offlineLine (toySign 0) 1 [3, 1] (toyLocal 3) b).2 with
      | .err e' => decide (e' = e) | _ => false) = true) :
    (offlineLine (toySign 0) 1 [3, 1] (toyLocal 3) b).2 = .err e := by
  revert h
  generalize (offlineLine (toySign 0) 1 [3, 1] (toyLocal 3) b).2 = r
  cases r <;> simp

/-- **C113** (violation). One misbehaving signer can bring about each of the five errors that name nobody. -/
theorem C113_anonymous_errors_occur : ∀ e ∈ anonymousErrors, ∃ b,
    (offlineLine (toySign 0) 1 [3, 1] (toyLocal 3) b).2 = .err e := by
  intro e he
  simp only [anonymousErrors, List.mem_cons, List.not_mem_nil, or_false] at he
  rcases he with rfl | rfl | rfl | rfl | rfl
  · exact ⟨anon1, line_err_of (by decide +kernel)⟩
  · exact ⟨anon2, line_err_of (by decide +kernel)⟩
  · exact ⟨anon3, line_err_of (by decide +kernel)⟩
  · exact ⟨anon4, line_err_of (by decide +kernel)⟩
  · exact ⟨anon5, line_err_of (by decide +kernel)⟩

/-- Signer 2 opens another point than it committed to. -/
def badOpening : SignerMsgs := { toyMsgs with b4 := fun _ => { toyB4 1 with g_gamma_i := (0 : ZMod 31) } }

theorem badOpening_line : (offlineLine (toySign 0) 1 [3, 1] (toyLocal 3) badOpening).2 =
    .err (.Round5 ⟨"bad gamma_i decommit", [1]⟩) := line_err_of (by decide +kernel)

/-- C113's hypotheses hold there, and the error names signer 2. -/
example : namedSigners (.Round5 ⟨"bad gamma_i decommit", [1]⟩) = [2] ∧ ∃ p,
    namedSigners (.Round5 ⟨"bad gamma_i decommit", [1]⟩) = [p] ∧ 1 ≤ p ∧ p ≤ [3, 1].length ∧ p ≠ 1 ∧
      ¬ ((badOpening.b2 p).1.b_proof.pk = (badOpening.b4 p).g_gamma_i ∧
        hashCom (ser (badOpening.b4 p).g_gamma_i) (badOpening.b4 p).blind_factor =
          (badOpening.b1 p).2.com) :=
  ⟨rfl, C113_opening_evidence (by decide) (by decide) badOpening_line⟩

example := C113_offline_names_partial (by decide) (by decide) badOpening_line

/-- Party 1 (the second of the signers) stops the signing of parties 3 and 1. -/
example : ∃ e, namedSigners e = [] ∧ ∀ v < [3, 1].length, v ≠ 1 →
    (offlineLine (toySign v) (v + 1) [3, 1] (toyLocal ([3, 1].getD v 0)) anon1).2 = .err e :=
  C113_nobody_named toyHonest (a := 1) (by decide) (b := fun _ => anon1) (fun _ _ _ => rfl)
    (fun v hv p hp h1 h2 h3 => by
      simp only [List.length_cons, List.length_nil] at hv hp
      omega)

end
end Verif.Props
