import Verif.Lemmas.SignChecks
import Verif.Props.SignSM

/-!
# Property C68: a finished offline stage has passed every public check
-/

namespace Verif.Props

open EC Crypto Spec GG20 GG20.Sign

section
variable [Crypto]

/-- C68 for one signer whose rounds run one after the other; the peers' messages are arbitrary. -/
theorem C68_line_checks {rnd : SignRandomness} {s_l : List ℕ} {k : ℕ} {key : LocalKey} {b : SignerMsgs}
    {sent : List (Msg M)} {c : CompletedOfflineStage} (hk : k < s_l.length)
    (h : offlineLine rnd (k + 1) s_l key b = (sent, .ok c)) :
    ∃ own : OwnMsgs, ⟨k + 1, none, .M1 own.m1⟩ ∈ sent ∧ ⟨k + 1, none, .M3 own.m3⟩ ∈ sent ∧
      ⟨k + 1, none, .M4 own.m4⟩ ∈ sent ∧ ⟨k + 1, none, .M5 own.m5⟩ ∈ sent ∧
      ⟨k + 1, none, .M6 own.m6⟩ ∈ sent ∧ OfflineChecks s_l k key b own c := by
  unfold offlineLine at h
  simp only [peers_eq_others, List.map_map] at h
  obtain ⟨r6, o7, h6, h7, e7⟩ := Script.step_ok h
  obtain ⟨r5, o6, h5, h6', e6⟩ := Script.step_ok h6
  obtain ⟨r4, o5, h4, h5', e5⟩ := Script.step_ok h5
  obtain ⟨r3, o4, h3, h4', e4⟩ := Script.step_ok h4
  obtain ⟨r2, o3, h2, h3', e3⟩ := Script.step_ok h3
  obtain ⟨r1, o2, h1, h2', e2⟩ := Script.step_ok h2
  obtain ⟨r0, o1, h0, h1', e1⟩ := Script.step_ok h1
  simp only [Prod.mk.injEq, true_and, Res.ok.injEq] at h0
  subst h0
  obtain ⟨p1, g1, rfl⟩ := sending_ok h1'
  obtain ⟨p2, g2, rfl⟩ := sending_ok h2'
  obtain ⟨p3, g3, rfl⟩ := sending_ok h3'
  obtain ⟨p4, g4, rfl⟩ := sending_ok h4'
  obtain ⟨p5, g5, rfl⟩ := sending_ok h5'
  obtain ⟨p6, g6, rfl⟩ := sending_ok h6'
  simp only [Res.bind_eq_ok, Res.ok.injEq, Prod.mk.injEq] at h7
  obtain ⟨c', h7, rfl, -⟩ := h7
  rw [e6, e5, e4, e3, e2, e1] at e7
  obtain ⟨i1, s1, k1, q1⟩ := round0_ok g1
  obtain ⟨i2, s2, k2, sk2, d2, bc2, ma2, c2⟩ := round1_ok hk i1 s1 k1 g2
  obtain ⟨i3, s3, k3, sk3, d3, bc3, ma3, mb3, q3, c3, c3'⟩ := round2_ok hk i2 s2 k2 g3
  obtain ⟨i4, s4, k4, sk4, d4, bc4, ma4, mb4, si4, t4, q4, c4, c4', di4⟩ := round3_ok hk i3 s3 g4
  obtain ⟨i5, s5, k5, sk5, ma5, si5, t5, R5, q5, c5, c5'⟩ := round4_ok hk (b2 := fun j => (b.b2 (j + 1)).1)
    i4 s4 (bc4.trans (bc3.trans bc2)) (mb4.trans mb3) g5
  obtain ⟨i6, s6, t6, o6, S6, q6, c6, c6'⟩ := round5_ok hk i5 s5 (ma5.trans (ma4.trans (ma3.trans ma2))) g6
  obtain ⟨o7, c7, c7'⟩ := round6_ok hk i6 s6 (t6.trans (t5.trans t4)) h7
  have key5 : r5.local_key = key := k5.trans (k4.trans k3)
  have ski : r5.sign_keys.k_i = r2.sign_keys.k_i := by rw [sk5, sk4, sk3]
  have kc : c'.k_i = r2.sign_keys.k_i := by rw [o7, o6]; exact ski
  have Rc : c'.R = r5.R := by rw [o7, o6]
  have sc : c'.sigma_i = r5.sigma_i := by rw [o7, o6]
  have yc : c'.y_sum_s = key.y_sum_s := by rw [o7, o6, key5]
  refine ⟨⟨(r1.m_a.1, r1.phase1_com), ⟨r3.delta_i, r3.t_i, r3.t_i_proof⟩, r3.phase1_decom,
    (r5.R_dash, r5.phase5_proofs_vec), (r6.S_i, r6.homo_elgamal_proof)⟩, ?_, ?_, ?_, ?_, ?_, ?_⟩
  · rw [e7, q1]; simp [Msg.mapBody]
  · rw [e7, q3]; simp [Msg.mapBody]
  · rw [e7, q4]; simp [Msg.mapBody]
  · rw [e7, q5]; simp [Msg.mapBody]
  · rw [e7, q6]; simp [Msg.mapBody]
  have sums : ∀ {α : Type} [AddCommMonoid α] (f : ℕ → α),
      ((peers (k + 1) s_l.length).map f).sum = ((Sign.others s_l.length k).map (fun j => f (j + 1))).sum := by
    intro α _ f
    rw [peers_eq_others, List.map_map]; rfl
  constructor
  · exact c2
  · rw [kc]; exact c3
  · exact c3'
  · exact c4
  · exact c5
  · refine ⟨by rw [sums]; exact c4', ?_⟩
    have e := congrArg (fun P => (r3.delta_i +
      ((Sign.others s_l.length k).map (fun j => (b.b3 (j + 1)).delta_i)).sum) • P) c5'
    simp only [di4, smul_smul, Function.comp] at e
    have c4'' : r3.delta_i +
        ((Sign.others s_l.length k).map (fun j => (b.b3 (j + 1)).delta_i)).sum ≠ 0 := c4'
    rw [mul_inv_cancel₀ c4'', one_smul, d4] at e
    rw [sums, sums, Rc]
    exact e
  · rw [Rc, ← key5]; exact c6
  · refine ⟨by rw [kc, Rc, ← ski, sk5]; exact R5, ?_⟩
    rw [sums]; exact c6'
  · exact c7
  · refine ⟨by rw [sc, Rc]; exact S6, yc, ?_⟩
    rw [sums]; exact c7'

/-- **C68.** Whatever the other signers send and in whatever order: if an offline stage hands out a result, then
every check of `OfflineChecks` holds of the messages it accepted and sent and of that result. -/
theorem C68_finished_has_checked {rnd : SignRandomness} {i : ℕ} {s_l : List ℕ} {key : LocalKey} {s : State}
    (hnew : Sign.new i s_l key = .ok s) (ops : List (Op M))
    {c : CompletedOfflineStage} (ho : c ∈ ((machine rnd).run s ops).outputs) :
    ∃ (b : SignerMsgs) (own : OwnMsgs), (∀ p ∈ peers i s_l.length,
        ⟨p, none, .M1 (b.b1 p)⟩ ∈ ((machine rnd).run s ops).accepted ∧
        ⟨p, some i, .M2 (b.b2 p)⟩ ∈ ((machine rnd).run s ops).accepted ∧
        ⟨p, none, .M3 (b.b3 p)⟩ ∈ ((machine rnd).run s ops).accepted ∧
        ⟨p, none, .M4 (b.b4 p)⟩ ∈ ((machine rnd).run s ops).accepted ∧
        ⟨p, none, .M5 (b.b5 p)⟩ ∈ ((machine rnd).run s ops).accepted ∧
        ⟨p, none, .M6 (b.b6 p)⟩ ∈ ((machine rnd).run s ops).accepted) ∧
      ⟨i, none, .M1 own.m1⟩ ∈ (machine rnd).sent ((machine rnd).run s ops) ∧
      ⟨i, none, .M3 own.m3⟩ ∈ (machine rnd).sent ((machine rnd).run s ops) ∧
      ⟨i, none, .M4 own.m4⟩ ∈ (machine rnd).sent ((machine rnd).run s ops) ∧
      ⟨i, none, .M5 own.m5⟩ ∈ (machine rnd).sent ((machine rnd).run s ops) ∧
      ⟨i, none, .M6 own.m6⟩ ∈ (machine rnd).sent ((machine rnd).run s ops) ∧
      OfflineChecks s_l (i - 1) key b own c := by
  obtain ⟨-, h1, h2, -⟩ := new_ok (rnd := rnd) hnew
  obtain ⟨b, hb, hl⟩ := C50_output_correct hnew ops ho
  obtain ⟨k, rfl⟩ : ∃ k, i = k + 1 := ⟨i - 1, by omega⟩
  obtain ⟨own, hown⟩ := C68_line_checks (by omega) hl
  exact ⟨b, own, hb, hown⟩

end

section Examples
attribute [local instance] Toy.crypto
attribute [local irreducible] toyMsgs

/-- A run that finishes. -/
example : ∃ own c, OfflineChecks [3, 1] 0 (toyLocal 3) toyMsgs own c := by
  obtain ⟨c, hc⟩ := toy_line_ok
  have hl : offlineLine (toySign 0) 1 [3, 1] (toyLocal 3) toyMsgs =
      ((offlineLine (toySign 0) 1 [3, 1] (toyLocal 3) toyMsgs).1, .ok c) := by rw [← hc]
  obtain ⟨own, -, -, -, -, -, h⟩ := C68_line_checks (k := 0) (s_l := [3, 1]) (by decide) hl
  exact ⟨own, c, h⟩

end Examples
end Verif.Props
