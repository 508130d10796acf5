import Verif.Lemmas.Culprits

/-! # What one signer has computed and sent when it reaches a round -/

namespace Verif

open EC Crypto

theorem Script.mem_step {μ ε α β : Type} {x : List μ × Res ε α} {f : α → Res ε (β × List μ)} {m : μ}
    (h : m ∈ (Script.step x f).1) :
    m ∈ x.1 ∨ ∃ a b out, x.2 = .ok a ∧ f a = .ok (b, out) ∧ m ∈ out := by
  obtain ⟨l0, x⟩ := x
  unfold Script.step at h
  cases x with
  | panic => exact Or.inl h
  | err e' => exact Or.inl h
  | ok a =>
    simp only at h
    cases hf : f a with
    | panic => rw [hf] at h; exact Or.inl h
    | err e => rw [hf] at h; exact Or.inl h
    | ok bo =>
      obtain ⟨b, out⟩ := bo
      rw [hf] at h
      rcases List.mem_append.1 h with h | h
      · exact Or.inl h
      · exact Or.inr ⟨a, b, out, rfl, hf, h⟩

theorem Script.step_snd {μ ε α β : Type} {x : List μ × Res ε α} {f : α → Res ε (β × List μ)} {b : β}
    (h : (Script.step x f).2 = .ok b) : ∃ a out, x.2 = .ok a ∧ f a = .ok (b, out) := by
  obtain ⟨a, out, h1, h2, -⟩ := Script.step_ok (x := x) (f := f) (l := (Script.step x f).1) (b := b)
    (by rw [← h])
  exact ⟨a, out, by rw [h1], h2⟩

theorem Res.mem_mapM {ε α β : Type} {f : α → Res ε β} {l : List α} {bs : List β}
    (h : Res.mapM f l = .ok bs) {b : β} (hb : b ∈ bs) : ∃ a ∈ l, f a = .ok b := by
  have hF := Res.mapM_eq_ok.1 h
  clear h
  induction hF with
  | nil => cases hb
  | cons h _ ih =>
    rcases List.mem_cons.1 hb with rfl | hb
    · exact ⟨_, List.mem_cons_self .., h⟩
    · obtain ⟨a, ha, hf⟩ := ih hb
      exact ⟨a, List.mem_cons_of_mem _ ha, hf⟩

namespace GG20.Sign

open Spec

variable [Crypto]

section
variable (rnd : SignRandomness) (k : ℕ) (s_l : List ℕ) (key : LocalKey) (b : SignerMsgs)

/-- The signer at position `k` reaches round 1 in state `r` and has sent `o`. -/
def At1 (r : Round1) (o : List (Msg (MessageA × SignBroadcastPhase1))) : Prop :=
  Round0.proceed ⟨k + 1, s_l, key⟩ rnd = .ok (r, o)

def At2 (r : Round2) (o : List (Msg (MessageB × MessageB))) : Prop :=
  ∃ r' o', At1 rnd k s_l key r' o' ∧
    r'.proceed ((others s_l.length k).map (fun j => b.b1 (j + 1))) rnd = .ok (r, o)

def At3 (r : Round3) (o : List (Msg TMsg)) : Prop :=
  ∃ r' o', At2 rnd k s_l key b r' o' ∧
    r'.proceed ((others s_l.length k).map (fun j => b.b2 (j + 1))) rnd = .ok (r, o)

def At4 (r : Round4) (o : List (Msg SignDecommitPhase1)) : Prop :=
  ∃ r' o', At3 rnd k s_l key b r' o' ∧
    r'.proceed ((others s_l.length k).map (fun j => b.b3 (j + 1))) = .ok (r, o)

def At5 (r : Round5) (o : List (Msg (Pt × List PDLwSlackProof))) : Prop :=
  ∃ r' o', At4 rnd k s_l key b r' o' ∧
    r'.proceed ((others s_l.length k).map (fun j => b.b4 (j + 1))) rnd = .ok (r, o)

def At6 (r : Round6) (o : List (Msg (Pt × HomoElGamalProof))) : Prop :=
  ∃ r' o', At5 rnd k s_l key b r' o' ∧
    r'.proceed ((others s_l.length k).map (fun j => b.b5 (j + 1))) rnd = .ok (r, o)

end

variable {rnd : SignRandomness} {k : ℕ} {s_l : List ℕ} {key : LocalKey} {b : SignerMsgs}

omit [Crypto] in
theorem map_peers {β : Type} (f : ℕ → β) (m k : ℕ) : (peers (k + 1) m).map f =
    (others m k).map (fun j => f (j + 1)) := by
  rw [peers_eq_others, List.map_map]; rfl

section
variable (rnd k s_l key b)

def line1 : List (Msg Sign.M) × Res SignError Round1 :=
  Script.step ([], .ok ⟨k + 1, s_l, key⟩) (fun r : Round0 => sending .M1 (r.proceed rnd))

def line2 : List (Msg Sign.M) × Res SignError Round2 :=
  Script.step (line1 rnd k s_l key) (fun r => sending .M2
    (r.proceed ((others s_l.length k).map (fun j => b.b1 (j + 1))) rnd))

def line3 : List (Msg Sign.M) × Res SignError Round3 :=
  Script.step (line2 rnd k s_l key b) (fun r => sending .M3
    (r.proceed ((others s_l.length k).map (fun j => b.b2 (j + 1))) rnd))

def line4 : List (Msg Sign.M) × Res SignError Round4 :=
  Script.step (line3 rnd k s_l key b) (fun r => sending .M4
    (r.proceed ((others s_l.length k).map (fun j => b.b3 (j + 1)))))

def line5 : List (Msg Sign.M) × Res SignError Round5 :=
  Script.step (line4 rnd k s_l key b) (fun r => sending .M5
    (r.proceed ((others s_l.length k).map (fun j => b.b4 (j + 1))) rnd))

def line6 : List (Msg Sign.M) × Res SignError Round6 :=
  Script.step (line5 rnd k s_l key b) (fun r => sending .M6
    (r.proceed ((others s_l.length k).map (fun j => b.b5 (j + 1))) rnd))

end

theorem offlineLine_eq : offlineLine rnd (k + 1) s_l key b = Script.step (line6 rnd k s_l key b) (fun r => do
    let c ← r.proceed ((others s_l.length k).map (fun j => b.b6 (j + 1)))
    .ok (c, [])) := by
  unfold offlineLine
  simp only [map_peers]
  rfl

theorem line1_ok {r : Round1} (h : (line1 rnd k s_l key).2 = .ok r) : ∃ o, At1 rnd k s_l key r o := by
  obtain ⟨a, out, h0, h1⟩ := Script.step_snd h
  cases h0
  obtain ⟨o, ho, -⟩ := sending_ok h1
  exact ⟨o, ho⟩

theorem line2_ok {r : Round2} (h : (line2 rnd k s_l key b).2 = .ok r) :
    ∃ o, At2 rnd k s_l key b r o := by
  obtain ⟨a, out, h0, h1⟩ := Script.step_snd h
  obtain ⟨o', ha⟩ := line1_ok h0
  obtain ⟨o, ho, -⟩ := sending_ok h1
  exact ⟨o, a, o', ha, ho⟩

theorem line3_ok {r : Round3} (h : (line3 rnd k s_l key b).2 = .ok r) :
    ∃ o, At3 rnd k s_l key b r o := by
  obtain ⟨a, out, h0, h1⟩ := Script.step_snd h
  obtain ⟨o', ha⟩ := line2_ok h0
  obtain ⟨o, ho, -⟩ := sending_ok h1
  exact ⟨o, a, o', ha, ho⟩

theorem line4_ok {r : Round4} (h : (line4 rnd k s_l key b).2 = .ok r) :
    ∃ o, At4 rnd k s_l key b r o := by
  obtain ⟨a, out, h0, h1⟩ := Script.step_snd h
  obtain ⟨o', ha⟩ := line3_ok h0
  obtain ⟨o, ho, -⟩ := sending_ok h1
  exact ⟨o, a, o', ha, ho⟩

theorem line5_ok {r : Round5} (h : (line5 rnd k s_l key b).2 = .ok r) :
    ∃ o, At5 rnd k s_l key b r o := by
  obtain ⟨a, out, h0, h1⟩ := Script.step_snd h
  obtain ⟨o', ha⟩ := line4_ok h0
  obtain ⟨o, ho, -⟩ := sending_ok h1
  exact ⟨o, a, o', ha, ho⟩

theorem line6_ok {r : Round6} (h : (line6 rnd k s_l key b).2 = .ok r) :
    ∃ o, At6 rnd k s_l key b r o := by
  obtain ⟨a, out, h0, h1⟩ := Script.step_snd h
  obtain ⟨o', ha⟩ := line5_ok h0
  obtain ⟨o, ho, -⟩ := sending_ok h1
  exact ⟨o, a, o', ha, ho⟩

/-- Every message is of one of the rounds. -/
theorem sent_cases {m : Msg Sign.M} (h : m ∈ (offlineLine rnd (k + 1) s_l key b).1) :
    (∃ r o, At1 rnd k s_l key r o ∧ m ∈ o.map (Msg.mapBody .M1)) ∨
    (∃ r o, At2 rnd k s_l key b r o ∧ m ∈ o.map (Msg.mapBody .M2)) ∨
    (∃ r o, At3 rnd k s_l key b r o ∧ m ∈ o.map (Msg.mapBody .M3)) ∨
    (∃ r o, At4 rnd k s_l key b r o ∧ m ∈ o.map (Msg.mapBody .M4)) ∨
    (∃ r o, At5 rnd k s_l key b r o ∧ m ∈ o.map (Msg.mapBody .M5)) ∨
    ∃ r o, At6 rnd k s_l key b r o ∧ m ∈ o.map (Msg.mapBody .M6) := by
  rw [offlineLine_eq] at h
  rcases Script.mem_step h with h | ⟨a, c, out, -, h1, h2⟩
  · rcases Script.mem_step h with h | ⟨a, r, out, h0, h1, h2⟩
    · rcases Script.mem_step h with h | ⟨a, r, out, h0, h1, h2⟩
      · rcases Script.mem_step h with h | ⟨a, r, out, h0, h1, h2⟩
        · rcases Script.mem_step h with h | ⟨a, r, out, h0, h1, h2⟩
          · rcases Script.mem_step h with h | ⟨a, r, out, h0, h1, h2⟩
            · rcases Script.mem_step h with h | ⟨a, r, out, h0, h1, h2⟩
              · cases h
              · cases h0
                obtain ⟨o, ho, rfl⟩ := sending_ok h1
                exact Or.inl ⟨r, o, ho, h2⟩
            · obtain ⟨o', ha⟩ := line1_ok h0
              obtain ⟨o, ho, rfl⟩ := sending_ok h1
              exact Or.inr (Or.inl ⟨r, o, ⟨a, o', ha, ho⟩, h2⟩)
          · obtain ⟨o', ha⟩ := line2_ok h0
            obtain ⟨o, ho, rfl⟩ := sending_ok h1
            exact Or.inr (Or.inr (Or.inl ⟨r, o, ⟨a, o', ha, ho⟩, h2⟩))
        · obtain ⟨o', ha⟩ := line3_ok h0
          obtain ⟨o, ho, rfl⟩ := sending_ok h1
          exact Or.inr (Or.inr (Or.inr (Or.inl ⟨r, o, ⟨a, o', ha, ho⟩, h2⟩)))
      · obtain ⟨o', ha⟩ := line4_ok h0
        obtain ⟨o, ho, rfl⟩ := sending_ok h1
        exact Or.inr (Or.inr (Or.inr (Or.inr (Or.inl ⟨r, o, ⟨a, o', ha, ho⟩, h2⟩))))
    · obtain ⟨o', ha⟩ := line5_ok h0
      obtain ⟨o, ho, rfl⟩ := sending_ok h1
      exact Or.inr (Or.inr (Or.inr (Or.inr (Or.inr ⟨r, o, ⟨a, o', ha, ho⟩, h2⟩))))
  · simp only [Res.bind_eq_ok, Res.ok.injEq, Prod.mk.injEq] at h1
    obtain ⟨_, -, -, rfl⟩ := h1
    cases h2

/-- In which round the stage failed. -/
theorem err_cases {e : SignError} (h : (offlineLine rnd (k + 1) s_l key b).2 = .err e) :
    e = .Round1 ⟨"InvalidKey", []⟩ ∨ e = .Round3 ⟨"InvalidKey", []⟩ ∨ e = .Round3 ⟨"proof error", []⟩ ∨
    (∃ r o, At4 rnd k s_l key b r o ∧
      r.proceed ((others s_l.length k).map (fun j => b.b4 (j + 1))) rnd = .err e) ∨
    (∃ r o, At5 rnd k s_l key b r o ∧
      r.proceed ((others s_l.length k).map (fun j => b.b5 (j + 1))) rnd = .err e) ∨
    (∃ r o, At6 rnd k s_l key b r o ∧
      r.proceed ((others s_l.length k).map (fun j => b.b6 (j + 1))) = .err e) := by
  rw [offlineLine_eq] at h
  rcases Script.step_err h with h | ⟨a, h0, h1⟩
  · rcases Script.step_err h with h | ⟨a, h0, h1⟩
    · rcases Script.step_err h with h | ⟨a, h0, h1⟩
      · rcases Script.step_err h with h | ⟨a, h0, h1⟩
        · rcases Script.step_err h with h | ⟨a, h0, h1⟩
          · rcases Script.step_err h with h | ⟨a, h0, h1⟩
            · rcases Script.step_err h with h | ⟨a, h0, h1⟩
              · cases h
              · obtain rfl := Res.ok.inj (Prod.mk.inj h0).2
                exact absurd (sending_err.1 h1) round0_err
            · exact Or.inl (round1_err (sending_err.1 h1))
          · exact Or.inr (Or.inl (round2_err (sending_err.1 h1)))
        · exact Or.inr (Or.inr (Or.inl (round3_err (sending_err.1 h1))))
      · obtain ⟨o, ho⟩ := line4_ok (congrArg Prod.snd h0)
        exact Or.inr (Or.inr (Or.inr (Or.inl ⟨a, o, ho, sending_err.1 h1⟩)))
    · obtain ⟨o, ho⟩ := line5_ok (congrArg Prod.snd h0)
      exact Or.inr (Or.inr (Or.inr (Or.inr (Or.inl ⟨a, o, ho, sending_err.1 h1⟩))))
  · obtain ⟨o, ho⟩ := line6_ok (congrArg Prod.snd h0)
    simp only [Res.bind_eq_err, reduceCtorEq, and_false, exists_false, or_false] at h1
    exact Or.inr (Or.inr (Or.inr (Or.inr (Or.inr ⟨a, o, ho, h1⟩))))

/-! ### What the states contain -/

theorem at1_facts {r : Round1} {o : List (Msg (MessageA × SignBroadcastPhase1))}
    (h : At1 rnd k s_l key r o) :
    r.i = k + 1 ∧ r.s_l = s_l ∧ r.local_key = key ∧ o = [⟨k + 1, none, (r.m_a.1, r.phase1_com)⟩] ∧
      r.sign_keys.k_i = rnd.k ∧ r.sign_keys.gamma_i = rnd.gamma ∧
      r.phase1_com = ⟨hashCom (ser (rnd.gamma • G)) rnd.blind⟩ ∧
      r.phase1_decom = ⟨rnd.blind, rnd.gamma • G⟩ ∧ r.m_a.2 = rnd.ra ∧
      ∃ N, key.paillier_key_vec[key.i - 1]? = some N ∧ r.m_a.1.c = Paillier.encrypt N rnd.k.val rnd.ra := by
  unfold At1 Round0.proceed SignKeys.create at h
  simp only [Res.bind_eq_ok, Res.ok.injEq, Prod.mk.injEq] at h
  obtain ⟨own, -, sk, ⟨_, -, _, -, _, -, rfl⟩, N, hN, mA, hA, rfl, rfl⟩ := h
  refine ⟨rfl, rfl, rfl, rfl, rfl, rfl, rfl, rfl, rfl, N, Res.get_eq_ok.1 hN, ?_⟩
  have hA := Res.ofOption_eq_ok.1 hA
  unfold MessageA.a at hA
  simp only [Option.bind_eq_bind, Option.bind_eq_some_iff, Option.some.injEq] at hA
  obtain ⟨_, -, rfl⟩ := hA
  rfl

variable (hk : k < s_l.length)
include hk

theorem at2_facts {r : Round2} {o : List (Msg (MessageB × MessageB))} (h : At2 rnd k s_l key b r o) :
    ∃ r1 o1, At1 rnd k s_l key r1 o1 ∧ r.i = k + 1 ∧ r.s_l = s_l ∧ r.local_key = key ∧
      r.sign_keys = r1.sign_keys ∧ r.m_a = r1.m_a ∧ r.phase1_decom = r1.phase1_decom ∧
      r.bc_vec = (List.range s_l.length).map (fun j => if j = k then r1.phase1_com else (b.b1 (j + 1)).2) ∧
      r.m_a_vec = (List.range s_l.length).map (fun j => if j = k then r1.m_a.1 else (b.b1 (j + 1)).1) ∧
      ∀ m ∈ o, m.body.1.b_proof.pk = rnd.gamma • G := by
  obtain ⟨r1, o1, h1, h⟩ := h
  obtain ⟨i1, s1, k1, -, -, g1, -⟩ := at1_facts h1
  obtain ⟨a1, a2, a3, a4, a5, a6, a7, -⟩ := round1_ok hk i1 s1 k1 h
  refine ⟨r1, o1, h1, a1, a2, a3, a4, ?_, a5, a6, a7, ?_⟩
  · unfold Round1.proceed at h
    simp only [Res.bind_eq_ok, Res.ok.injEq, Prod.mk.injEq] at h
    obtain ⟨_, -, rfl, -⟩ := h
    rfl
  · unfold Round1.proceed at h
    simp only [Res.bind_eq_ok, Res.ok.injEq, Prod.mk.injEq] at h
    obtain ⟨ans, hans, -, rfl⟩ := h
    intro m hm
    obtain ⟨⟨j, a⟩, hja, rfl⟩ := List.mem_map.1 hm
    have ha := (List.of_mem_zip hja).2
    obtain ⟨i, -, hi⟩ : ∃ i ∈ List.range (r1.s_l.length - 1), r1.answer _ rnd i = .ok a := by
      exact Res.mem_mapM hans ha
    unfold Round1.answer at hi
    simp only [Res.bind_eq_ok, Res.mapErr_eq_ok, Res.ok.injEq] at hi
    obtain ⟨_, -, _, -, _, -, g, hg, w, -, rfl⟩ := hi
    rw [← g1]
    obtain ⟨-, -, hg⟩ := MessageB.b_ok_iff.1 hg
    rw [hg]
    rfl

theorem at3_facts {r : Round3} {o : List (Msg TMsg)} (h : At3 rnd k s_l key b r o) :
    ∃ r1 o1, At1 rnd k s_l key r1 o1 ∧ r.i = k + 1 ∧ r.s_l = s_l ∧ r.local_key = key ∧
      r.sign_keys = r1.sign_keys ∧ r.m_a = r1.m_a ∧ r.phase1_decom = r1.phase1_decom ∧
      r.bc_vec = (List.range s_l.length).map (fun j => if j = k then r1.phase1_com else (b.b1 (j + 1)).2) ∧
      r.m_a_vec = (List.range s_l.length).map (fun j => if j = k then r1.m_a.1 else (b.b1 (j + 1)).1) ∧
      r.mb_gamma_s = (others s_l.length k).map (fun j => (b.b2 (j + 1)).1) ∧
      o = [⟨k + 1, none, ⟨r.delta_i, r.t_i, r.t_i_proof⟩⟩] ∧
      r.t_i = r.sigma_i • G + rnd.l • H ∧ r.l_i = rnd.l := by
  obtain ⟨r2, o2, h2, h⟩ := h
  obtain ⟨r1, o1, h1, i2, s2, k2, c1, c2, c3, c4, c5, -⟩ := at2_facts hk h2
  obtain ⟨a1, a2, a3, a4, a5, a6, a7, a8, a9, -⟩ := round2_ok hk i2 s2 k2 h
  have hm : r.m_a = r2.m_a ∧ r.t_i = r.sigma_i • G + rnd.l • H ∧ r.l_i = rnd.l := by
    unfold Round2.proceed at h
    simp only [Res.bind_eq_ok, Res.ok.injEq, Prod.mk.injEq] at h
    obtain ⟨_, -, _, -, _, -, _, -, rfl, -⟩ := h
    exact ⟨rfl, rfl, rfl⟩
  exact ⟨r1, o1, h1, a1, a2, a3, a4.trans c1, hm.1.trans c2, a5.trans c3, a6.trans c4, a7.trans c5, a8, a9,
    hm.2.1, hm.2.2⟩

/-- The nonce point that signer `k` computes. -/
noncomputable def noncePt (k m : ℕ) (delta : Sc) (gam : Pt) (b : SignerMsgs) : Pt :=
  (delta + ((others m k).map (fun j => (b.b3 (j + 1)).delta_i)).sum)⁻¹ •
    (gam + ((others m k).map (fun j => (b.b4 (j + 1)).g_gamma_i)).sum)

theorem at4_facts {r : Round4} {o : List (Msg SignDecommitPhase1)} (h : At4 rnd k s_l key b r o) :
    ∃ r1 o1 r3 o3, At1 rnd k s_l key r1 o1 ∧ At3 rnd k s_l key b r3 o3 ∧
      r.i = k + 1 ∧ r.s_l = s_l ∧ r.local_key = key ∧
      r.sign_keys = r1.sign_keys ∧ r.m_a = r1.m_a ∧ r.phase1_decom = r1.phase1_decom ∧
      r.bc_vec = (List.range s_l.length).map (fun j => if j = k then r1.phase1_com else (b.b1 (j + 1)).2) ∧
      r.m_a_vec = (List.range s_l.length).map (fun j => if j = k then r1.m_a.1 else (b.b1 (j + 1)).1) ∧
      r.mb_gamma_s = (others s_l.length k).map (fun j => (b.b2 (j + 1)).1) ∧
      o = [⟨k + 1, none, r1.phase1_decom⟩] ∧
      r.t_i = r3.t_i ∧ r.l_i = r3.l_i ∧ r.sigma_i = r3.sigma_i ∧
      r.t_vec = (List.range s_l.length).map (fun j => if j = k then r3.t_i else (b.b3 (j + 1)).t_i) ∧
      r.delta_inv = (r3.delta_i + ((others s_l.length k).map (fun j => (b.b3 (j + 1)).delta_i)).sum)⁻¹ := by
  obtain ⟨r3, o3, h3, h⟩ := h
  obtain ⟨r1, o1, h1, i3, s3, k3, c1, c2, c3, c4, c5, c6, c7, c8, c9⟩ := at3_facts hk h3
  obtain ⟨a1, a2, a3, a4, a5, a6, a7, a8, a9, a10, a11, -, -, a12⟩ := round3_ok hk i3 s3 h
  have hm : r.m_a = r3.m_a ∧ r.t_i = r3.t_i ∧ r.l_i = r3.l_i := by
    unfold Round3.proceed at h
    simp only [Res.bind_eq_ok] at h
    obtain ⟨_, -, _, -, h⟩ := h
    split_ifs at h
    simp only [Res.ok.injEq, Prod.mk.injEq] at h
    obtain ⟨rfl, -⟩ := h
    exact ⟨rfl, rfl, rfl⟩
  exact ⟨r1, o1, r3, o3, h1, h3, a1, a2, a3.trans k3, a4.trans c1, hm.1.trans c2, a5.trans c3, a6.trans c4,
    a7.trans c5, a8.trans c6, by rw [a11, c3], hm.2.1, hm.2.2, a9, a10, a12⟩

theorem at5_facts {r : Round5} {o : List (Msg (Pt × List PDLwSlackProof))} (h : At5 rnd k s_l key b r o) :
    ∃ r1 o1 r3 o3, At1 rnd k s_l key r1 o1 ∧ At3 rnd k s_l key b r3 o3 ∧
      r.i = k + 1 ∧ r.s_l = s_l ∧ r.local_key = key ∧ r.sign_keys = r1.sign_keys ∧
      r.m_a_vec = (List.range s_l.length).map (fun j => if j = k then r1.m_a.1 else (b.b1 (j + 1)).1) ∧
      r.t_i = r3.t_i ∧ r.l_i = r3.l_i ∧ r.sigma_i = r3.sigma_i ∧
      r.t_vec = (List.range s_l.length).map (fun j => if j = k then r3.t_i else (b.b3 (j + 1)).t_i) ∧
      r.R = noncePt k s_l.length r3.delta_i r1.phase1_decom.g_gamma_i b ∧
      r.R_dash = rnd.k • r.R ∧ o = [⟨k + 1, none, (r.R_dash, r.phase5_proofs_vec)⟩] ∧
      r.phase5_proofs_vec.length = s_l.length - 1 ∧
      ∀ j < s_l.length - 1, ∃ N st pf, key.paillier_key_vec[s_l.getD k 0 - 1]? = some N ∧
        key.h1_h2_n_tilde_vec[s_l.getD (otherInd k j) 0 - 1]? = some st ∧
        r.phase5_proofs_vec[j]? = some pf ∧
        PDLwSlackProof.prove ⟨rnd.k, rnd.ra⟩ (pdlStatement r.R_dash r.R r1.m_a.1.c N st)
          (rnd.pdl (otherInd k j)) = some pf := by
  obtain ⟨r4, o4, h4, h⟩ := h
  obtain ⟨r1, o1, r3, o3, h1, h3, i4, s4, k4, c1, c2, c3, c4, c5, c6, c7, c8, c9, c10, c11, c12⟩ :=
    at4_facts hk h4
  obtain ⟨-, -, -, -, f1, -, -, -, f2, -⟩ := at1_facts h1
  obtain ⟨a1, a2, a3, a4, a5, a6, a7, a8, a9, -, a10⟩ := round4_ok hk (b2 := fun j => (b.b2 (j + 1)).1)
    i4 s4 c4 c6 h
  have hR : r.R_dash = rnd.k • r.R := by rw [a8, c1, f1]
  have hm : r.t_i = r4.t_i ∧ r.l_i = r4.l_i ∧ r.phase5_proofs_vec.length = s_l.length - 1 ∧
      ∀ j < s_l.length - 1, ∃ N st pf, key.paillier_key_vec[s_l.getD k 0 - 1]? = some N ∧
        key.h1_h2_n_tilde_vec[s_l.getD (otherInd k j) 0 - 1]? = some st ∧
        r.phase5_proofs_vec[j]? = some pf ∧
        PDLwSlackProof.prove ⟨rnd.k, rnd.ra⟩ (pdlStatement r.R_dash r.R r1.m_a.1.c N st)
          (rnd.pdl (otherInd k j)) = some pf := by
    unfold Round4.proceed at h
    simp only [Res.bind_eq_ok, Res.ok.injEq, Prod.mk.injEq] at h
    obtain ⟨_, -, R, -, pfs, hp, rfl, -⟩ := h
    have hF := Res.mapM_eq_ok.1 hp
    rw [s4] at hF
    have hl : pfs.length = s_l.length - 1 := by rw [← hF.length_eq, List.length_range]
    refine ⟨rfl, rfl, hl, fun j hj => ?_⟩
    have hx := hF.get (by simpa using hj : j < (List.range (s_l.length - 1)).length) (by omega)
    simp only [List.get_eq_getElem, List.getElem_range, Res.bind_eq_ok, i4, Nat.add_sub_cancel, k4] at hx
    obtain ⟨me, hme, N, hN, si, hsi, st, hst, hpf⟩ := hx
    rw [get_zeroBased hk] at hme
    rw [get_zeroBased (otherInd_lt hj)] at hsi
    cases hme
    cases hsi
    refine ⟨N, st, _, Res.get_eq_ok.1 hN, Res.get_eq_ok.1 hst,
      List.getElem?_eq_getElem (show j < pfs.length by omega), ?_⟩
    unfold phase5_proof_pdl at hpf
    rw [← Res.ofOption_eq_ok (ε := SignError), ← hpf, c1, c2, f1, f2]
  exact ⟨r1, o1, r3, o3, h1, h3, a1, a2, a3.trans k4, a4.trans c1, a5.trans c5, hm.1.trans c8,
    hm.2.1.trans c9, a6.trans c10, a7.trans c11, by rw [a10, c12, c3]; rfl, hR, a9, hm.2.2.1, hm.2.2.2⟩

theorem at6_facts {r : Round6} {o : List (Msg (Pt × HomoElGamalProof))} (h : At6 rnd k s_l key b r o) :
    ∃ r3 o3 r5 o5, At3 rnd k s_l key b r3 o3 ∧ At5 rnd k s_l key b r5 o5 ∧
      r.i = k + 1 ∧ r.s_l = s_l ∧
      r.t_vec = (List.range s_l.length).map (fun j => if j = k then r3.t_i else (b.b3 (j + 1)).t_i) ∧
      r.protocol_output.R = r5.R ∧
      (r.S_i, r.homo_elgamal_proof) = phase6_compute_S_i r5.R r3.t_i r3.sigma_i rnd.l rnd.heg1 rnd.heg2 ∧
      o = [⟨k + 1, none, (r.S_i, r.homo_elgamal_proof)⟩] := by
  obtain ⟨r5, o5, h5, h⟩ := h
  obtain ⟨r1, o1, r3, o3, h1, h3, i5, s5, k5, c1, c2, c3, c4, c5, c6, -⟩ := at5_facts hk h5
  obtain ⟨r1', o1', h1', -, -, -, -, -, -, -, -, -, -, -, d1⟩ := at3_facts hk h3
  obtain ⟨a1, a2, a3, a4, -, a6, -⟩ := round5_ok hk i5 s5 c2 h
  refine ⟨r3, o3, r5, o5, h3, h5, a1, a2, a3.trans c6, by rw [a4], ?_, a6⟩
  unfold Round5.proceed at h
  simp only [Res.bind_eq_ok, Res.ok.injEq, Prod.mk.injEq] at h
  obtain ⟨_, -, _, -, rfl, -⟩ := h
  rw [← c3, ← c5, ← d1, ← c4]

end GG20.Sign
end Verif
