import Verif.Lemmas.SignChecks
import Verif.Lemmas.RoundOrder
import Verif.Lemmas.SignSMSpec

/-! # Where a message that was sent comes from -/

namespace Verif

namespace Proto

variable {P : Proto}

theorem straight_sent {r0 : P.St 0} {v : (k : ℕ) → List (P.Bd k)} {l : ℕ} {r : P.St l}
    {q : List (Msg P.Body)} (h : P.straight r0 v l = .ok (r, q)) {m : Msg P.Body} (hm : m ∈ q) :
    ∃ (k : ℕ) (rk : P.St k) (qk : List (Msg P.Body)) (r' : P.St (k + 1)) (out : List (Msg (P.Bd (k + 1)))),
      P.straight r0 v k = .ok (rk, qk) ∧ P.fn k rk (if k = 0 then [] else v k) = .ok (r', out) ∧
      m ∈ out.map (P.tag (k + 1)) := by
  induction l generalizing q with
  | zero =>
    simp only [straight, Res.ok.injEq, Prod.mk.injEq] at h
    rw [← h.2] at hm
    cases hm
  | succ l ih =>
    unfold straight at h
    simp only [Res.bind_eq_ok] at h
    obtain ⟨⟨rl, ql⟩, h1, ⟨ro, out⟩, h2, h3⟩ := h
    simp only [Res.ok.injEq, Prod.mk.injEq] at h3
    rw [← h3.2, List.mem_append] at hm
    rcases hm with hm | hm
    · exact ih h1 hm
    · exact ⟨l, rl, ql, ro, out, h1, h2, hm⟩

theorem straight_succ {r0 : P.St 0} {v : (k : ℕ) → List (P.Bd k)} {k : ℕ} {r : P.St (k + 1)}
    {q : List (Msg P.Body)} (h : P.straight r0 v (k + 1) = .ok (r, q)) :
    ∃ (rk : P.St k) (qk : List (Msg P.Body)) (out : List (Msg (P.Bd (k + 1)))),
      P.straight r0 v k = .ok (rk, qk) ∧ P.fn k rk (if k = 0 then [] else v k) = .ok (r, out) := by
  unfold straight at h
  simp only [Res.bind_eq_ok] at h
  obtain ⟨⟨rk, qk⟩, h1, ⟨ro, out⟩, h2, h3⟩ := h
  simp only [Res.ok.injEq, Prod.mk.injEq] at h3
  obtain ⟨rfl, -⟩ := h3
  exact ⟨rk, qk, out, h1, h2⟩

namespace Sim

variable {P : Proto} {σ β : Type} {M : StateMachine σ β (P.St (P.K + 1)) P.Er} (S : P.Sim M) {s : σ} {me n : ℕ}
  {r0 : P.St 0}

/-- Where the messages come from: there is one list of accepted messages for each round that accounts for all of
them. -/
theorem sent_fns (hs : S.abs s = P.init me n r0) (h1 : 1 ≤ me) (h2 : me ≤ n) (hn : 2 ≤ n) (ops : List (Op β)) :
    ∃ v : (k : ℕ) → List (P.Bd k), ∀ m ∈ M.sent (M.run s ops),
      ∃ (k : ℕ) (rk : P.St k) (qk : List (Msg P.Body)) (r' : P.St (k + 1)) (out : List (Msg (P.Bd (k + 1)))),
      (∀ j, 1 ≤ j → j ≤ k → ∃ body : ℕ → P.Bd j, v j = (others me n).map body ∧
        ∀ p ∈ others me n, (⟨p, if P.p2p j then some me else none, ⟨j, body p⟩⟩ : Msg P.Body) ∈
          (M.run s ops).accepted.map (Msg.mapBody S.tagB)) ∧
      P.straight r0 v k = .ok (rk, qk) ∧ P.fn k rk (if k = 0 then [] else v k) = .ok (r', out) ∧
      m.mapBody S.tagB ∈ out.map (P.tag (k + 1)) := by
  obtain ⟨L, pos, hi⟩ := S.inv hs h1 h2 ops
  refine ⟨P.vecs n L, fun m hm => ?_⟩
  have hm' : m.mapBody S.tagB ∈ P.machine.sent (S.hist (M.run s ops)) := by
    rw [S.sent]; exact List.mem_map.2 ⟨m, hm, rfl⟩
  have hpos := hi.phase.pos_le
  have key : ∀ l r, l ≤ pos → P.straight r0 (P.vecs n L) l = .ok (r, P.machine.sent (S.hist (M.run s ops))) →
      ∃ (k : ℕ) (rk : P.St k) (qk : List (Msg P.Body)) (r' : P.St (k + 1))
        (out : List (Msg (P.Bd (k + 1)))), k + 1 ≤ pos ∧ P.straight r0 (P.vecs n L) k = .ok (rk, qk) ∧
        P.fn k rk (if k = 0 then [] else P.vecs n L k) = .ok (r', out) ∧
        m.mapBody S.tagB ∈ out.map (P.tag (k + 1)) := by
    intro l r hl hc
    obtain ⟨k, rk, qk, r', out, a, b, c⟩ := straight_sent hc hm'
    have hr := P.straight_rounds hc _ hm'
    obtain ⟨x, -, hx⟩ := List.mem_map.1 c
    rw [← hx] at hr
    have hr : k + 1 ≤ l := hr
    exact ⟨k, rk, qk, r', out, by omega, a, b, c⟩
  have main : ∃ (k : ℕ) (rk : P.St k) (qk : List (Msg P.Body)) (r' : P.St (k + 1))
        (out : List (Msg (P.Bd (k + 1)))), k + 1 ≤ pos ∧ P.straight r0 (P.vecs n L) k = .ok (rk, qk) ∧
        P.fn k rk (if k = 0 then [] else P.vecs n L k) = .ok (r', out) ∧
        m.mapBody S.tagB ∈ out.map (P.tag (k + 1)) := by
    cases hi.phase with
    | running r hp hr hle hc => exact key _ _ (by omega) hc
    | failed k' rk e m hp hr hpos hk hc => exact key _ _ (by omega) hc
    | panicked k' rk hp hpos hk hc => exact key _ _ (by omega) hc
    | picked o m hp hr hpos hc => exact key _ _ (by omega) hc
  obtain ⟨k, rk, qk, r', out, hk, a, b, c⟩ := main
  refine ⟨k, rk, qk, r', out, ?_, a, b, c⟩
  intro j j1 j2
  obtain ⟨body, b1, b2⟩ := body_of_full hn hi.log j1 (by omega)
    (hi.stores.gone j j1 (by omega)).2
  exact ⟨body, b2, b1⟩

theorem sent_fn (hs : S.abs s = P.init me n r0) (h1 : 1 ≤ me) (h2 : me ≤ n) (hn : 2 ≤ n) (ops : List (Op β))
    {m : Msg β} (hm : m ∈ M.sent (M.run s ops)) :
    ∃ (v : (k : ℕ) → List (P.Bd k)) (k : ℕ) (rk : P.St k) (qk : List (Msg P.Body)) (r' : P.St (k + 1))
      (out : List (Msg (P.Bd (k + 1)))),
      (∀ j, 1 ≤ j → j ≤ k → ∃ body : ℕ → P.Bd j, v j = (others me n).map body ∧
        ∀ p ∈ others me n, (⟨p, if P.p2p j then some me else none, ⟨j, body p⟩⟩ : Msg P.Body) ∈
          (M.run s ops).accepted.map (Msg.mapBody S.tagB)) ∧
      P.straight r0 v k = .ok (rk, qk) ∧ P.fn k rk (if k = 0 then [] else v k) = .ok (r', out) ∧
      m.mapBody S.tagB ∈ out.map (P.tag (k + 1)) := by
  obtain ⟨v, h⟩ := S.sent_fns hs h1 h2 hn ops
  exact ⟨v, h m hm⟩

/-- Two messages of one round come from one application of the round function. -/
theorem sent_pair (hs : S.abs s = P.init me n r0) (h1 : 1 ≤ me) (h2 : me ≤ n) (hn : 2 ≤ n) (ops : List (Op β))
    {k : ℕ} {a a' : ℕ} {p p' : Option ℕ} {b b' : P.Bd (k + 1)} {c c' : β} (hc : S.tagB c = ⟨k + 1, b⟩)
    (hc' : S.tagB c' = ⟨k + 1, b'⟩) (hm : ⟨a, p, c⟩ ∈ M.sent (M.run s ops))
    (hm' : ⟨a', p', c'⟩ ∈ M.sent (M.run s ops)) :
    ∃ (v : (k : ℕ) → List (P.Bd k)) (rk : P.St k) (qk : List (Msg P.Body)) (r' : P.St (k + 1))
      (out : List (Msg (P.Bd (k + 1)))),
      (∀ j, 1 ≤ j → j ≤ k → ∃ body : ℕ → P.Bd j, v j = (others me n).map body) ∧
      P.straight r0 v k = .ok (rk, qk) ∧ P.fn k rk (if k = 0 then [] else v k) = .ok (r', out) ∧
      ⟨a, p, b⟩ ∈ out ∧ ⟨a', p', b'⟩ ∈ out := by
  obtain ⟨v, h⟩ := S.sent_fns hs h1 h2 hn ops
  obtain ⟨l, rk, qk, r', out, hv, hst, hfn, hmem⟩ := h _ hm
  obtain ⟨l', rk', qk', r'', out', -, hst', hfn', hmem'⟩ := h _ hm'
  obtain ⟨⟨x, y, z⟩, hx, ex⟩ := List.mem_map.1 hmem
  obtain ⟨⟨x', y', z'⟩, hx', ex'⟩ := List.mem_map.1 hmem'
  change (⟨x, y, ⟨l + 1, z⟩⟩ : Msg P.Body) = ⟨a, p, S.tagB c⟩ at ex
  change (⟨x', y', ⟨l' + 1, z'⟩⟩ : Msg P.Body) = ⟨a', p', S.tagB c'⟩ at ex'
  rw [hc] at ex
  rw [hc'] at ex'
  simp only [Msg.mk.injEq] at ex ex'
  obtain ⟨rfl, rfl, ec⟩ := ex
  obtain ⟨rfl, rfl, ec'⟩ := ex'
  obtain rfl : l = k := Nat.add_right_cancel (Sigma.mk.inj ec).1
  obtain rfl : z = b := eq_of_heq (Sigma.mk.inj ec).2
  obtain rfl : l' = l := Nat.add_right_cancel (Sigma.mk.inj ec').1
  obtain rfl : z' = b' := eq_of_heq (Sigma.mk.inj ec').2
  obtain ⟨rfl, -⟩ := Prod.mk.inj (Res.ok.inj (hst.symm.trans hst'))
  obtain ⟨-, rfl⟩ := Prod.mk.inj (Res.ok.inj (hfn.symm.trans hfn'))
  exact ⟨v, rk, qk, r', out, fun j j1 j2 => ⟨_, (hv j j1 j2).choose_spec.1⟩, hst, hfn, hx, hx'⟩

end Sim

end Proto

namespace StateMachine

variable {σ β ω ε : Type} {M : StateMachine σ β ω ε}

/-- What was accepted stays accepted. -/
theorem accepted_later (s : σ) (ops later : List (Op β)) {m : Msg β} (h : m ∈ (M.run s ops).accepted) :
    m ∈ (M.run s (ops ++ later)).accepted := by
  have hrec : ∀ (h : History σ β ω ε) r, (record h r).accepted = h.accepted := by
    intro h r
    unfold record
    split <;> rfl
  induction later using List.reverseRecOn with
  | nil => rwa [List.append_nil]
  | append_singleton later op ih =>
    have e : M.run s (ops ++ (later ++ [op])) = M.step (M.run s (ops ++ later)) op := by
      unfold run
      rw [← List.append_assoc, List.foldl_append]
      rfl
    rw [e]
    unfold step
    split
    · exact ih
    · cases op with
      | deliver x =>
        dsimp only
        split
        · exact List.mem_append_left _ ih
        · rw [hrec]; exact ih
      | proceed => dsimp only; rw [hrec]; exact ih
      | drain => exact ih
      | pick =>
        dsimp only
        split <;> exact ih

end StateMachine

namespace GG20.Sign

open EC Crypto Spec

variable [Crypto]

/-- The nonce shares and the opening are those of the first round. -/
theorem straight_gamma {rnd : SignRandomness} {r0 : Round0} {v : (k : ℕ) → List ((proto rnd).Bd k)} :
    (∀ {r : Round1} {q}, (proto rnd).straight r0 v 1 = .ok (r, q) →
      r.sign_keys.gamma_i = rnd.gamma ∧ r.phase1_decom.g_gamma_i = rnd.gamma • G) ∧
    (∀ {r : Round2} {q}, (proto rnd).straight r0 v 2 = .ok (r, q) →
      r.phase1_decom.g_gamma_i = rnd.gamma • G) ∧
    (∀ {r : Round3} {q}, (proto rnd).straight r0 v 3 = .ok (r, q) →
      r.phase1_decom.g_gamma_i = rnd.gamma • G) := by
  have a1 : ∀ {r : Round1} {q}, (proto rnd).straight r0 v 1 = .ok (r, q) →
      r.sign_keys.gamma_i = rnd.gamma ∧ r.phase1_decom.g_gamma_i = rnd.gamma • G := by
    intro r q h
    obtain ⟨r0', q0, o, h0, c⟩ := Proto.straight_succ (k := 0) h
    obtain rfl := (Prod.mk.inj (Res.ok.inj h0)).1
    change Round0.proceed r0 rnd = .ok (r, o) at c
    simp only [Round0.proceed, Res.bind_eq_ok, Res.ok.injEq] at c
    obtain ⟨own, -, sk, hsk, ek, -, ma, -, rfl, -⟩ := c
    simp only [SignKeys.create, Res.bind_eq_ok, Res.ok.injEq] at hsk
    obtain ⟨_, -, _, -, _, -, rfl⟩ := hsk
    exact ⟨rfl, rfl⟩
  have a2 : ∀ {r : Round2} {q}, (proto rnd).straight r0 v 2 = .ok (r, q) →
      r.phase1_decom.g_gamma_i = rnd.gamma • G := by
    intro r q h
    obtain ⟨r1, q1, o, h1, c⟩ := Proto.straight_succ (k := 1) h
    change Round1.proceed r1 (v 1) rnd = .ok (r, o) at c
    simp only [Round1.proceed, Res.bind_eq_ok, Res.ok.injEq] at c
    obtain ⟨_, -, rfl, -⟩ := c
    exact (a1 h1).2
  refine ⟨a1, a2, ?_⟩
  intro r q h
  obtain ⟨r2, q2, o, h2, c⟩ := Proto.straight_succ (k := 2) h
  change Round2.proceed r2 (v 2) rnd = .ok (r, o) at c
  simp only [Round2.proceed, Res.bind_eq_ok, Res.ok.injEq] at c
  obtain ⟨_, -, _, -, _, -, _, -, rfl, -⟩ := c
  exact a2 h2

/-- Where a message of round `k + 1` comes from. -/
theorem sent_fn {rnd : SignRandomness} {i : ℕ} {s_l : List ℕ} {key : LocalKey} {s : State}
    (hnew : Sign.new i s_l key = .ok s) (ops : List (Op M)) {k : ℕ} {p : Option ℕ} {f : Bd (k + 1) → M}
    (hf : ∀ b, tagM rnd (f b) = ⟨k + 1, b⟩) {m : Bd (k + 1)}
    (hm : ⟨i, p, f m⟩ ∈ (machine rnd).sent ((machine rnd).run s ops)) :
    ∃ (v : (k : ℕ) → List ((proto rnd).Bd k)) (rk : (proto rnd).St k) (qk : List (Msg (proto rnd).Body))
      (r' : (proto rnd).St (k + 1)) (out : List (Msg (Bd (k + 1)))),
      (∀ j, 1 ≤ j → j ≤ k → ∃ body : ℕ → Bd j, v j = (peers i s_l.length).map body ∧
        ∀ p ∈ peers i s_l.length,
          (⟨p, if (proto rnd).p2p j then some i else none, ⟨j, body p⟩⟩ : Msg (proto rnd).Body) ∈
          ((machine rnd).run s ops).accepted.map (Msg.mapBody (tagM rnd))) ∧
      (proto rnd).straight (⟨i, s_l, key⟩ : Round0) v k = .ok (rk, qk) ∧
      fn rnd k rk (if k = 0 then [] else v k) = .ok (r', out) ∧ ⟨i, p, m⟩ ∈ out := by
  obtain ⟨habs, h1, h2, hn⟩ := new_ok (rnd := rnd) hnew
  obtain ⟨v, l, rk, qk, r', out, hv, hst, hfn, hmem⟩ := (sim rnd).sent_fn habs h1 h2 hn ops hm
  rw [others_eq_peers h1 h2] at hv
  obtain ⟨⟨a, b, c⟩, hx, ex⟩ := List.mem_map.1 hmem
  change (⟨a, b, ⟨l + 1, c⟩⟩ : Msg (proto rnd).Body) = ⟨i, p, tagM rnd (f m)⟩ at ex
  rw [hf] at ex
  simp only [Msg.mk.injEq] at ex
  obtain ⟨rfl, rfl, ec⟩ := ex
  obtain rfl : l = k := Nat.add_right_cancel (Sigma.mk.inj ec).1
  obtain rfl : c = m := eq_of_heq (Sigma.mk.inj ec).2
  exact ⟨v, rk, qk, r', out, hv, hst, hfn, hx⟩

/-- What a signer broadcasts in round 3 is determined by what it accepted in rounds 1 and 2. -/
theorem sent_delta {rnd : SignRandomness} {i : ℕ} {s_l : List ℕ} {key : LocalKey} {s : State}
    (hnew : Sign.new i s_l key = .ok s) (ops ops' : List (Op M))
    (e1 : ∀ p ∈ peers i s_l.length, ∀ b b', ⟨p, none, .M1 b⟩ ∈ ((machine rnd).run s ops).accepted →
      ⟨p, none, .M1 b'⟩ ∈ ((machine rnd).run s ops').accepted → b = b')
    (e2 : ∀ p ∈ peers i s_l.length, ∀ b b', ⟨p, some i, .M2 b⟩ ∈ ((machine rnd).run s ops).accepted →
      ⟨p, some i, .M2 b'⟩ ∈ ((machine rnd).run s ops').accepted → b = b')
    {d d' : TMsg} (hd : ⟨i, none, .M3 d⟩ ∈ (machine rnd).sent ((machine rnd).run s ops))
    (hd' : ⟨i, none, .M3 d'⟩ ∈ (machine rnd).sent ((machine rnd).run s ops')) : d = d' := by
  have get : ∀ m m' : Msg M, m'.mapBody (tagM rnd) = m.mapBody (tagM rnd) →
      m' = m := fun m m' e => (sim rnd).mapBody_inj e
  obtain ⟨v, r2, q2, r3, out, hv, hst, hfn, hx⟩ := sent_fn (k := 2) (f := M.M3) hnew ops (fun _ => rfl) hd
  obtain ⟨v', r2', q2', r3', out', hv', hst', hfn', hx'⟩ :=
    sent_fn (k := 2) (f := M.M3) hnew ops' (fun _ => rfl) hd'
  obtain ⟨c1, b1, a1⟩ := hv 1 (by decide) (by decide)
  obtain ⟨c2, b2, a2⟩ := hv 2 (by decide) (by decide)
  obtain ⟨c1', b1', a1'⟩ := hv' 1 (by decide) (by decide)
  obtain ⟨c2', b2', a2'⟩ := hv' 2 (by decide) (by decide)
  have v1 : v 1 = v' 1 := by
    rw [b1, b1']
    refine List.map_congr_left fun p hp => ?_
    obtain ⟨m, hm, f⟩ := List.mem_map.1 (a1 p hp)
    obtain ⟨m', hm', f'⟩ := List.mem_map.1 (a1' p hp)
    have g : m = ⟨p, none, .M1 (c1 p)⟩ := get ⟨p, none, .M1 (c1 p)⟩ m f
    have g' : m' = ⟨p, none, .M1 (c1' p)⟩ := get ⟨p, none, .M1 (c1' p)⟩ m' f'
    exact e1 p hp _ _ (g ▸ hm) (g' ▸ hm')
  have v2 : v 2 = v' 2 := by
    rw [b2, b2']
    refine List.map_congr_left fun p hp => ?_
    obtain ⟨m, hm, f⟩ := List.mem_map.1 (a2 p hp)
    obtain ⟨m', hm', f'⟩ := List.mem_map.1 (a2' p hp)
    have g : m = ⟨p, some i, .M2 (c2 p)⟩ := get ⟨p, some i, .M2 (c2 p)⟩ m f
    have g' : m' = ⟨p, some i, .M2 (c2' p)⟩ := get ⟨p, some i, .M2 (c2' p)⟩ m' f'
    exact e2 p hp _ _ (g ▸ hm) (g' ▸ hm')
  have hs : (proto rnd).straight (⟨i, s_l, key⟩ : Round0) v 2 =
      (proto rnd).straight (⟨i, s_l, key⟩ : Round0) v' 2 := by
    refine (proto rnd).straight_congr fun j j1 j2 => ?_
    obtain rfl : j = 1 := by omega
    exact v1
  rw [hst, hst'] at hs
  obtain ⟨rfl, -⟩ := Prod.mk.inj (Res.ok.inj hs)
  change fn rnd 2 r2 (v 2) = .ok (r3, out) at hfn
  change fn rnd 2 r2 (v' 2) = .ok (r3', out') at hfn'
  rw [v2, hfn'] at hfn
  obtain ⟨-, rfl⟩ := Prod.mk.inj (Res.ok.inj hfn)
  change Round2.proceed r2 (v' 2) rnd = .ok (r3', out') at hfn'
  simp only [Round2.proceed, Res.bind_eq_ok, Res.ok.injEq] at hfn'
  obtain ⟨_, -, _, -, _, -, _, -, e⟩ := hfn'
  obtain ⟨-, rfl⟩ := Prod.mk.inj e
  have := (List.mem_singleton.1 hx).trans (List.mem_singleton.1 hx').symm
  exact (Msg.mk.inj this).2.2

/-- The point of the nonce share is in the answers of round 2 and is what is revealed in round 4. -/
theorem sent_gamma {rnd : SignRandomness} {i : ℕ} {s_l : List ℕ} {key : LocalKey} {s : State}
    (hnew : Sign.new i s_l key = .ok s) (ops : List (Op M)) :
    (∀ p m, ⟨i, some p, .M2 m⟩ ∈ (machine rnd).sent ((machine rnd).run s ops) →
      m.1.b_proof.pk = rnd.gamma • G) ∧
    (∀ d, ⟨i, none, .M4 d⟩ ∈ (machine rnd).sent ((machine rnd).run s ops) →
      d.g_gamma_i = rnd.gamma • G) := by
  constructor
  · intro p m hm
    obtain ⟨v, rk, qk, r', out, -, hst, hfn, hx⟩ := sent_fn (k := 1) (f := M.M2) hnew ops (fun _ => rfl) hm
    change Round1.proceed rk (v 1) rnd = .ok (r', out) at hfn
    have hg := (straight_gamma.1 hst).1
    simp only [Round1.proceed, Res.bind_eq_ok, Res.ok.injEq] at hfn
    obtain ⟨as, ha, -, rfl⟩ := hfn
    obtain ⟨⟨j, a⟩, hja, e⟩ := List.mem_map.1 hx
    simp only at e
    obtain ⟨-, -, rfl⟩ := e
    have hf := Res.mapM_eq_ok.1 ha
    obtain ⟨y, hy, rfl⟩ := List.getElem_of_mem (List.of_mem_zip hja).2
    have hb := (List.forall₂_iff_get.1 hf).2 y (by rw [hf.length_eq]; exact hy) hy
    simp only [List.get_eq_getElem, Round1.answer, Res.bind_eq_ok, Res.mapErr_eq_ok, Res.ok.injEq] at hb
    obtain ⟨_, -, _, -, _, -, g, hgb, w, -, e⟩ := hb
    rw [← e, ← hg]
    obtain ⟨-, -, rfl⟩ := MessageB.b_ok_iff.1 hgb
    rfl
  · intro d hd
    obtain ⟨v, rk, qk, r', out, -, hst, hfn, hx⟩ := sent_fn (k := 3) (f := M.M4) hnew ops (fun _ => rfl) hd
    change Round3.proceed rk (v 3) = .ok (r', out) at hfn
    rw [← straight_gamma.2.2 hst]
    simp only [Round3.proceed, Res.bind_eq_ok] at hfn
    obtain ⟨_, -, _, -, hfn⟩ := hfn
    split_ifs at hfn
    simp only [Res.ok.injEq] at hfn
    obtain ⟨-, rfl⟩ := hfn
    have hx := (Msg.mk.inj (List.mem_singleton.1 hx)).2.2
    rw [hx]

end GG20.Sign

end Verif
