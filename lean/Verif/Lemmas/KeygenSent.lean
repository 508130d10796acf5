import Verif.Lemmas.SentRounds
import Verif.Lemmas.KeygenBlame
import Verif.Lemmas.KeygenSMSpec

/-! # Where the messages of key generation come from -/

namespace Verif.GG20.Keygen

open EC Crypto Spec

variable [Crypto]

/-- Where a message of round `k + 1` comes from. -/
theorem sent_fn {rnd : KeygenRandomness} {i t n : ℕ} {s : State} {r : Res Error Unit}
    (hnew : Keygen.new rnd i t n = .ok (s, r)) (ops : List (Op M)) {k a : ℕ} {p : Option ℕ} {f : Bd (k + 1) → M}
    (hf : ∀ b, tagM rnd (f b) = ⟨k + 1, b⟩) {m : Bd (k + 1)}
    (hm : ⟨a, p, f m⟩ ∈ (machine rnd).sent ((machine rnd).run s ops)) :
    ∃ (v : (k : ℕ) → List ((proto rnd).Bd k)) (rk : (proto rnd).St k) (qk : List (Msg (proto rnd).Body))
      (r' : (proto rnd).St (k + 1)) (out : List (Msg (Bd (k + 1)))),
      (∀ j, 1 ≤ j → j ≤ k → ∃ body : ℕ → Bd j, v j = (peers i n).map body ∧
        ∀ p ∈ peers i n,
          (⟨p, if (proto rnd).p2p j then some i else none, ⟨j, body p⟩⟩ : Msg (proto rnd).Body) ∈
          ((machine rnd).run s ops).accepted.map (Msg.mapBody (tagM rnd))) ∧
      (proto rnd).straight (⟨i, t, n⟩ : Round0) v k = .ok (rk, qk) ∧
      fn rnd k rk (if k = 0 then [] else v k) = .ok (r', out) ∧ ⟨a, p, m⟩ ∈ out := by
  obtain ⟨-, habs, h1, h2, hn, -⟩ := new_ok hnew
  obtain ⟨v, l, rk, qk, r', out, hv, hst, hfn, hmem⟩ := (sim rnd).sent_fn habs h1 h2 hn ops hm
  rw [others_eq_peers h1 h2] at hv
  obtain ⟨⟨a, b, c⟩, hx, ex⟩ := List.mem_map.1 hmem
  change (⟨a, b, ⟨l + 1, c⟩⟩ : Msg (proto rnd).Body) = ⟨_, p, tagM rnd (f m)⟩ at ex
  rw [hf] at ex
  simp only [Msg.mk.injEq] at ex
  obtain ⟨rfl, rfl, ec⟩ := ex
  obtain rfl : l = k := Nat.add_right_cancel (Sigma.mk.inj ec).1
  obtain rfl : c = m := eq_of_heq (Sigma.mk.inj ec).2
  exact ⟨v, rk, qk, r', out, hv, hst, hfn, hx⟩

theorem round2_out {rnd : KeygenRandomness} {k t n : ℕ} (ht : t < n) (hk : k < n)
    {v : (j : ℕ) → List ((proto rnd).Bd j)} {b1 : ℕ → KeyGenBroadcastMessage1}
    {b2 : ℕ → KeyGenDecommitMessage1} (e1 : v 1 = (peers (k + 1) n).map b1)
    (e2 : v 2 = (peers (k + 1) n).map b2) {r2 : Round2} {q2}
    (h2 : (proto rnd).straight (⟨k + 1, t, n⟩ : Round0) v 2 = .ok (r2, q2)) {r3 : Round3}
    {out : List (Msg (Vss × Sc))} (h3 : Round2.proceed r2 (v 2) rnd = .ok (r3, out)) :
    r3.party_i = k + 1 ∧ r3.n = n ∧ r3.t = t ∧ r3.y_vec.length = n ∧ (r3.own_vss, r3.own_share) = ownDeal rnd t n k ∧
    out = ((List.range n).filter (fun i => decide (i ≠ k))).map
      (fun i => ⟨k + 1, some (i + 1), ownDeal rnd t n i⟩) := by
  obtain ⟨r1, q1, o2, h1, c2⟩ := Proto.straight_succ (k := 1) h2
  obtain ⟨r0, q0, o1, h0, c1⟩ := Proto.straight_succ (k := 0) h1
  obtain rfl := (Prod.mk.inj (Res.ok.inj h0)).1
  change Round0.proceed ⟨k + 1, t, n⟩ rnd = .ok (r1, o1) at c1
  change Round1.proceed r1 (v 1) = .ok (r2, o2) at c2
  rw [e1] at c2
  rw [e2] at h3
  simp only [Round0.proceed, Res.ok.injEq] at c1
  obtain ⟨rfl, rfl⟩ := Prod.mk.inj c1
  simp only [Round1.proceed, Res.ok.injEq, intoVec_peers hk] at c2
  obtain ⟨rfl, rfl⟩ := Prod.mk.inj c2
  simp only [Round2.proceed, intoVec_peers hk, Res.bind_eq_ok, Res.mapErr_eq_ok] at h3
  obtain ⟨vr, hvr, own, hown, h3⟩ := h3
  rcases phase1_cases (Keys.create (k + 1) rnd.u rnd.dk rnd.aux) ht rnd.coefs
    (assemble_length n k ((Keys.create (k + 1) rnd.u rnd.dk rnd.aux).phase1_broadcast rnd.blind
      rnd.cd1 rnd.cd2).2 b2)
    (assemble_length n k ((Keys.create (k + 1) rnd.u rnd.dk rnd.aux).phase1_broadcast rnd.blind
      rnd.cd1 rnd.cd2).1 b1) with ⟨-, hc⟩ | ⟨_, _, _, _, ⟨-, hc⟩ | ⟨-, hc⟩⟩
  rotate_left
  · rw [hc] at hvr; cases hvr
  · rw [hc] at hvr; cases hvr
  rw [hc, Res.ok.injEq] at hvr
  subst hvr
  simp only [Nat.add_sub_cancel] at hown
  rw [get_map_range hk, Res.ok.injEq] at hown
  subst hown
  simp only [Res.ok.injEq, Prod.mk.injEq] at h3
  obtain ⟨rfl, rfl⟩ := h3
  refine ⟨rfl, rfl, rfl, by rw [List.length_map, assemble_length], rfl, ?_⟩
  rw [deal_messages]
  rfl

theorem round3_out {rnd : KeygenRandomness} {k t n : ℕ} (hk : k < n) {r3 : Round3} (f1 : r3.party_i = k + 1)
    (f2 : r3.n = n) (f3 : r3.t = t) (f4 : r3.y_vec.length = n)
    (f5 : (r3.own_vss, r3.own_share) = ownDeal rnd t n k) {b3 : ℕ → Vss × Sc} {r4 : Round4} {out : List (Msg DLogProof)}
    (h : Round3.proceed r3 ((peers (k + 1) n).map b3) rnd = .ok (r4, out)) :
    out = [⟨k + 1, none, ownPf rnd k t n b3⟩] := by
  simp only [Round3.proceed, f1, f2, f3, f5, intoVec_peers hk, Res.bind_eq_ok, Res.mapErr_eq_ok] at h
  obtain ⟨⟨sk, pf⟩, hsk, c4⟩ := h
  obtain ⟨-, rfl⟩ := Prod.mk.inj (Res.ok.inj c4)
  have hl : (assemble n k (ownDeal rnd t n k) b3).length = n := assemble_length _ _ _ _
  rcases phase2_cases (t := t) (by omega) (k + 1) rnd.dlogNonce f4
    (show ((assemble n k (ownDeal rnd t n k) b3).map Prod.snd).length = n by simpa using hl)
    (show ((assemble n k (ownDeal rnd t n k) b3).map Prod.fst).length = n by simpa using hl) with
    ⟨-, hc2⟩ | ⟨_, _, _, _, _, hc2⟩ | ⟨_, _, _, _, hc2⟩
  rotate_left
  · rw [hc2] at hsk; cases hsk
  · rw [hc2] at hsk; cases hsk
  rw [hc2, Res.ok.injEq, Prod.mk.injEq] at hsk
  rw [← hsk.2]
  rfl

/-- The shares that leave a party are those it deals, one for each of the other parties it knows of. -/
theorem sent_round3 {rnd : KeygenRandomness} {i t n : ℕ} {s : State} {r : Res Error Unit}
    (hnew : Keygen.new rnd i t n = .ok (s, r)) (ops : List (Op M)) {a p : ℕ} {b : Vss × Sc}
    (hm : ⟨a, some p, .Round3 b⟩ ∈ (machine rnd).sent ((machine rnd).run s ops)) :
    1 ≤ p ∧ p ≤ n ∧ p ≠ i ∧ b = ownDeal rnd t n (p - 1) := by
  obtain ⟨-, -, h1, h2, -, -, ht⟩ := new_ok hnew
  obtain ⟨k, rfl⟩ : ∃ k, i = k + 1 := ⟨i - 1, by omega⟩
  obtain ⟨v, r2, q2, r3, out, hv, hst, hfn, hx⟩ := sent_fn (k := 2) (f := M.Round3) hnew ops (fun _ => rfl) hm
  obtain ⟨b1, e1, -⟩ := hv 1 (by decide) (by decide)
  obtain ⟨b2, e2, -⟩ := hv 2 (by decide) (by decide)
  obtain ⟨-, -, -, -, -, rfl⟩ := round2_out ht (by omega) e1 e2 hst hfn
  obtain ⟨j, hj, e⟩ := List.mem_map.1 hx
  simp only [List.mem_filter, List.mem_range, decide_eq_true_eq] at hj
  injection e with _ ep eb
  obtain rfl := Option.some.inj ep
  subst eb
  exact ⟨by omega, by omega, by omega, rfl⟩

/-- The proof of the last round is about the sum of the shares that a party has accepted. -/
theorem sent_round4 {rnd : KeygenRandomness} {i t n : ℕ} {s : State} {r : Res Error Unit}
    (hnew : Keygen.new rnd i t n = .ok (s, r)) (ops : List (Op M)) {a : ℕ} {p : Option ℕ} {b : DLogProof}
    (hm : ⟨a, p, .Round4 b⟩ ∈ (machine rnd).sent ((machine rnd).run s ops)) :
    ∃ b3, (∀ p ∈ peers i n, ⟨p, some i, .Round3 (b3 p)⟩ ∈ ((machine rnd).run s ops).accepted) ∧
      b = ownPf rnd (i - 1) t n b3 := by
  obtain ⟨-, -, h1, h2, -, -, ht⟩ := new_ok hnew
  obtain ⟨k, rfl⟩ : ∃ k, i = k + 1 := ⟨i - 1, by omega⟩
  have hk : k < n := by omega
  obtain ⟨v, r3, q3, r4, out, hv, hst, hfn, hx⟩ := sent_fn (k := 3) (f := M.Round4) hnew ops (fun _ => rfl) hm
  obtain ⟨b1, e1, -⟩ := hv 1 (by decide) (by decide)
  obtain ⟨b2, e2, -⟩ := hv 2 (by decide) (by decide)
  obtain ⟨b3, e3, a3⟩ := hv 3 (by decide) (by decide)
  obtain ⟨r2, q2, o3, h2', c3⟩ := Proto.straight_succ (k := 2) hst
  obtain ⟨f1, f2, f3, f4, f5, -⟩ := round2_out ht hk e1 e2 h2' c3
  refine ⟨b3, fun p hp => ?_, ?_⟩
  · obtain ⟨m', hm', e'⟩ := List.mem_map.1 (a3 p hp)
    rw [← (sim rnd).mapBody_inj (m := m') (m' := ⟨p, some (k + 1), .Round3 (b3 p)⟩) e']
    exact hm'
  · have hfn : Round3.proceed r3 (v 3) rnd = .ok (r4, out) := hfn
    rw [e3] at hfn
    have h := List.mem_singleton.1 (round3_out hk f1 f2 f3 f4 f5 hfn ▸ hx)
    injection h

/-- A party sends one proof in round 4. -/
theorem sent_round4_unique {rnd : KeygenRandomness} {i t n : ℕ} {s : State} {r : Res Error Unit}
    (hnew : Keygen.new rnd i t n = .ok (s, r)) (ops : List (Op M)) {a a' : ℕ} {p p' : Option ℕ} {b b' : DLogProof}
    (hm : ⟨a, p, .Round4 b⟩ ∈ (machine rnd).sent ((machine rnd).run s ops))
    (hm' : ⟨a', p', .Round4 b'⟩ ∈ (machine rnd).sent ((machine rnd).run s ops)) : b = b' := by
  obtain ⟨-, habs, h1, h2, hn, -⟩ := new_ok hnew
  obtain ⟨v, r3, q3, r4, out, -, -, hfn, hx, hx'⟩ := (sim rnd).sent_pair habs h1 h2 hn ops (k := 3)
    (b := b) (b' := b') rfl rfl hm hm'
  have hfn : Round3.proceed r3 (v 3) rnd = .ok (r4, out) := hfn
  simp only [Round3.proceed, Res.bind_eq_ok] at hfn
  obtain ⟨⟨sk, pf⟩, -, c⟩ := hfn
  obtain ⟨-, rfl⟩ := Prod.mk.inj (Res.ok.inj c)
  have e := List.mem_singleton.1 hx
  have e' := List.mem_singleton.1 hx'
  injection e with _ _ e
  injection e' with _ _ e'
  exact Eq.trans e e'.symm

end Verif.GG20.Keygen
