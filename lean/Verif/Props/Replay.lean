import Verif.Props.Network
import Verif.Props.Managers
import Verif.Props.SignChecks
import Verif.Lemmas.KeygenAgree
import Verif.Lemmas.KeygenEquiv

/-!
# Replaying the messages of an earlier session (C105)

Messages carry no session identifier.  Two machines `s` and `s'` of the same party, with random values `rnd`
and `rnd'`, and two histories in which messages of the first session are delivered again in the second.
-/

namespace Verif.Props

open EC Crypto GG20 Spec

section

variable [Crypto]

omit [Crypto] in
private theorem sum_own {α : Type} [AddCommMonoid α] {n k : ℕ} (hk : k < n) (own : α) (f : ℕ → α) :
    ((List.range n).map (fun j => if j = k then own else f j)).sum =
      own + ((GG20.Sign.others n k).map f).sum := by
  have h := sum_others hk (fun j => if j = k then own else f j)
  rw [if_pos rfl] at h
  rw [sum_map_range_eq]
  refine h.symm.trans ?_
  congr 2
  refine List.map_congr_left fun j hj => ?_
  rw [if_neg (GG20.Sign.mem_others.1 hj).2]

/-- **C105.** Key generation: if the last message of party `p` and the third messages of all other parties
are those of an earlier session, the new session of party `i` gives a key only if its new secret polynomial
takes the same value at `p` as its old one.  (For every choice of the other coefficients that is the case for
exactly one value of the secret.) -/
theorem C105_keygen_replay {rnd rnd' : KeygenRandomness} {i t n : ℕ} {s s' : Keygen.State}
    {r r' : Res Keygen.Error Unit} (hnew : Keygen.new rnd i t n = .ok (s, r))
    (hnew' : Keygen.new rnd' i t n = .ok (s', r')) (ops ops' : List (Op Keygen.M)) {key key' : LocalKey}
    (ho : key ∈ ((Keygen.machine rnd).run s ops).outputs)
    (ho' : key' ∈ ((Keygen.machine rnd').run s' ops').outputs)
    (h3 : ∀ p ∈ peers i n, ∀ b, ⟨p, some i, .Round3 b⟩ ∈ ((Keygen.machine rnd).run s ops).accepted →
      ⟨p, some i, .Round3 b⟩ ∈ ((Keygen.machine rnd').run s' ops').accepted)
    {p : ℕ} (hp : p ∈ peers i n) {pf : DLogProof}
    (h4 : ⟨p, none, .Round4 pf⟩ ∈ ((Keygen.machine rnd).run s ops).accepted)
    (h4' : ⟨p, none, .Round4 pf⟩ ∈ ((Keygen.machine rnd').run s' ops').accepted) :
    evalPoly (rnd.u :: rnd.coefs) (p : Sc) = evalPoly (rnd'.u :: rnd'.coefs) (p : Sc) := by
  obtain ⟨-, habs, h1, h2, hn, -, ht⟩ := Keygen.new_ok hnew
  obtain ⟨-, habs', -⟩ := Keygen.new_ok hnew'
  obtain ⟨p1, p2, p3⟩ := mem_peers.1 hp
  obtain ⟨b1, b2, b3, b4, hb, hl⟩ := C22_output_correct hnew ops ho
  obtain ⟨c1, c2, c3, c4, hc, hl'⟩ := C22_output_correct hnew' ops' ho'
  have uniq := ((Keygen.sim rnd).accepted_spec habs h1 h2 ops).2
  have uniq' := ((Keygen.sim rnd').accepted_spec habs' h1 h2 ops').2
  have e4 : b4 p = pf := by
    have := uniq _ (hb p hp).2.2.2 _ h4 rfl rfl
    simpa using this
  have e4' : c4 p = pf := by
    have := uniq' _ (hc p hp).2.2.2 _ h4' rfl rfl
    simpa using this
  have e3 : ∀ x ∈ peers i n, b3 x = c3 x := by
    intro x hx
    have := uniq' _ (h3 x hx _ (hb x hx).2.2.1) _ (hc x hx).2.2.1 rfl rfl
    simpa using this
  obtain ⟨k, rfl⟩ : ∃ k, i = k + 1 := ⟨i - 1, by omega⟩
  obtain ⟨bcs, ys, all, pfs, hs⟩ := Keygen.keygenLine_seen ht (by omega) (congrArg Prod.snd hl)
  obtain ⟨bcs', ys', all', pfs', hs'⟩ := Keygen.keygenLine_seen ht (by omega) (congrArg Prod.snd hl')
  obtain ⟨q, hq1, -, hq2⟩ := hs.proofs (p - 1) (by omega)
  obtain ⟨q', hq1', -, hq2'⟩ := hs'.proofs (p - 1) (by omega)
  rw [hs.pfs_eq, Keygen.assemble_get _ _ (by omega), if_neg (by omega), Nat.sub_add_cancel p1,
    Option.some.injEq, e4] at hq1
  rw [hs'.pfs_eq, Keygen.assemble_get _ _ (by omega), if_neg (by omega), Nat.sub_add_cancel p1,
    Option.some.injEq, e4'] at hq1'
  subst hq1
  subst hq1'
  rw [hq2, Nat.sub_add_cancel p1, hs.all_eq, hs'.all_eq, List.map_map, List.map_map] at hq2'
  unfold Keygen.assemble at hq2'
  rw [List.map_map, List.map_map] at hq2'
  have split : ∀ (v : Vss × Sc) (b : ℕ → Vss × Sc), ((List.range n).map
      (((fun v : Vss => feldmanEval v.commitments (p : Sc)) ∘ Prod.fst) ∘
        fun j => if j = k then v else b (j + 1))).sum =
      feldmanEval v.1.commitments (p : Sc) +
        ((GG20.Sign.others n k).map (fun j => feldmanEval (b (j + 1)).1.commitments (p : Sc))).sum := by
    intro v b
    rw [← sum_own (n := n) (k := k) (by omega)]
    congr 1
    refine List.map_congr_left fun j _ => ?_
    simp only [Function.comp]
    split <;> rfl
  rw [split, split] at hq2'
  have eo : (GG20.Sign.others n k).map (fun j => feldmanEval (b3 (j + 1)).1.commitments (p : Sc)) =
      (GG20.Sign.others n k).map (fun j => feldmanEval (c3 (j + 1)).1.commitments (p : Sc)) := by
    refine List.map_congr_left fun j hj => ?_
    obtain ⟨a, b⟩ := GG20.Sign.mem_others.1 hj
    rw [e3 (j + 1) (mem_peers.2 ⟨by omega, by omega, by omega⟩)]
  rw [eo, add_left_inj] at hq2'
  simp only [feldmanEval_map] at hq2'
  exact smul_G_inj.1 hq2'

/-- C105: if only the last message of party `p` is the one of an earlier session, whatever else is sent, then
the new key assigns to `p` the public share it had in the old one. -/
theorem C105_keygen_replay_one {rnd rnd' : KeygenRandomness} {i t n : ℕ} {s s' : Keygen.State}
    {r r' : Res Keygen.Error Unit} (hnew : Keygen.new rnd i t n = .ok (s, r))
    (hnew' : Keygen.new rnd' i t n = .ok (s', r')) (ops ops' : List (Op Keygen.M)) {key key' : LocalKey}
    (ho : key ∈ ((Keygen.machine rnd).run s ops).outputs)
    (ho' : key' ∈ ((Keygen.machine rnd').run s' ops').outputs)
    {p : ℕ} (hp : p ∈ peers i n) {pf : DLogProof}
    (h4 : ⟨p, none, .Round4 pf⟩ ∈ ((Keygen.machine rnd).run s ops).accepted)
    (h4' : ⟨p, none, .Round4 pf⟩ ∈ ((Keygen.machine rnd').run s' ops').accepted) :
    key.pk_vec[p - 1]? = some pf.pk ∧ key'.pk_vec[p - 1]? = some pf.pk := by
  have main : ∀ {rnd : KeygenRandomness} {s : Keygen.State} {r : Res Keygen.Error Unit}
      (_ : Keygen.new rnd i t n = .ok (s, r)) (ops : List (Op Keygen.M)) {key : LocalKey}
      (_ : key ∈ ((Keygen.machine rnd).run s ops).outputs)
      (_ : ⟨p, none, .Round4 pf⟩ ∈ ((Keygen.machine rnd).run s ops).accepted),
      key.pk_vec[p - 1]? = some pf.pk := by
    intro rnd s r hnew ops key ho h4
    obtain ⟨-, habs, h1, h2, hn, -, ht⟩ := Keygen.new_ok hnew
    obtain ⟨p1, p2, p3⟩ := mem_peers.1 hp
    obtain ⟨b1, b2, b3, b4, hb, hl⟩ := C22_output_correct hnew ops ho
    have uniq := ((Keygen.sim rnd).accepted_spec habs h1 h2 ops).2
    have e4 : b4 p = pf := by
      have := uniq _ (hb p hp).2.2.2 _ h4 rfl rfl
      simpa using this
    obtain ⟨k, rfl⟩ : ∃ k, i = k + 1 := ⟨i - 1, by omega⟩
    obtain ⟨bcs, ys, all, pfs, hs⟩ := Keygen.keygenLine_seen ht (by omega) (congrArg Prod.snd hl)
    rw [hs.pk_vec, List.getElem?_map, hs.pfs_eq, Keygen.assemble_get _ _ (by omega), if_neg (by omega),
      Nat.sub_add_cancel p1, e4]
    rfl
  exact ⟨main hnew ops ho h4, main hnew' ops' ho' h4'⟩

/-- C105: the first three messages are not tied to a session.  When party `i`, with fresh random values, gets
the messages that honest parties sent in an earlier session, in any order, it answers all of them, up to and
including its own last message. -/
theorem C105_first_rounds_replayed {t n : ℕ} {rnd : ℕ → KeygenRandomness}
    (hon : ∀ k < n, Keygen.HonestRandomness t (rnd k)) {rnd' : KeygenRandomness}
    (hon' : Keygen.HonestRandomness t rnd') {i : ℕ} {s : Keygen.State} {r : Res Keygen.Error Unit}
    (hnew : Keygen.new rnd' i t n = .ok (s, r)) :
    ∃ b1 b2 b3 b4 key, (keygenLine (rnd (i - 1)) i t n b1 b2 b3 b4).2 = .ok key ∧
      ∀ ops, KeygenSchedule i n b1 b2 b3 b4 ops → ∃ pf, ⟨i, none, .Round4 pf⟩ ∈
        (Keygen.machine rnd').sent ((Keygen.machine rnd').run s (ops ++ [.proceed])) := by
  obtain ⟨-, -, h1, h2, h3, h4, h5⟩ := Keygen.new_ok hnew
  obtain ⟨k, rfl⟩ : ∃ k, i = k + 1 := ⟨i - 1, by omega⟩
  simp only [Nat.add_sub_cancel]
  have hk : k < n := by omega
  have hline := Keygen.dealers_line (t := t) (n := n) h5 (rnd := rnd) (fun k hk => ⟨t, hon k hk⟩)
    (fun k hk => by rw [(hon k hk).coefs_len, (hon 0 (by omega)).coefs_len]) hk
  refine ⟨_, _, _, _, _, congrArg Prod.snd hline, fun ops hs => ?_⟩
  obtain ⟨hsent, -⟩ := C20_any_schedule hnew hs
  rw [hsent]
  -- the session in which everybody but party `k + 1` repeats itself
  let R := Function.update rnd k rnd'
  have hR : ∀ j < n, Keygen.HonestRandomness t (R j) := by
    intro j hj
    by_cases hjk : j = k
    · rw [hjk]; simp only [R, Function.update_self]; exact hon'
    · simp only [R, Function.update_of_ne hjk]; exact hon j hj
  have hRk : R k = rnd' := Function.update_self ..
  have hRj : ∀ j, j ≠ k → R j = rnd j := fun j hj => Function.update_of_ne hj ..
  have hr1 := Keygen.honest_round1 (t := t) (rnd := R) hk
  have hr2 := Keygen.honest_round2 h5 hR hk
  have hr3 := Keygen.honest_round3 (t := t) (rnd := R) (by omega) hk
  rw [← peers_map] at hr1 hr2 hr3
  have m1 : (peers (k + 1) n).map (fun p => Keygen.rBc rnd (p - 1)) =
      (peers (k + 1) n).map (fun p => Keygen.rBc R (p - 1)) := by
    refine List.map_congr_left fun p hp => ?_
    obtain ⟨p1, -, p3⟩ := mem_peers.1 hp
    unfold Keygen.rBc Keygen.rKeys
    rw [hRj (p - 1) (by omega)]
  have m2 : (peers (k + 1) n).map (fun p => Keygen.rDec rnd (p - 1)) =
      (peers (k + 1) n).map (fun p => Keygen.rDec R (p - 1)) := by
    refine List.map_congr_left fun p hp => ?_
    obtain ⟨p1, -, p3⟩ := mem_peers.1 hp
    unfold Keygen.rDec Keygen.rKeys
    rw [hRj (p - 1) (by omega)]
  have m3 : (peers (k + 1) n).map (fun p => (Keygen.rVss t n rnd (p - 1), Keygen.rShare rnd (p - 1) k)) =
      (peers (k + 1) n).map (fun p => (Keygen.rVss t n R (p - 1), Keygen.rShare R (p - 1) k)) := by
    refine List.map_congr_left fun p hp => ?_
    obtain ⟨p1, -, p3⟩ := mem_peers.1 hp
    unfold Keygen.rVss Keygen.rShare
    rw [hRj (p - 1) (by omega)]
  have hr0 := Keygen.honest_round0 t n R k
  rw [hRk] at hr0 hr2 hr3
  refine ⟨Keygen.rPf n R k, ?_⟩
  simp only [keygenLine, m1, m2, m3, Script.step, hr0, hr1, hr2, hr3, sending, Res.bind_ok]
  split <;> simp [Msg.mapBody]

/-- **C105.** Offline stage: if one signer's answer to the encrypted nonce (round 2) is the one of an
earlier session, the new session of the same signer, with the same key and signers, gives a result only if it
drew the same nonce share again, or the signer that is replayed has the share 0 and used the mask 0. -/
theorem C105_offline_replay {rnd rnd' : SignRandomness} {i : ℕ} {s_l : List ℕ} {key : LocalKey}
    {s s' : Sign.State} (hnew : Sign.new i s_l key = .ok s) (hnew' : Sign.new i s_l key = .ok s')
    (ops ops' : List (Op Sign.M)) {c c' : CompletedOfflineStage}
    (ho : c ∈ ((Sign.machine rnd).run s ops).outputs)
    (ho' : c' ∈ ((Sign.machine rnd').run s' ops').outputs)
    {p : ℕ} (hp : p ∈ peers i s_l.length) {m : MessageB × MessageB}
    (h2 : ⟨p, some i, .M2 m⟩ ∈ ((Sign.machine rnd).run s ops).accepted)
    (h2' : ⟨p, some i, .M2 m⟩ ∈ ((Sign.machine rnd').run s' ops').accepted) :
    c.k_i = c'.k_i ∨ (m.1.b_proof.pk = 0 ∧ m.2.b_proof.pk = 0) := by
  obtain ⟨p1, p2, p3⟩ := mem_peers.1 hp
  have main : ∀ {rnd : SignRandomness} {s : Sign.State} (_ : Sign.new i s_l key = .ok s)
      (ops : List (Op Sign.M)) {c : CompletedOfflineStage}
      (_ : c ∈ ((Sign.machine rnd).run s ops).outputs)
      (_ : ⟨p, some i, .M2 m⟩ ∈ ((Sign.machine rnd).run s ops).accepted),
      ∃ x y, m.1.verify_proofs_get_alpha key.paillier_dk c.k_i = .ok x ∧
        m.2.verify_proofs_get_alpha key.paillier_dk c.k_i = .ok y := by
    intro rnd s hnew ops c ho h2
    obtain ⟨habs, i1, i2, -⟩ := Sign.new_ok (rnd := rnd) hnew
    obtain ⟨b, own, hb, -, -, -, -, -, hc⟩ := C68_finished_has_checked hnew ops ho
    have e : b.b2 p = m := by
      have := ((Sign.sim rnd).accepted_spec habs i1 i2 ops).2 _ (hb p hp).2.1 _ h2 rfl rfl
      simpa using this
    have := hc.answers (p - 1) (by omega) (by omega)
    rw [Nat.sub_add_cancel p1, e] at this
    exact this
  obtain ⟨⟨x1, x2⟩, ⟨y1, y2⟩, hx, hy⟩ := main hnew ops ho h2
  obtain ⟨⟨x1', x2'⟩, ⟨y1', y2'⟩, hx', hy'⟩ := main hnew' ops' ho' h2'
  obtain ⟨a1, a2, -, -, a3⟩ := MessageB.verify_ok_iff.1 hx
  obtain ⟨a1', a2', -, -, a3'⟩ := MessageB.verify_ok_iff.1 hx'
  obtain ⟨d1, d2, -, -, d3⟩ := MessageB.verify_ok_iff.1 hy
  obtain ⟨d1', d2', -, -, d3'⟩ := MessageB.verify_ok_iff.1 hy'
  have fin : ∀ P : Pt, c.k_i • P = c'.k_i • P → c.k_i = c'.k_i ∨ P = 0 := by
    intro P h
    rw [← sub_eq_zero, ← sub_smul, smul_eq_zero_iff] at h
    rcases h with h | h
    · exact .inl (sub_eq_zero.1 h)
    · exact .inr h
  rw [a1', Option.some.injEq] at a1
  rw [d1', Option.some.injEq] at d1
  subst a1 d1
  rw [a2, ← a2', ← a3', add_left_inj] at a3
  rw [d2, ← d2', ← d3', add_left_inj] at d3
  rcases fin _ a3 with h | h
  · exact .inl h
  · rcases fin _ d3 with h' | h'
    · exact .inl h'
    · exact .inr ⟨h, h'⟩

end

/-! ### The hypotheses above are met -/

section

attribute [local instance] Toy.crypto

/-- A list of calls on party 2's machine of two parties: all of party 1's messages, and a pick. -/
def replayOps (b1 : KeyGenBroadcastMessage1) (b2 : KeyGenDecommitMessage1) (b3 : Vss × Sc)
    (b4 : DLogProof) : List (Op Keygen.M) :=
  [.deliver ⟨1, none, .Round1 b1⟩, .deliver ⟨1, none, .Round2 b2⟩, .proceed,
    .deliver ⟨1, some 2, .Round3 b3⟩, .deliver ⟨1, none, .Round4 b4⟩]

theorem replaySchedule (b1 : ℕ → KeyGenBroadcastMessage1) (b2 : ℕ → KeyGenDecommitMessage1)
    (b3 : ℕ → Vss × Sc) (b4 : ℕ → DLogProof) :
    KeygenSchedule 2 2 b1 b2 b3 b4 (replayOps (b1 1) (b2 1) (b3 1) (b4 1)) where
  noPick := by simp [replayOps]
  genuine := by
    intro m hm he
    simp only [replayOps, List.mem_cons, Op.deliver.injEq, reduceCtorEq, List.not_mem_nil, or_false,
      false_or] at hm
    rcases hm with rfl | rfl | rfl | rfl <;> rfl
  complete := by
    intro p hp
    have : peers 2 2 = [1] := by decide
    rw [this] at hp
    simp only [List.mem_cons, List.not_mem_nil, or_false] at hp
    subst hp
    simp [replayOps]

/-- What a session with an honest party 1 gives to party 2, and what it accepted. -/
theorem replaySession {rnd : ℕ → KeygenRandomness} (hon : ∀ k, Keygen.HonestRandomness 1 (rnd k)) :
    ∃ s key, Keygen.new (rnd 1) 2 1 2 = .ok (s, .ok ()) ∧
      let b1 := Keygen.rBc rnd 0
      let b2 := Keygen.rDec rnd 0
      let b3 := (Keygen.rVss 1 2 rnd 0, Keygen.rShare rnd 0 1)
      let b4 := Keygen.rPf 2 rnd 0
      let h := (Keygen.machine (rnd 1)).run s ((replayOps b1 b2 b3 b4 ++ [.proceed]) ++ [.pick])
      key ∈ h.outputs ∧ (∀ b, ⟨1, some 2, .Round3 b⟩ ∈ h.accepted ↔ b = b3) ∧
      ∀ b, ⟨1, none, .Round4 b⟩ ∈ h.accepted ↔ b = b4 := by
  obtain ⟨s, hs⟩ := (C19_new_accepts (rnd 1) 2 1 2).2 ⟨by decide, by decide, by decide, by decide⟩
  have hline := Keygen.dealers_line (t := 1) (n := 2) (by decide) (rnd := rnd) (fun k _ => ⟨1, hon k⟩)
    (fun k _ => by rw [(hon k).coefs_len, (hon 0).coefs_len]) (k := 1) (by decide)
  have ho := C20_any_schedule hs (replaySchedule (fun p => Keygen.rBc rnd (p - 1))
    (fun p => Keygen.rDec rnd (p - 1))
    (fun p => (Keygen.rVss 1 2 rnd (p - 1), Keygen.rShare rnd (p - 1) 1))
    (fun p => Keygen.rPf 2 rnd (p - 1)))
  rw [hline] at ho
  obtain ⟨-, o1, -, o2, o3, o4, o5⟩ := ho
  obtain ⟨-, p2, -⟩ := toyPick o1 o2 o3 o4 o5
  refine ⟨s, Keygen.rKey 1 2 rnd 1, hs, ?_⟩
  dsimp only
  have hk : Keygen.rKey 1 2 rnd 1 ∈ ((Keygen.machine (rnd 1)).run s
      ((replayOps (Keygen.rBc rnd 0) (Keygen.rDec rnd 0) (Keygen.rVss 1 2 rnd 0, Keygen.rShare rnd 0 1)
        (Keygen.rPf 2 rnd 0) ++ [.proceed]) ++ [.pick])).outputs := by
    rw [show ((Keygen.machine (rnd 1)).run s
      ((replayOps (Keygen.rBc rnd 0) (Keygen.rDec rnd 0) (Keygen.rVss 1 2 rnd 0, Keygen.rShare rnd 0 1)
        (Keygen.rPf 2 rnd 0) ++ [.proceed]) ++ [.pick])).outputs = _ from p2]
    exact List.mem_singleton.2 rfl
  refine ⟨hk, ?_⟩
  obtain ⟨b1, b2, b3, b4, hb, -⟩ := C22_output_correct hs _ hk
  obtain ⟨-, -, e3, e4⟩ := hb 1 (by decide)
  have d3 : ∀ b, ⟨1, some 2, .Round3 b⟩ ∈ ((Keygen.machine (rnd 1)).run s
      ((replayOps (Keygen.rBc rnd 0) (Keygen.rDec rnd 0) (Keygen.rVss 1 2 rnd 0, Keygen.rShare rnd 0 1)
        (Keygen.rPf 2 rnd 0) ++ [.proceed]) ++ [.pick])).accepted →
      b = (Keygen.rVss 1 2 rnd 0, Keygen.rShare rnd 0 1) := by
    intro b h
    have := accepted_delivered _ _ _ _ h
    simpa [replayOps] using this
  have d4 : ∀ b, ⟨1, none, .Round4 b⟩ ∈ ((Keygen.machine (rnd 1)).run s
      ((replayOps (Keygen.rBc rnd 0) (Keygen.rDec rnd 0) (Keygen.rVss 1 2 rnd 0, Keygen.rShare rnd 0 1)
        (Keygen.rPf 2 rnd 0) ++ [.proceed]) ++ [.pick])).accepted → b = Keygen.rPf 2 rnd 0 := by
    intro b h
    have := accepted_delivered _ _ _ _ h
    simpa [replayOps] using this
  exact ⟨fun b => ⟨d3 b, fun h => (h.trans (d3 _ e3).symm) ▸ e3⟩,
    fun b => ⟨d4 b, fun h => (h.trans (d4 _ e4).symm) ▸ e4⟩⟩

/-- C105: two sessions of party 2 of 2 with the polynomials `3 + 4 x` and `6 + x`, in which party 1 sends the
same messages; both complete. -/
example : ∃ (rnd rnd' : KeygenRandomness) (s s' : Keygen.State) (ops : List (Op Keygen.M))
    (key key' : LocalKey) (b : DLogProof), rnd.u ≠ rnd'.u ∧
    Keygen.new rnd 2 1 2 = .ok (s, .ok ()) ∧ Keygen.new rnd' 2 1 2 = .ok (s', .ok ()) ∧
    key ∈ ((Keygen.machine rnd).run s ops).outputs ∧ key' ∈ ((Keygen.machine rnd').run s' ops).outputs ∧
    (∀ p ∈ peers 2 2, ∀ b, ⟨p, some 2, .Round3 b⟩ ∈ ((Keygen.machine rnd).run s ops).accepted →
      ⟨p, some 2, .Round3 b⟩ ∈ ((Keygen.machine rnd').run s' ops).accepted) ∧
    ⟨1, none, .Round4 b⟩ ∈ ((Keygen.machine rnd).run s ops).accepted ∧
    ⟨1, none, .Round4 b⟩ ∈ ((Keygen.machine rnd').run s' ops).accepted := by
  obtain ⟨r0, h0, u0, c0⟩ := honestRandomness_exists 1 (5 : ZMod 31) [(7 : ZMod 31)] rfl
  obtain ⟨r1, h1, u1, c1⟩ := honestRandomness_exists 1 (3 : ZMod 31) [(4 : ZMod 31)] rfl
  obtain ⟨r2, h2, u2, c2⟩ := honestRandomness_exists 1 (6 : ZMod 31) [(1 : ZMod 31)] rfl
  let A : ℕ → KeygenRandomness := fun k => if k = 0 then r0 else r1
  let B : ℕ → KeygenRandomness := fun k => if k = 0 then r0 else r2
  have hA : ∀ k, Keygen.HonestRandomness 1 (A k) := by intro k; simp only [A]; split <;> assumption
  have hB : ∀ k, Keygen.HonestRandomness 1 (B k) := by intro k; simp only [B]; split <;> assumption
  obtain ⟨s, key, a1, a2, a3, a4⟩ := replaySession hA
  obtain ⟨s', key', e1, e2, e3, e4⟩ := replaySession hB
  have hx : Keygen.rX 2 A 0 = Keygen.rX 2 B 0 := by
    simp only [Keygen.rX, Keygen.rShare, A, B, List.range_succ, List.range_zero, List.nil_append,
      List.cons_append, List.map_cons, List.map_nil, u0, c0, u1, c1, u2, c2, if_true,
      if_neg Nat.one_ne_zero]
    decide
  have hpf : Keygen.rPf 2 A 0 = Keygen.rPf 2 B 0 := by
    unfold Keygen.rPf
    rw [hx]
    rfl
  rw [← hpf] at e2 e3 e4
  refine ⟨A 1, B 1, s, s', _, key, key', _, ?_, a1, e1, a2, e2, ?_, (a4 _).2 rfl, (e4 _).2 rfl⟩
  · show r1.u ≠ r2.u
    rw [u1, u2]; decide
  · intro p hp b hb
    have : peers 2 2 = [1] := by decide
    rw [this, List.mem_singleton] at hp
    subst hp
    exact (e3 b).2 ((a3 b).1 hb)

/-- C105: the offline stage of C50's example, replayed to a signer that draws the same values. -/
example : ∃ (s : Sign.State) (ops : List (Op Sign.M)) (c : CompletedOfflineStage),
    Sign.new 1 [3, 1] (toyLocal 3) = .ok s ∧
    c ∈ ((Sign.machine (toySign 0)).run s ops).outputs ∧
    ∃ m, ⟨2, some 1, .M2 m⟩ ∈ ((Sign.machine (toySign 0)).run s ops).accepted := by
  obtain ⟨s, c, hs, hc⟩ := toy_outputs
  have hk := hc.symm ▸ List.mem_singleton.2 rfl
  obtain ⟨b, hb, -⟩ := C50_output_correct hs _ hk
  exact ⟨s, _, c, hs, hk, _, (hb 2 (by decide)).2.1⟩

end

end Verif.Props
