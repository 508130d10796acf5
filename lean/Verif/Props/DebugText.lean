import Verif.Lemmas.Debug
import Verif.Props.KeygenSM
import Verif.Props.SignSM

/-!
# C130: what a key generation or an offline stage prints of itself

`debug` is the `{:?}` text of the machine.  `h` is any history of calls on the machine.
-/

namespace Verif.Props

open EC Crypto GG20 Spec

section

variable [Crypto]

omit [Crypto] in
theorem keygen_cell {β : Type} {o : Option (Store β)} {st : Store β} {count n : ℕ} (e : o = some st)
    (l : st.msgs.length = n - 1) (c : count + st.msgs_left = n - 1) :
    Keygen.received o = s!"[{count}/{n - 1}]" := by
  subst e
  simp only [Keygen.received, Store.messages_received, Store.messages_total, l]
  rw [← c, Nat.add_sub_cancel]

omit [Crypto] in
theorem offline_cell {β : Type} {o : Option (Store β)} {st : Store β} {count n : ℕ} (e : o = some st)
    (l : st.msgs.length = n - 1) (c : count + st.msgs_left = n - 1)
    (d : st.blame.2.length = st.msgs_left) :
    Sign.received (Sign.from_broadcast o) = .ok s!"[{"bc"} {count}/{n - 1}]" ∧
    Sign.received (Sign.from_p2p o) = .ok s!"[{"p2p"} {count}/{n - 1}]" := by
  subst e
  simp only [Sign.received, Sign.from_broadcast, Sign.from_p2p, Store.messages_total]
  rw [l, d, ← c, Nat.add_sub_cancel, if_pos (by omega), if_pos (by omega)]
  exact ⟨rfl, rfl⟩

/-! ### Key generation -/

/-- C130 (key generation): after any calls, the text is put together from the round, the number of peers heard in
each round that is not over, the number of parties and the number of outgoing messages, and all of these are
right: a round whose messages are shown as used up has heard every peer; while the machine runs and when it is
finished those are exactly the rounds before the current one. -/
theorem C130_keygen {rnd : KeygenRandomness} {i t n : ℕ} {s : Keygen.State} {r : Res Keygen.Error Unit}
    (hnew : Keygen.new rnd i t n = .ok (s, r)) (ops : List (Op Keygen.M))
    (hp : ((Keygen.machine rnd).run s ops).panicked = false) :
    let h := (Keygen.machine rnd).run s ops
    let round := (Keygen.machine rnd).current_round h.st
    let finished := (Keygen.machine rnd).is_finished h.st
    let count := heard i n KeygenMsg.round h.accepted
    ∃ used ≤ 4, Keygen.debug h.st = keygenText (keygenRound finished round) used n count
        ((Keygen.machine rnd).message_queue h.st).length ∧
      (∀ j, 1 ≤ j → j ≤ used → count j = n - 1) ∧
      (round ≤ 4 ∨ finished = true → used = round - 1) ∧ (h.outputs ≠ [] → used = 4) := by
  obtain ⟨-, habs, h1, h2, -⟩ := Keygen.new_ok hnew
  obtain ⟨used, hu, hst, hcur, hout⟩ :=
    (Keygen.sim rnd).shown habs h1 h2 (round := KeygenMsg.round) (Keygen.rd_eq rnd) ops hp
  intro h round finished count
  have cell : ∀ j (_ : 1 ≤ j) (_ : j ≤ 4),
      Keygen.received (Keygen.absStores h.st j) = keygenCell used n count j := by
    intro j hj1 hj2
    obtain ⟨a, b⟩ := hst j hj1 hj2
    unfold keygenCell
    by_cases hj : j ≤ used
    · have e : Keygen.absStores h.st j = none := (a hj).1
      rw [if_pos hj, e]; rfl
    · obtain ⟨st, e, l, c, -⟩ := b hj
      rw [if_neg hj]
      exact keygen_cell e l c
  have label : h.st.round.label = keygenRound finished round := by
    show _ = keygenRound (Keygen.is_finished h.st) (Keygen.current_round h.st)
    unfold Keygen.is_finished Keygen.current_round
    cases h.st.round <;> simp only [keygenRound, Keygen.R.label] <;> decide +kernel
  refine ⟨used, hu, ?_, fun j a b => ((hst j a (b.trans hu)).1 b).2, hcur, hout⟩
  unfold Keygen.debug keygenText
  rw [label, ← cell 1 (by omega) (by omega), ← cell 2 (by omega) (by omega), ← cell 3 (by omega) (by omega),
    ← cell 4 (by omega) (by omega)]
  rfl

/-- C130 (key generation): two key generations of as many parties, with any indices, thresholds, random values,
keys and messages, print the same text if they are in the same round, have heard as many peers in each round and
have as many messages to send. -/
theorem C130_keygen_nothing_else {rnd rnd' : KeygenRandomness} {i t i' t' n : ℕ} {s s' : Keygen.State}
    {r r' : Res Keygen.Error Unit} (hnew : Keygen.new rnd i t n = .ok (s, r))
    (hnew' : Keygen.new rnd' i' t' n = .ok (s', r')) (ops ops' : List (Op Keygen.M))
    (hp : ((Keygen.machine rnd).run s ops).panicked = false)
    (hp' : ((Keygen.machine rnd').run s' ops').panicked = false) :
    let h := (Keygen.machine rnd).run s ops
    let h' := (Keygen.machine rnd').run s' ops'
    (Keygen.machine rnd).current_round h.st = (Keygen.machine rnd').current_round h'.st →
    (Keygen.machine rnd).is_finished h.st = (Keygen.machine rnd').is_finished h'.st →
    ((Keygen.machine rnd).current_round h.st ≤ 4 ∨ (Keygen.machine rnd).is_finished h.st = true ∨
      (h.outputs ≠ [] ∧ h'.outputs ≠ [])) →
    (∀ j, heard i n KeygenMsg.round h.accepted j = heard i' n KeygenMsg.round h'.accepted j) →
    ((Keygen.machine rnd).message_queue h.st).length = ((Keygen.machine rnd').message_queue h'.st).length →
    Keygen.debug h.st = Keygen.debug h'.st := by
  intro h h' e1 e2 hrun e3 e4
  obtain ⟨u, -, a, -, b, c⟩ := C130_keygen hnew ops hp
  obtain ⟨u', -, a', -, b', c'⟩ := C130_keygen hnew' ops' hp'
  have hu : u = u' := by
    rcases hrun with x | x | x
    · exact (b (.inl x)).trans ((congrArg (· - 1) e1).trans (b' (.inl (e1 ▸ x))).symm)
    · exact (b (.inr x)).trans ((congrArg (· - 1) e1).trans (b' (.inr (e2 ▸ x))).symm)
    · exact (c x.1).trans (c' x.2).symm
  have e3 : heard i n KeygenMsg.round h.accepted = heard i' n KeygenMsg.round h'.accepted := funext e3
  refine a.trans (Eq.trans ?_ a'.symm)
  show keygenText (keygenRound ((Keygen.machine rnd).is_finished h.st) ((Keygen.machine rnd).current_round h.st))
    u n (heard i n KeygenMsg.round h.accepted) ((Keygen.machine rnd).message_queue h.st).length = _
  rw [hu, e1, e2, e3, e4]

/-! ### Offline stage -/

/-- C130 (offline stage): the same for the rounds 1 to 5; the text is always produced.  Missing: the messages of
round 6 are not shown at all. -/
theorem C130_offline_partial {rnd : SignRandomness} {i : ℕ} {s_l : List ℕ} {key : LocalKey} {s : Sign.State}
    (hnew : Sign.new i s_l key = .ok s) (ops : List (Op Sign.M))
    (hp : ((Sign.machine rnd).run s ops).panicked = false) :
    let h := (Sign.machine rnd).run s ops
    let round := (Sign.machine rnd).current_round h.st
    let finished := (Sign.machine rnd).is_finished h.st
    let count := heard i s_l.length SignMsg.round h.accepted
    ∃ used ≤ 6, Sign.debug h.st = .ok (offlineText (offlineRound finished round) used s_l.length count
        ((Sign.machine rnd).message_queue h.st).length) ∧
      (∀ j, 1 ≤ j → j ≤ used → count j = s_l.length - 1) ∧
      (round ≤ 6 ∨ finished = true → used = round - 1) ∧ (h.outputs ≠ [] → used = 6) := by
  obtain ⟨habs, h1, h2, -⟩ := Sign.new_ok (rnd := rnd) hnew
  obtain ⟨used, hu, hst, hcur, hout⟩ :=
    (Sign.sim rnd).shown habs h1 h2 (round := SignMsg.round) (Sign.rd_eq rnd) ops hp
  intro h round finished count
  have cell : ∀ j (_ : 1 ≤ j) (_ : j ≤ 6),
      Sign.received (Sign.from_broadcast (Sign.absStores h.st j)) =
        .ok (offlineCell "bc" used s_l.length count j) ∧
      Sign.received (Sign.from_p2p (Sign.absStores h.st j)) =
        .ok (offlineCell "p2p" used s_l.length count j) := by
    intro j hj1 hj2
    obtain ⟨a, b⟩ := hst j hj1 hj2
    unfold offlineCell
    by_cases hj : j ≤ used
    · have e : Sign.absStores h.st j = none := (a hj).1
      rw [if_pos hj, if_pos hj, e]; exact ⟨rfl, rfl⟩
    · obtain ⟨st, e, l, c, d⟩ := b hj
      rw [if_neg hj, if_neg hj]
      exact offline_cell e l c d
  have label : h.st.round.label = offlineRound finished round := by
    show _ = offlineRound (Sign.is_finished h.st) (Sign.current_round h.st)
    unfold Sign.is_finished Sign.current_round
    cases h.st.round <;> simp only [offlineRound, Sign.R.label] <;> decide +kernel
  refine ⟨used, hu, ?_, fun j a b => ((hst j a (b.trans hu)).1 b).2, hcur, hout⟩
  have c1 : Sign.received (Sign.from_broadcast h.st.msgs1) = .ok (offlineCell "bc" used s_l.length count 1) :=
    (cell 1 (by omega) (by omega)).1
  have c2 : Sign.received (Sign.from_p2p h.st.msgs2) = .ok (offlineCell "p2p" used s_l.length count 2) :=
    (cell 2 (by omega) (by omega)).2
  have c3 : Sign.received (Sign.from_broadcast h.st.msgs3) = .ok (offlineCell "bc" used s_l.length count 3) :=
    (cell 3 (by omega) (by omega)).1
  have c4 : Sign.received (Sign.from_broadcast h.st.msgs4) = .ok (offlineCell "bc" used s_l.length count 4) :=
    (cell 4 (by omega) (by omega)).1
  have c5 : Sign.received (Sign.from_broadcast h.st.msgs5) = .ok (offlineCell "bc" used s_l.length count 5) :=
    (cell 5 (by omega) (by omega)).1
  unfold Sign.debug offlineText
  rw [c1, c2, c3, c4, c5, label]
  rfl

/-- C130 (offline stage): two offline stages of as many signers, with any signers, keys, random values and
messages, print the same text if they are in the same round, have heard as many peers in each round and have as
many messages to send. -/
theorem C130_offline_nothing_else {rnd rnd' : SignRandomness} {i i' : ℕ} {s_l s_l' : List ℕ}
    {key key' : LocalKey} {s s' : Sign.State} (hnew : Sign.new i s_l key = .ok s)
    (hnew' : Sign.new i' s_l' key' = .ok s') (hlen : s_l.length = s_l'.length) (ops ops' : List (Op Sign.M))
    (hp : ((Sign.machine rnd).run s ops).panicked = false)
    (hp' : ((Sign.machine rnd').run s' ops').panicked = false) :
    let h := (Sign.machine rnd).run s ops
    let h' := (Sign.machine rnd').run s' ops'
    (Sign.machine rnd).current_round h.st = (Sign.machine rnd').current_round h'.st →
    (Sign.machine rnd).is_finished h.st = (Sign.machine rnd').is_finished h'.st →
    ((Sign.machine rnd).current_round h.st ≤ 6 ∨ (Sign.machine rnd).is_finished h.st = true ∨
      (h.outputs ≠ [] ∧ h'.outputs ≠ [])) →
    (∀ j, heard i s_l.length SignMsg.round h.accepted j = heard i' s_l'.length SignMsg.round h'.accepted j) →
    ((Sign.machine rnd).message_queue h.st).length = ((Sign.machine rnd').message_queue h'.st).length →
    Sign.debug h.st = Sign.debug h'.st := by
  intro h h' e1 e2 hrun e3 e4
  obtain ⟨u, -, a, -, b, c⟩ := C130_offline_partial hnew ops hp
  obtain ⟨u', -, a', -, b', c'⟩ := C130_offline_partial hnew' ops' hp'
  have hu : u = u' := by
    rcases hrun with x | x | x
    · exact (b (.inl x)).trans ((congrArg (· - 1) e1).trans (b' (.inl (e1 ▸ x))).symm)
    · exact (b (.inr x)).trans ((congrArg (· - 1) e1).trans (b' (.inr (e2 ▸ x))).symm)
    · exact (c x.1).trans (c' x.2).symm
  have e3 : heard i s_l.length SignMsg.round h.accepted = heard i' s_l'.length SignMsg.round h'.accepted :=
    funext e3
  refine a.trans (Eq.trans ?_ a'.symm)
  show Res.ok (offlineText (offlineRound ((Sign.machine rnd).is_finished h.st)
    ((Sign.machine rnd).current_round h.st)) u s_l.length (heard i s_l.length SignMsg.round h.accepted)
    ((Sign.machine rnd).message_queue h.st).length) = _
  rw [hu, e1, e2, e3, e4, hlen]

/-- C130 is violated for round 6 of the offline stage: a message of round 6 is accepted and the text stays as it
was. -/
theorem C130_offline_violated {rnd : SignRandomness} {s : Sign.State} {key : LocalKey} (b : Pt × HomoElGamalProof)
    (hnew : Sign.new 1 [3, 1] key = .ok s) :
    let h := (Sign.machine rnd).run s [.deliver ⟨2, none, .M6 b⟩]
    h.panicked = false ∧ heard 1 2 SignMsg.round h.accepted 6 = 1 ∧ Sign.debug h.st = Sign.debug s := by
  unfold Sign.new at hnew
  split_ifs at hnew
  simp only [Except.ok.injEq] at hnew
  subst hnew
  have hh : ∀ s : Sign.State, s.round = .R0 ⟨1, [3, 1], key⟩ →
      s.msgs6 = some (Store.new (Pt × HomoElGamalProof) false 1 2) →
      Sign.handle_incoming rnd s ⟨2, none, .M6 b⟩ =
        ({ s with msgs6 := some ⟨1, false, [some b], 0⟩ }, .ok ()) := by
    intro s hr h6
    simp only [Sign.handle_incoming, h6]
    rw [show (Store.new (Pt × HomoElGamalProof) false 1 2).push_msg ⟨2, none, b⟩ =
      .ok ⟨1, false, [some b], 0⟩ from rfl]
    simp only
    rw [Sign.proceed_round_0 (r := ⟨1, [3, 1], key⟩)
      (s := { s with msgs6 := some ⟨1, false, [some b], 0⟩ }) hr,
      if_neg (by simp [Sign.Round0.is_expensive])]
  have hm : ∀ s m, (Sign.machine rnd).handle_incoming s m = Sign.handle_incoming rnd s m := fun _ _ => rfl
  simp only [StateMachine.run, List.foldl_cons, List.foldl_nil, StateMachine.step, hm]
  rw [if_neg (by simp), hh _ rfl rfl]
  refine ⟨rfl, ?_, rfl⟩
  simp [StateMachine.takes, StateMachine.record, heard, SignMsg.round, peers, List.range']

end

/-! ### Examples -/

theorem offline_not_finished [Crypto] {rnd : SignRandomness} {st : Sign.State}
    (hc : (Sign.machine rnd).current_round st ≤ 6) : (Sign.machine rnd).is_finished st = false := by
  revert hc
  show Sign.current_round _ ≤ 6 → Sign.is_finished _ = false
  unfold Sign.current_round Sign.is_finished
  cases st.round <;> simp

section Examples

variable [Crypto] (rnd : KeygenRandomness) (b1 : ℕ → KeyGenBroadcastMessage1)

/-- C130: party 2 of 3 in round 1, with the message of party 1: the text in full. -/
example {s : Keygen.State} (hnew : Keygen.new rnd 2 1 3 = .ok (s, .ok ())) :
    let h := (Keygen.machine rnd).run s [.proceed, .deliver ⟨1, none, .Round1 (b1 1)⟩]
    Keygen.debug h.st = "{Keygen at round=1 msgs1=[1/2] msgs2=[0/2] msgs3=[0/2] msgs4=[0/2]" ++
      s!" queue=[len={((Keygen.machine rnd).message_queue h.st).length}]}" := by
  obtain ⟨hp, -, -, ha, hc, -⟩ := run_213 rnd b1 hnew
  obtain ⟨used, -, e, -, hu, -⟩ := C130_keygen hnew _ hp
  have hf : (Keygen.machine rnd).is_finished
      ((Keygen.machine rnd).run s [.proceed, .deliver ⟨1, none, .Round1 (b1 1)⟩]).st = false := by
    revert hc
    show Keygen.current_round _ = 1 → Keygen.is_finished _ = false
    unfold Keygen.current_round Keygen.is_finished
    cases ((Keygen.machine rnd).run s [.proceed, .deliver ⟨1, none, .Round1 (b1 1)⟩]).st.round <;> simp
  rw [hc] at hu
  have hu : used = 0 := hu (.inl (by decide))
  simp only [hc, hf, hu, ha] at e
  intro h
  rw [e]
  unfold keygenText
  congr 1
  have h1 : heard 2 3 KeygenMsg.round [(⟨1, none, .Round1 (b1 1)⟩ : Msg Keygen.M)] 1 = 1 := rfl
  have h2 : heard 2 3 KeygenMsg.round [(⟨1, none, .Round1 (b1 1)⟩ : Msg Keygen.M)] 2 = 0 := rfl
  have h3 : heard 2 3 KeygenMsg.round [(⟨1, none, .Round1 (b1 1)⟩ : Msg Keygen.M)] 3 = 0 := rfl
  have h4 : heard 2 3 KeygenMsg.round [(⟨1, none, .Round1 (b1 1)⟩ : Msg Keygen.M)] 4 = 0 := rfl
  simp only [keygenCell, h1, h2, h3, h4]
  decide +kernel

/-- C130: two key generations with different random values and messages meet the hypotheses. -/
example (rnd' : KeygenRandomness) (b1' : ℕ → KeyGenBroadcastMessage1) {s s' : Keygen.State}
    (hnew : Keygen.new rnd 2 1 3 = .ok (s, .ok ())) (hnew' : Keygen.new rnd' 2 1 3 = .ok (s', .ok ())) :
    Keygen.debug ((Keygen.machine rnd).run s
        ([.proceed, .deliver ⟨1, none, .Round1 (b1 1)⟩] ++ [.drain])).st =
      Keygen.debug ((Keygen.machine rnd').run s'
        ([.proceed, .deliver ⟨1, none, .Round1 (b1' 1)⟩] ++ [.drain])).st := by
  have key : ∀ (rnd : KeygenRandomness) (b1 : ℕ → KeyGenBroadcastMessage1) (s : Keygen.State),
      Keygen.new rnd 2 1 3 = .ok (s, .ok ()) →
      let h := (Keygen.machine rnd).run s ([.proceed, .deliver ⟨1, none, .Round1 (b1 1)⟩] ++ [.drain])
      h.panicked = false ∧ (Keygen.machine rnd).current_round h.st = 1 ∧
        (Keygen.machine rnd).is_finished h.st = false ∧
        (∀ j, heard 2 3 KeygenMsg.round h.accepted j = if j = 1 then 1 else 0) ∧
        ((Keygen.machine rnd).message_queue h.st).length = 0 := by
    intro rnd b1 s hnew
    obtain ⟨hp, -, -, ha, hc, -⟩ := run_213 rnd b1 hnew
    simp only [StateMachine.run] at hp ha hc
    simp only [StateMachine.run, List.foldl_append]
    rw [List.foldl_cons, List.foldl_nil]
    generalize List.foldl (Keygen.machine rnd).step _ _ = h at hp ha hc
    simp only [StateMachine.step, hp, Bool.false_eq_true, if_false]
    refine ⟨trivial, hc, ?_, fun j => ?_, rfl⟩
    · revert hc
      show Keygen.current_round _ = 1 → Keygen.is_finished _ = false
      simp only [Keygen.current_round, Keygen.is_finished, Keygen.machine]
      cases h.st.round <;> simp
    · rw [ha]
      by_cases hj : j = 1
      · subst hj; rfl
      · simp [heard, KeygenMsg.round, hj, Ne.symm hj]
  obtain ⟨p1, p2, p3, p4, p5⟩ := key rnd b1 s hnew
  obtain ⟨q1, q2, q3, q4, q5⟩ := key rnd' b1' s' hnew'
  exact C130_keygen_nothing_else hnew hnew' _ _ p1 q1 (p2.trans q2.symm) (p3.trans q3.symm)
    (.inl (p2.trans_le (by decide))) (fun j => (p4 j).trans (q4 j).symm) (p5.trans q5.symm)

end Examples

/-- The text of the first of two signers in round 1. -/
theorem offline_text_1 [Crypto] {rnd : SignRandomness} {s : Sign.State} {key : LocalKey}
    (hnew : Sign.new 1 [3, 1] key = .ok s) {ops : List (Op Sign.M)} {h : History Sign.State Sign.M CompletedOfflineStage Sign.SignError}
    (hh : (Sign.machine rnd).run s ops = h) (hp : h.panicked = false) (ha : h.accepted = [])
    (hc : (Sign.machine rnd).current_round h.st = 1) :
    Sign.debug h.st = .ok (offlineText "R1" 0 2 (fun _ => 0) ((Sign.machine rnd).message_queue h.st).length) := by
  subst hh
  obtain ⟨used, -, e, -, hu, -⟩ := C130_offline_partial hnew ops hp
  have hf := offline_not_finished (hc.trans_le (by decide))
  rw [hc] at hu
  have hu : used = 0 := hu (.inl (by decide))
  have h0 : ∀ j, heard 1 [3, 1].length SignMsg.round ([] : List (Msg Sign.M)) j = 0 := by simp [heard]
  simp only [hc, hf, hu, ha] at e
  rw [e]
  have hr : offlineRound false 1 = "R1" := by decide +kernel
  have h0 : heard 1 [3, 1].length SignMsg.round ([] : List (Msg Sign.M)) = fun _ => 0 := funext h0
  rw [hr, h0]
  rfl

section

attribute [local instance] Toy.crypto

/-- C130: the violation has a machine that meets its hypothesis. -/
example : ∃ s, Sign.new 1 [3, 1] (toyLocal 3) = .ok s := toy_new

/-- C130: such a signer. -/
example {s : Sign.State} (hnew : Sign.new 1 [3, 1] (toyLocal 3) = .ok s) : ∃ text,
    Sign.debug ((Sign.machine (toySign 0)).run s [.proceed]).st = .ok text := by
  obtain ⟨hp, ha, hc, -⟩ := toy_round1 hnew
  exact ⟨_, offline_text_1 hnew rfl hp ha hc⟩

end

end Verif.Props
