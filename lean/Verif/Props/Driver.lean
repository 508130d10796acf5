import Verif.Lemmas.AsyncHang
import Verif.Props.SignSM
import Verif.Props.KeygenSM
import Verif.Props.Network
import Verif.Model.Demo.Driver

/-!
# The clients' loop (C92, C93)

`Async.run mc critical s ms` is a client's run of the machine `s` after the messages `ms` came in.
-/

namespace Verif.Props

open EC Crypto GG20 Spec Demo.Driver

section

/-! ### The peers' messages -/

theorem peers_nodup (i n : ℕ) : (peers i n).Nodup :=
  (List.nodup_range' (step := 1)).filter _

theorem mail_once {β : Type} (rd : Msg β → ℕ) {ms : List (Msg β)} {f : ℕ → List (Msg β)} {i n : ℕ}
    (hp : ms.Perm ((peers i n).flatMap f)) (hs : ∀ p, ∀ m ∈ f p, m.sender = p)
    (hr : ∀ p, (f p).Pairwise (fun a b => rd a ≠ rd b)) :
    ms.Pairwise (fun a b => rd a = rd b → a.sender ≠ b.sender) := by
  rw [hp.pairwise_iff (fun h e => (h e.symm).symm), List.pairwise_flatMap]
  refine ⟨fun p _ => (hr p).imp (fun h e => absurd e h), ?_⟩
  refine (peers_nodup i n).imp_of_mem ?_
  intro a b _ _ hab x hx y hy _
  rw [hs a x hx, hs b y hy]
  exact hab

theorem keygenCritical_all {ε : Type} (e : SMError ε) (_ : e.refuses = false) :
    keygenCritical e = true := rfl

theorem signCritical_all {ε : Type} (e : SMError ε) (h : e.refuses = false) :
    signCritical e = true := by
  cases e <;> first | rfl | cases h

variable [Crypto]

theorem keygen_freshAll {rnd : KeygenRandomness} {i n : ℕ} {b1 : ℕ → KeyGenBroadcastMessage1}
    {b2 : ℕ → KeyGenDecommitMessage1} {b3 : ℕ → Vss × Sc} {b4 : ℕ → DLogProof}
    {ms : List (Msg Keygen.M)} (hp : ms.Perm ((peers i n).flatMap (keygenMail i b1 b2 b3 b4))) :
    Async.FreshAll (Keygen.sim rnd) i n ms := by
  constructor
  · intro m hm
    rw [Keygen.rd_eq]
    refine ⟨(Keygen.round_pos _).1, (Keygen.round_pos _).2, ?_⟩
    rw [← Keygen.rd_eq rnd, ← Keygen.expected_iff]
    obtain ⟨p, hp', hm'⟩ := List.mem_flatMap.1 (hp.mem_iff.1 hm)
    simp only [keygenMail, List.mem_cons, List.not_mem_nil, or_false] at hm'
    rcases hm' with rfl | rfl | rfl | rfl <;> exact ⟨hp', rfl⟩
  · refine mail_once (Keygen.sim rnd).rd hp ?_ ?_
    · intro p m hm
      simp only [keygenMail, List.mem_cons, List.not_mem_nil, or_false] at hm
      rcases hm with rfl | rfl | rfl | rfl <;> rfl
    · intro p
      simp [keygenMail, Keygen.rd_eq, KeygenMsg.round]

theorem keygen_schedule {i n : ℕ} {b1 : ℕ → KeyGenBroadcastMessage1}
    {b2 : ℕ → KeyGenDecommitMessage1} {b3 : ℕ → Vss × Sc} {b4 : ℕ → DLogProof}
    {ms : List (Msg Keygen.M)} (hp : ms.Perm ((peers i n).flatMap (keygenMail i b1 b2 b3 b4)))
    {ops : List (Op Keygen.M)} (hcl : Async.Clean ops ms) : KeygenSchedule i n b1 b2 b3 b4 ops where
  noPick := hcl.1
  genuine := by
    intro m hm _
    obtain ⟨p, _, hm'⟩ := List.mem_flatMap.1 (hp.mem_iff.1 ((hcl.2 m).1 hm))
    simp only [keygenMail, List.mem_cons, List.not_mem_nil, or_false] at hm'
    rcases hm' with rfl | rfl | rfl | rfl <;> rfl
  complete := by
    intro p hp'
    simp only [hcl.2, hp.mem_iff, List.mem_flatMap]
    refine ⟨⟨p, hp', ?_⟩, ⟨p, hp', ?_⟩, ⟨p, hp', ?_⟩, ⟨p, hp', ?_⟩⟩ <;> simp [keygenMail]

theorem offline_freshAll {rnd : SignRandomness} {i n : ℕ} {b : SignerMsgs}
    {ms : List (Msg Sign.M)} (hp : ms.Perm ((peers i n).flatMap (offlineMail i b))) :
    Async.FreshAll (Sign.sim rnd) i n ms := by
  constructor
  · intro m hm
    rw [Sign.rd_eq]
    refine ⟨(Sign.round_pos _).1, (Sign.round_pos _).2, ?_⟩
    rw [← Sign.rd_eq rnd, ← Sign.expected_iff]
    obtain ⟨p, hp', hm'⟩ := List.mem_flatMap.1 (hp.mem_iff.1 hm)
    simp only [offlineMail, List.mem_cons, List.not_mem_nil, or_false] at hm'
    rcases hm' with rfl | rfl | rfl | rfl | rfl | rfl <;> exact ⟨hp', rfl⟩
  · refine mail_once (Sign.sim rnd).rd hp ?_ ?_
    · intro p m hm
      simp only [offlineMail, List.mem_cons, List.not_mem_nil, or_false] at hm
      rcases hm with rfl | rfl | rfl | rfl | rfl | rfl <;> rfl
    · intro p
      simp [offlineMail, Sign.rd_eq, SignMsg.round]

theorem offline_schedule {i n : ℕ} {b : SignerMsgs} {ms : List (Msg Sign.M)}
    (hp : ms.Perm ((peers i n).flatMap (offlineMail i b)))
    {ops : List (Op Sign.M)} (hcl : Async.Clean ops ms) : OfflineSchedule i n b ops where
  noPick := hcl.1
  genuine := by
    intro m hm _
    obtain ⟨p, _, hm'⟩ := List.mem_flatMap.1 (hp.mem_iff.1 ((hcl.2 m).1 hm))
    simp only [offlineMail, List.mem_cons, List.not_mem_nil, or_false] at hm'
    rcases hm' with rfl | rfl | rfl | rfl | rfl | rfl <;> rfl
  complete := by
    intro p hp'
    simp only [hcl.2, hp.mem_iff, List.mem_flatMap]
    refine ⟨⟨p, hp', ?_⟩, ⟨p, hp', ?_⟩, ⟨p, hp', ?_⟩, ⟨p, hp', ?_⟩, ⟨p, hp', ?_⟩, ⟨p, hp', ?_⟩⟩ <;>
      simp [offlineMail]

/-! ### C93: a client that got all messages returns -/

/-- **C93** (key generation): once the peers' messages came in, each once and in any order, the client
returns, with the key, error or panic that the rounds executed one after the other lead to. -/
theorem C93_keygen_returns {rnd : KeygenRandomness} {i t n : ℕ} {s : Keygen.State}
    {r : Res Keygen.Error Unit} (hnew : Keygen.new rnd i t n = .ok (s, r))
    {b1 : ℕ → KeyGenBroadcastMessage1} {b2 : ℕ → KeyGenDecommitMessage1} {b3 : ℕ → Vss × Sc}
    {b4 : ℕ → DLogProof} {ms : List (Msg Keygen.M)}
    (hp : ms.Perm ((peers i n).flatMap (keygenMail i b1 b2 b3 b4))) :
    Returns (Async.run (Keygen.machine rnd) keygenCritical s ms)
      (keygenLine rnd i t n b1 b2 b3 b4) := by
  obtain ⟨-, habs, h1, h2, -⟩ := Keygen.new_ok hnew
  exact Async.returns (Keygen.sim rnd) keygenCritical_all habs h1 h2 ms (keygen_freshAll hp)
    (.inl fun _ => rfl) [.proceed]
    (fun ops hcl => C20_any_schedule hnew (keygen_schedule hp hcl))
    (fun ops hcl hq => C20_when_quiet hnew (keygen_schedule hp hcl) hq)

/-- **C93 (partial)** (offline stage): the same, *if every peer's messages come in in the order of the
rounds*.  Missing: other orders, see `C93_offline_hangs`. -/
theorem C93_offline_returns_partial {rnd : SignRandomness} {i : ℕ} {s_l : List ℕ} {key : LocalKey}
    {s : Sign.State} (hnew : Sign.new i s_l key = .ok s) {b : SignerMsgs} {ms : List (Msg Sign.M)}
    (hp : ms.Perm ((peers i s_l.length).flatMap (offlineMail i b)))
    (ho : InRoundOrder SignMsg.round ms) :
    Returns (Async.run (Sign.machine rnd) signCritical s ms) (offlineLine rnd i s_l key b) := by
  obtain ⟨habs, h1, h2, hn⟩ := Sign.new_ok (rnd := rnd) hnew
  refine Async.returns (Sign.sim rnd) signCritical_all habs h1 h2 ms (offline_freshAll hp)
    (.inr ⟨hn, fun pre post he => ?_⟩) [.proceed, .proceed, .proceed]
    (fun ops hcl => C44_any_schedule hnew (offline_schedule hp hcl))
    (fun ops hcl hq => C44_when_quiet hnew (offline_schedule hp hcl) hq)
  intro m hm j j1 j2
  rw [Sign.rd_eq] at j2
  obtain ⟨m', a, b, c⟩ := ho pre post he m hm j j1 j2
  exact ⟨m', a, by rw [Sign.rd_eq]; exact c, b⟩

theorem has_two {rnd : SignRandomness} {i : ℕ} (h1 : 1 ≤ i) (h2 : i ≤ 2) {acc : List (Msg Sign.M)}
    (hs : ∀ m ∈ acc, m.sender = 3 - i) (j : ℕ) :
    Async.Has (Sign.sim rnd) i 2 acc j ↔ j ∈ acc.map (fun m => SignMsg.round m.body) := by
  rw [List.mem_map]
  constructor
  · intro h
    obtain ⟨m, hm, e, -⟩ := h (3 - i) (by omega) (by omega) (by omega)
    exact ⟨m, hm, by rw [← Sign.rd_eq rnd]; exact e⟩
  · rintro ⟨m, hm, e⟩ p p1 p2 p3
    exact ⟨m, hm, by rw [Sign.rd_eq]; exact e, by rw [hs m hm]; omega⟩

theorem offlineMail_order (i : ℕ) (b : SignerMsgs) (p : ℕ) :
    InRoundOrder SignMsg.round (offlineMail i b p) := by
  intro pre post e m hm k k1 k2
  have hp : pre = (offlineMail i b p).take pre.length := List.prefix_iff_eq_take.1 ⟨post, e.symm⟩
  have hr : ∀ l (h : l < (offlineMail i b p).length),
      SignMsg.round ((offlineMail i b p)[l]).body = l + 1 ∧ ((offlineMail i b p)[l]).sender = p := by
    intro l h
    have h : l < 6 := h
    match l, h with
    | 0, _ | 1, _ | 2, _ | 3, _ | 4, _ | 5, _ => exact ⟨rfl, rfl⟩
  have hlen : (offlineMail i b p).length = 6 := rfl
  generalize offlineMail i b p = L at hp hr hlen
  generalize pre.length = q at hp
  subst hp
  obtain ⟨l, hl, rfl⟩ := List.getElem_of_mem hm
  rw [List.length_take] at hl
  rw [List.getElem_take] at k2 ⊢
  rw [(hr l (by omega)).1] at k2
  have hk : k - 1 < (L.take q).length := by rw [List.length_take]; omega
  refine ⟨(L.take q)[k - 1], List.getElem_mem hk, ?_, ?_⟩
  · rw [List.getElem_take, (hr _ (by omega)).2, (hr _ (by omega)).2]
  · rw [List.getElem_take, (hr _ (by omega)).1]
    omega

/-- **C93 is violated** by the offline stage: with two signers, if the other signer's round-5 message comes in
before its round-4 message, the client waits forever for another message although all messages came in, the
rounds would succeed on them, and the machine wants to proceed. -/
theorem C93_offline_hangs {rnd : SignRandomness} {i : ℕ} {s_l : List ℕ} {key : LocalKey}
    {s : Sign.State} (hnew : Sign.new i s_l key = .ok s) (hlen : s_l.length = 2) {b : SignerMsgs}
    {c : CompletedOfflineStage} (hok : (offlineLine rnd i s_l key b).2 = .ok c) :
    let p := 3 - i
    let ms : List (Msg Sign.M) := [⟨p, none, .M1 (b.b1 p)⟩, ⟨p, some i, .M2 (b.b2 p)⟩,
      ⟨p, none, .M3 (b.b3 p)⟩, ⟨p, none, .M5 (b.b5 p)⟩, ⟨p, none, .M4 (b.b4 p)⟩,
      ⟨p, none, .M6 (b.b6 p)⟩]
    ms.Perm ((peers i s_l.length).flatMap (offlineMail i b)) ∧
    (Async.run (Sign.machine rnd) signCritical s ms).result = none ∧
    (Sign.machine rnd).wants_to_proceed (Async.run (Sign.machine rnd) signCritical s ms).st = true := by
  obtain ⟨habs, h1, h2, hn⟩ := Sign.new_ok (rnd := rnd) hnew
  intro p ms
  have hpeers : peers i s_l.length = [p] := by
    rw [hlen] at h2 ⊢
    obtain rfl | rfl : i = 1 ∨ i = 2 := by omega
    · rfl
    · rfl
  have hp : ms.Perm ((peers i s_l.length).flatMap (offlineMail i b)) := by
    rw [hpeers]
    simp only [List.flatMap_cons, List.flatMap_nil, List.append_nil]
    exact ((List.Perm.swap _ _ _).cons _ |>.cons _ |>.cons _)
  refine ⟨hp, ?_⟩
  have hf := offline_freshAll (rnd := rnd) hp
  have hobs : ∀ ops, Async.Clean ops ms → Observes (Sign.machine rnd)
      ((Sign.machine rnd).run s (ops ++ [.proceed, .proceed, .proceed])) (offlineLine rnd i s_l key b) :=
    fun ops hcl => C44_any_schedule hnew (offline_schedule hp hcl)
  rw [hlen] at habs h2 hf
  have hsender : ∀ m ∈ ms, m.sender = p := by
    intro m hm
    simp only [ms, List.mem_cons, List.not_mem_nil, or_false] at hm
    rcases hm with rfl | rfl | rfl | rfl | rfl | rfl <;> rfl
  have hhas : ∀ k j, Async.Has (Sign.sim rnd) i 2 (ms.take k) j ↔
      j ∈ (ms.take k).map (fun m => SignMsg.round m.body) :=
    fun k j => has_two h1 h2 (fun m hm => hsender m (List.mem_of_mem_take hm)) j
  refine Async.hangs (Sign.sim rnd) (k := 4) (pre := ms.take 3) (mk' := ⟨p, none, .M5 (b.b5 p)⟩)
    (mk := ⟨p, none, .M4 (b.b4 p)⟩) (ml := ⟨p, none, .M6 (b.b6 p)⟩) signCritical_all habs h1 h2
    (fun _ => rfl) (by decide) rfl rfl rfl hf ?_ ?_ ?_ ?_ ?_ hok _ hobs
  · intro a b' e m hm j j1 j2
    rw [Sign.rd_eq] at j2
    obtain ⟨m', q1, q2, q3⟩ := offlineMail_order i b p a (b' ++ (offlineMail i b p).drop 3)
      (by rw [← List.append_assoc, ← e]; rfl) m hm j j1 j2
    exact ⟨m', q1, by rw [Sign.rd_eq]; exact q3, q2⟩
  · intro j j1 j2
    have j2 : j ≤ 6 := j2
    rw [hhas]
    simp [ms, SignMsg.round]
    omega
  · rw [show ms.take 3 ++ [⟨p, none, .M5 (b.b5 p)⟩] = ms.take 4 from rfl, hhas]
    simp [ms, SignMsg.round]
  · rw [show ms.take 3 ++ [⟨p, none, .M5 (b.b5 p)⟩, ⟨p, none, .M4 (b.b4 p)⟩] = ms.take 5 from rfl, hhas]
    show ¬ 6 ∈ _
    simp [ms, SignMsg.round]
  · intro j j1 j2
    have j2 : j ≤ 6 := j2
    show Async.Has (Sign.sim rnd) i 2 (ms.take 6) j
    rw [hhas]
    simp [ms, SignMsg.round]
    omega

/-! ### C92: messages that a client cannot use -/

/-- **C92 is violated** by key generation: as long as the client waits, a single message that is not expected
(from an unknown party or itself, with a wrong receiver, a duplicate, or of a completed round) ends its run
with an error. -/
theorem C92_keygen_stray {rnd : KeygenRandomness} {i t n : ℕ} {s : Keygen.State}
    {r : Res Keygen.Error Unit} (hnew : Keygen.new rnd i t n = .ok (s, r)) (ms : List (Msg Keygen.M))
    (hw : (Async.run (Keygen.machine rnd) keygenCritical s ms).result = none) {m : Msg Keygen.M}
    (hm : ¬ Fresh i n ms m) :
    ∃ e, (Async.run (Keygen.machine rnd) keygenCritical s (ms ++ [m])).result =
        some (.err (.HandleIncoming e)) ∧
      ((∃ c, e = .HandleMessage c) ∨ ∃ a b, e = .ReceivedOutOfOrderMessage a b) := by
  obtain ⟨-, habs, h1, h2, -⟩ := Keygen.new_ok hnew
  obtain ⟨e, he, hr⟩ := Async.stray_ends (Keygen.sim rnd) (critical := keygenCritical) (fun _ => rfl)
    (Keygen.keeps rnd) habs h1 h2 ms hw (fun h => hm (fresh_iff.2 h))
  refine ⟨e, he, ?_⟩
  cases e with
  | HandleMessage c => exact .inl ⟨c, rfl⟩
  | ReceivedOutOfOrderMessage a b => exact .inr ⟨a, b, rfl⟩
  | _ => cases hr

/-- **C92 (partial)** (offline stage): a message that is not expected changes nothing, whatever comes after it,
*if the messages before it came in in the order of the rounds*.  Missing: after messages in another order it can
make the client go on (see `C93_offline_hangs`); and key generation, see `C92_keygen_stray`. -/
theorem C92_offline_partial {rnd : SignRandomness} {i : ℕ} {s_l : List ℕ} {key : LocalKey}
    {s : Sign.State} (hnew : Sign.new i s_l key = .ok s) {ms : List (Msg Sign.M)}
    (hfresh : ∀ pre m post, ms = pre ++ m :: post → SignMsg.Fresh i s_l.length pre m)
    (ho : InRoundOrder SignMsg.round ms) {m : Msg Sign.M} (hm : ¬ SignMsg.Fresh i s_l.length ms m)
    (later : List (Msg Sign.M)) :
    Async.run (Sign.machine rnd) signCritical s (ms ++ m :: later) =
      Async.run (Sign.machine rnd) signCritical s (ms ++ later) := by
  obtain ⟨habs, h1, h2, hn⟩ := Sign.new_ok (rnd := rnd) hnew
  have hf : Async.FreshAll (Sign.sim rnd) i s_l.length ms :=
    .of_fresh fun pre m post e => Sign.fresh_iff.1 (hfresh pre m post e)
  have hq : Async.Quiet (Sign.sim rnd) s_l.length ms := by
    refine .inr ⟨hn, fun pre post he => ?_⟩
    intro x hx j j1 j2
    rw [Sign.rd_eq] at j2
    obtain ⟨m', a, b, c⟩ := ho pre post he x hx j j1 j2
    exact ⟨m', a, by rw [Sign.rd_eq]; exact c, b⟩
  refine Async.stray_ignored (Sign.sim rnd) signCritical_all ?_ (Sign.keeps rnd) ?_ habs h1 h2 ms hf hq
    (fun h => hm (Sign.fresh_iff.2 h)) later
  · intro e he
    cases e <;> first | rfl | cases he
  · rintro st hq
    have hq : st.msgs_queue = [] := hq
    show { st with msgs_queue := [] } = st
    rw [← hq]

theorem toy_mail (i : ℕ) (b : SignerMsgs) (p : ℕ) {n : ℕ} (h : peers i n = [p]) :
    (offlineMail i b p).Perm ((peers i n).flatMap (offlineMail i b)) := by
  rw [h, List.flatMap_cons, List.flatMap_nil, List.append_nil]

omit [Crypto] in
theorem returns_ok {σ μ ω ε : Type} {r : Async.Run σ μ ω ε} {x : List (Msg μ) × Res ε ω} {o : ω}
    (h : Returns r x) (hx : x.2 = .ok o) : r.result = some (.ok o) ∧ r.sent = x.1 := by
  unfold Returns at h
  rw [hx] at h
  exact h

theorem start_213 (rnd : KeygenRandomness) {s : Keygen.State} {r : Res Keygen.Error Unit}
    (h : Keygen.new rnd 2 1 3 = .ok (s, r)) :
    (Async.run (Keygen.machine rnd) keygenCritical s []).result = none := by
  unfold Keygen.new at h
  rw [if_neg (by decide), if_neg (by decide), if_neg (by decide), Keygen.proceed_round_0 rfl,
    if_neg (by simp [Keygen.Round0.is_expensive])] at h
  simp only [Except.ok.injEq, Prod.mk.injEq] at h
  obtain ⟨rfl, -⟩ := h
  unfold Async.run
  rw [List.foldl_nil]
  unfold Async.start
  rw [show Async.finishIfPossible (Keygen.machine rnd) ⟨_, [], none⟩ = ⟨_, [], none⟩ from rfl]
  show (Async.advance (Keygen.machine rnd) keygenCritical ⟨_, [], none⟩).result = none
  unfold Async.advance Async.proceedIfNeeded
  rw [if_pos (by rfl)]
  dsimp only [Keygen.machine]
  rw [Keygen.proceed_round_0 rfl, if_pos (by simp)]
  dsimp only [Keygen.Round0.proceed]
  rw [Keygen.proceed_round_1_lit rfl, if_neg (by intro h; cases h)]
  rfl

/-- C92's hypotheses hold in a newly started client; one message of a party that does not exist is enough. -/
example (rnd : KeygenRandomness) (b : KeyGenBroadcastMessage1) :
    ∃ s r e, Keygen.new rnd 2 1 3 = .ok (s, r) ∧
      (Async.run (Keygen.machine rnd) keygenCritical s []).result = none ∧
      (Async.run (Keygen.machine rnd) keygenCritical s [⟨7, none, .Round1 b⟩]).result =
        some (.err (.HandleIncoming e)) := by
  obtain ⟨s, hs⟩ := new_213 rnd
  obtain ⟨e, he, -⟩ := C92_keygen_stray hs [] (start_213 rnd hs) (m := ⟨7, none, .Round1 b⟩)
    (fun h => absurd h.1.1 (show 7 ∉ peers 2 3 by decide))
  exact ⟨s, _, e, hs, start_213 rnd hs, he⟩

/-- C93: three honest clients' messages, delivered sender by sender and the last round first. -/
example (u : ℕ → Sc) (co : ℕ → Sc) :
    ∃ (rnd : ℕ → KeygenRandomness) (b1 : ℕ → KeyGenBroadcastMessage1)
      (b2 : ℕ → KeyGenDecommitMessage1) (b3 : ℕ → Vss × Sc) (b4 : ℕ → DLogProof)
      (s : Keygen.State) (key : LocalKey),
      (∀ k < 3, (rnd k).u = u k) ∧ Keygen.new (rnd 1) 2 1 3 = .ok (s, .ok ()) ∧
      (Async.run (Keygen.machine (rnd 1)) keygenCritical s
        ((keygenMail 2 b1 b2 b3 b4 1).reverse ++ (keygenMail 2 b1 b2 b3 b4 3).reverse)).result =
          some (.ok key) := by
  have hex := fun k : ℕ => honestRandomness_exists 1 (u k) [co k] rfl
  choose rnd hon hu _ using hex
  obtain ⟨s, hs⟩ := (C19_new_accepts (rnd 1) 2 1 3).2 ⟨by decide, by decide, by decide, by decide⟩
  obtain ⟨b1, b2, b3, b4, keys, key, -, -, hl, -⟩ :=
    C15_machine_panics (rnd := rnd) (n := 3) (fun k _ => hon k) (i := 2) le_rfl hs
  refine ⟨rnd, b1, b2, b3, b4, s, key, fun k _ => hu k, hs, ?_⟩
  have h := C93_keygen_returns (rnd := rnd 1) hs (b1 := b1) (b2 := b2) (b3 := b3) (b4 := b4)
    (ms := (keygenMail 2 b1 b2 b3 b4 1).reverse ++ (keygenMail 2 b1 b2 b3 b4 3).reverse)
    (by
      rw [show peers 2 3 = [1, 3] from rfl, List.flatMap_cons, List.flatMap_cons, List.flatMap_nil,
        List.append_nil]
      exact (List.reverse_perm _).append (List.reverse_perm _))
  exact (returns_ok h hl).1

theorem offline_first {rnd : SignRandomness} {s_l : List ℕ} {key : LocalKey}
    {s : Sign.State} (hnew : Sign.new 1 s_l key = .ok s) (hlen : s_l.length = 2) {b : SignerMsgs}
    {c : CompletedOfflineStage} (hok : (offlineLine rnd 1 s_l key b).2 = .ok c) :
    (Async.run (Sign.machine rnd) signCritical s (offlineMail 1 b 2)).result = some (.ok c) ∧
    (∃ ms : List (Msg Sign.M), ms.Perm (offlineMail 1 b 2) ∧
      (Async.run (Sign.machine rnd) signCritical s ms).result = none) ∧
    (Async.run (Sign.machine rnd) signCritical s
      ((offlineMail 1 b 2).take 2 ++ ⟨2, none, .M1 (b.b1 2)⟩ :: ⟨5, none, .M3 (b.b3 2)⟩ ::
        (offlineMail 1 b 2).drop 2)).result = some (.ok c) := by
  have hpeers : peers 1 s_l.length = [2] := by rw [hlen]; rfl
  have hret := (returns_ok (C93_offline_returns_partial (rnd := rnd) hnew (b := b)
    (ms := offlineMail 1 b 2) (toy_mail 1 b 2 hpeers) (offlineMail_order _ _ _)) hok).1
  refine ⟨hret, ?_, ?_⟩
  · obtain ⟨h1, h2, -⟩ := C93_offline_hangs (rnd := rnd) hnew hlen hok
    rw [hpeers, List.flatMap_cons, List.flatMap_nil, List.append_nil] at h1
    exact ⟨_, h1, h2⟩
  · have hfr : ∀ pre m post, (offlineMail 1 b 2).take 2 = pre ++ m :: post →
        SignMsg.Fresh 1 s_l.length pre m := by
      have hf := offline_freshAll (rnd := rnd) (i := 1) (b := b)
        (ms := offlineMail 1 b 2) (toy_mail 1 b 2 hpeers)
      intro pre m post e
      have e' : offlineMail 1 b 2 = pre ++ [m] ++ (post ++ (offlineMail 1 b 2).drop 2) := by
        have h0 := (List.take_append_drop 2 (offlineMail 1 b 2)).symm
        rw [e] at h0
        simpa using h0
      rw [e'] at hf
      exact Sign.fresh_iff.2 (hf.append_left.init.2)
    have ho : InRoundOrder SignMsg.round ((offlineMail 1 b 2).take 2) := by
      intro pre post e
      refine offlineMail_order 1 b 2 pre (post ++ (offlineMail 1 b 2).drop 2) ?_
      rw [← List.append_assoc, ← e, List.take_append_drop]
    rw [C92_offline_partial hnew hfr ho (m := ⟨2, none, .M1 (b.b1 2)⟩)
        (fun h => h.2 ⟨2, none, .M1 (b.b1 2)⟩ (by simp [offlineMail]) rfl rfl),
      C92_offline_partial hnew hfr ho (m := ⟨5, none, .M3 (b.b3 2)⟩)
        (fun h => absurd (hlen ▸ h.1.1) (show 5 ∉ peers 1 2 by decide)), List.take_append_drop]
    exact hret

end

section Examples

attribute [local instance] Toy.crypto

/-- C93, C92: in the order of the rounds the toy signer's client returns the presignature; in another order it
waits forever; a duplicate and a message from nobody, after the first two messages, change nothing. -/
example : ∃ s c, Sign.new 1 [3, 1] (toyLocal 3) = .ok s ∧
    (Async.run (Sign.machine (toySign 0)) signCritical s (offlineMail 1 toyMsgs 2)).result =
      some (.ok c) ∧
    (∃ ms : List (Msg Sign.M), ms.Perm (offlineMail 1 toyMsgs 2) ∧
      (Async.run (Sign.machine (toySign 0)) signCritical s ms).result = none) ∧
    (Async.run (Sign.machine (toySign 0)) signCritical s
      ((offlineMail 1 toyMsgs 2).take 2 ++ ⟨2, none, .M1 (toyMsgs.b1 2)⟩ ::
        ⟨5, none, .M3 (toyMsgs.b3 2)⟩ :: (offlineMail 1 toyMsgs 2).drop 2)).result = some (.ok c) := by
  obtain ⟨s, hs⟩ := toy_new
  obtain ⟨c, hc⟩ := toy_line_ok
  exact ⟨s, c, hs, offline_first hs rfl hc⟩

end Examples

end Verif.Props
