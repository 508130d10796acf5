import Verif.Props.Network
import Verif.Lemmas.RoundOrderKeygen
import Verif.Lemmas.KeygenEquiv

/-!
# The order of a party's messages, and the round its machine reports (C104)

`s` is the machine `Keygen::new` or `OfflineStage::new` returned; `ops` is any list of calls on it, with
whatever messages the other parties or the network make up; `run` is the history of those calls.  The
histories are those of single calls too, so "has been sent in a history of calls" is "has been sent at that
moment".
-/

namespace Verif.Props

open EC Crypto GG20 Spec

section

variable [Crypto]

/-! ### Key generation -/

/-- **C104.** Key generation: when a message of some round has been sent, a message of every other party
has been accepted in each earlier round.  So nobody opens its commitment before it has the commitments of
all others, and nobody hands out shares before it has all openings. -/
theorem C104_keygen_order {rnd : KeygenRandomness} {i t n : ℕ} {s : Keygen.State}
    {r : Res Keygen.Error Unit} (hnew : Keygen.new rnd i t n = .ok (s, r)) (ops : List (Op Keygen.M))
    {m : Msg Keygen.M} (hm : m ∈ (Keygen.machine rnd).sent ((Keygen.machine rnd).run s ops))
    {j : ℕ} (j1 : 1 ≤ j) (j2 : j < KeygenMsg.round m.body) {p : ℕ} (hp : p ∈ peers i n) :
    ∃ m' ∈ ((Keygen.machine rnd).run s ops).accepted, m'.sender = p ∧ KeygenMsg.round m'.body = j := by
  obtain ⟨-, habs, h1, h2, -⟩ := Keygen.new_ok hnew
  obtain ⟨p1, p2, p3⟩ := mem_peers.1 hp
  obtain ⟨m', a, b, c⟩ := (Keygen.sim rnd).order_spec habs h1 h2 ops hm j1
    (by rw [Keygen.rd_eq]; exact j2) p1 p2 p3
  exact ⟨m', a, b, by rw [← c, Keygen.rd_eq]⟩

/-- C104: the shares of a party's secret (round 3) leave it only after every other party's first two
messages have been accepted and have passed all the checks: the opening fits the commitment, and the
Paillier key and the auxiliary parameters come with proofs that verify. -/
theorem C104_shares_after_checks {rnd : KeygenRandomness} {i t n : ℕ} {s : Keygen.State}
    {r : Res Keygen.Error Unit} (hnew : Keygen.new rnd i t n = .ok (s, r)) (ops : List (Op Keygen.M))
    {m : Msg Keygen.M} (hm : m ∈ (Keygen.machine rnd).sent ((Keygen.machine rnd).run s ops))
    (h3 : 3 ≤ KeygenMsg.round m.body) {p : ℕ} (hp : p ∈ peers i n) :
    ∃ bc decom, ⟨p, none, .Round1 bc⟩ ∈ ((Keygen.machine rnd).run s ops).accepted ∧
      ⟨p, none, .Round2 decom⟩ ∈ ((Keygen.machine rnd).run s ops).accepted ∧
      ValidBroadcast bc decom := by
  obtain ⟨-, habs, h1, h2, hn, -, ht⟩ := Keygen.new_ok hnew
  obtain ⟨p1, p2, p3⟩ := mem_peers.1 hp
  obtain ⟨v, hv, x, hx⟩ := (Keygen.sim rnd).sent_straight habs h1 h2 hn ops hm (k := 3)
    (by rw [Keygen.rd_eq]; exact h3)
  obtain ⟨b1, e1, a1⟩ := hv 1 (by decide) (by decide)
  obtain ⟨b2, e2, a2⟩ := hv 2 (by decide) (by decide)
  rw [others_eq_peers h1 h2] at e1 e2 a1 a2
  have get : ∀ m m' : Msg Keygen.M, m'.mapBody (Keygen.tagM rnd) = m.mapBody (Keygen.tagM rnd) →
      m' = m := fun m m' e => (Keygen.sim rnd).mapBody_inj e
  obtain ⟨m1, hm1, f1⟩ := List.mem_map.1 (a1 p hp)
  obtain ⟨m2, hm2, f2⟩ := List.mem_map.1 (a2 p hp)
  have g1 : m1 = ⟨p, none, .Round1 (b1 p)⟩ := get ⟨p, none, .Round1 (b1 p)⟩ m1 f1
  have g2 : m2 = ⟨p, none, .Round2 (b2 p)⟩ := get ⟨p, none, .Round2 (b2 p)⟩ m2 f2
  refine ⟨b1 p, b2 p, g1 ▸ hm1, g2 ▸ hm2, ?_⟩
  obtain ⟨k, rfl⟩ : ∃ k, i = k + 1 := ⟨i - 1, by omega⟩
  exact Keygen.valid_of_round3 ht (by omega) e1 e2 hx p1 p2 p3

/-- C104: the round key generation reports.  It never decreases; it is at most 5; it is 5 exactly when the
machine is finished, has handed out its key, or has failed in one of its rounds; and as long as no call has
returned an error, all messages sent so far belong to rounds up to it and the messages of all rounds
before it have been accepted from everybody. -/
theorem C104_keygen_round {rnd : KeygenRandomness} {i t n : ℕ} {s : Keygen.State}
    {r : Res Keygen.Error Unit} (hnew : Keygen.new rnd i t n = .ok (s, r))
    (ops later : List (Op Keygen.M)) :
    let h := (Keygen.machine rnd).run s ops
    let round := (Keygen.machine rnd).current_round h.st
    round ≤ (Keygen.machine rnd).current_round ((Keygen.machine rnd).run s (ops ++ later)).st ∧
    (h.panicked = false → round ≤ 5 ∧
      (round = 5 ↔ (Keygen.machine rnd).is_finished h.st = true ∨ h.outputs ≠ [] ∨
        ∃ e, .ProceedRound e ∈ h.errors) ∧
      (h.errors = [] →
        (∀ m ∈ (Keygen.machine rnd).sent h, KeygenMsg.round m.body ≤ round) ∧
        ∀ j, 1 ≤ j → j < round → ∀ p ∈ peers i n,
          ∃ m ∈ h.accepted, m.sender = p ∧ KeygenMsg.round m.body = j)) := by
  obtain ⟨-, habs, h1, h2, -⟩ := Keygen.new_ok hnew
  refine ⟨(Keygen.sim rnd).current_mono habs h1 h2 ops later, fun hp => ?_⟩
  obtain ⟨a, b, c⟩ := (Keygen.sim rnd).current_spec habs h1 h2 ops hp
  refine ⟨a, b, fun he => ⟨fun m hm => ?_, fun j j1 j2 p hp => ?_⟩⟩
  · have := (c he).1 m hm
    rwa [Keygen.rd_eq] at this
  · obtain ⟨p1, p2, p3⟩ := mem_peers.1 hp
    obtain ⟨m, x, y, z⟩ := (c he).2 j p j1 j2 p1 p2 p3
    exact ⟨m, x, y, by rw [← z, Keygen.rd_eq]⟩

/-! ### The offline stage -/

/-- **C104.** Offline stage: when a message of some round has been sent, a message of every other signer
has been accepted in each earlier round.  So nobody opens its commitment to its nonce share (round 4)
before it has everybody's commitments (round 1) and everybody's share of the masked inverse nonce
(round 3). -/
theorem C104_offline_order {rnd : SignRandomness} {i : ℕ} {s_l : List ℕ} {key : LocalKey}
    {s : Sign.State} (hnew : Sign.new i s_l key = .ok s) (ops : List (Op Sign.M))
    {m : Msg Sign.M} (hm : m ∈ (Sign.machine rnd).sent ((Sign.machine rnd).run s ops))
    {j : ℕ} (j1 : 1 ≤ j) (j2 : j < SignMsg.round m.body) {p : ℕ} (hp : p ∈ peers i s_l.length) :
    ∃ m' ∈ ((Sign.machine rnd).run s ops).accepted, m'.sender = p ∧ SignMsg.round m'.body = j := by
  obtain ⟨habs, h1, h2, -⟩ := Sign.new_ok (rnd := rnd) hnew
  obtain ⟨p1, p2, p3⟩ := mem_peers.1 hp
  obtain ⟨m', a, b, c⟩ := (Sign.sim rnd).order_spec habs h1 h2 ops hm j1
    (by rw [Sign.rd_eq]; exact j2) p1 p2 p3
  exact ⟨m', a, b, by rw [← c, Sign.rd_eq]⟩

/-- C104: the round the offline stage reports, with 7 for a stage that is finished, has handed out its
result, or has failed. -/
theorem C104_offline_round {rnd : SignRandomness} {i : ℕ} {s_l : List ℕ} {key : LocalKey}
    {s : Sign.State} (hnew : Sign.new i s_l key = .ok s) (ops later : List (Op Sign.M)) :
    let h := (Sign.machine rnd).run s ops
    let round := (Sign.machine rnd).current_round h.st
    round ≤ (Sign.machine rnd).current_round ((Sign.machine rnd).run s (ops ++ later)).st ∧
    (h.panicked = false → round ≤ 7 ∧
      (round = 7 ↔ (Sign.machine rnd).is_finished h.st = true ∨ h.outputs ≠ [] ∨
        ∃ e, .ProceedRound e ∈ h.errors) ∧
      (h.errors = [] →
        (∀ m ∈ (Sign.machine rnd).sent h, SignMsg.round m.body ≤ round) ∧
        ∀ j, 1 ≤ j → j < round → ∀ p ∈ peers i s_l.length,
          ∃ m ∈ h.accepted, m.sender = p ∧ SignMsg.round m.body = j)) := by
  obtain ⟨habs, h1, h2, -⟩ := Sign.new_ok (rnd := rnd) hnew
  refine ⟨(Sign.sim rnd).current_mono habs h1 h2 ops later, fun hp => ?_⟩
  obtain ⟨a, b, c⟩ := (Sign.sim rnd).current_spec habs h1 h2 ops hp
  refine ⟨a, b, fun he => ⟨fun m hm => ?_, fun j j1 j2 p hp => ?_⟩⟩
  · have := (c he).1 m hm
    rwa [Sign.rd_eq] at this
  · obtain ⟨p1, p2, p3⟩ := mem_peers.1 hp
    obtain ⟨m, x, y, z⟩ := (c he).2 j p j1 j2 p1 p2 p3
    exact ⟨m, x, y, by rw [← z, Sign.rd_eq]⟩

end

/-! ### The hypotheses above are met -/

section

attribute [local instance] Toy.crypto

/-- Party 2 of 3, with the schedule of C20's example: it has sent messages of rounds 2, 3 and 4, nothing
failed, and it reports round 5. -/
example : ∃ (rnd : KeygenRandomness) (s : Keygen.State) (ops : List (Op Keygen.M)),
    Keygen.new rnd 2 1 3 = .ok (s, .ok ()) ∧
    (∀ j, 1 ≤ j → j ≤ 4 → ∃ m ∈ (Keygen.machine rnd).sent ((Keygen.machine rnd).run s ops),
      KeygenMsg.round m.body = j) ∧
    ((Keygen.machine rnd).run s ops).panicked = false ∧ ((Keygen.machine rnd).run s ops).errors = [] := by
  have hex := fun k : ℕ => honestRandomness_exists 1 ((k + 2 : ℕ) : ZMod 31) [(7 : ZMod 31)] rfl
  choose rnd hon _ hco using hex
  obtain ⟨s, hs⟩ := new_213 (rnd 1)
  have hline := Keygen.dealers_line (t := 1) (n := 3) (by decide) (rnd := rnd) (fun k _ => ⟨1, hon k⟩)
    (fun k _ => by rw [hco, hco]) (k := 1) (by decide)
  have ho := C20_any_schedule hs (schedule_213 (fun p => Keygen.rBc rnd (p - 1))
    (fun p => Keygen.rDec rnd (p - 1))
    (fun p => (Keygen.rVss 1 3 rnd (p - 1), Keygen.rShare rnd (p - 1) 1))
    (fun p => Keygen.rPf 3 rnd (p - 1)))
  rw [hline] at ho
  obtain ⟨ho, -, -, o1, o2, -⟩ := ho
  refine ⟨rnd 1, s, _, hs, ?_, o1, o2⟩
  rw [ho]
  intro j j1 j2
  obtain rfl | rfl | rfl | rfl : j = 1 ∨ j = 2 ∨ j = 3 ∨ j = 4 := by omega
  · exact ⟨⟨2, none, .Round1 (Keygen.rBc rnd 1)⟩, by simp, rfl⟩
  · exact ⟨⟨2, none, .Round2 (Keygen.rDec rnd 1)⟩, by simp, rfl⟩
  · exact ⟨⟨2, some 1, .Round3 (Keygen.rVss 1 3 rnd 1, Keygen.rShare rnd 1 0)⟩,
      by simp [Keygen.rOut3, Msg.mapBody, List.range_succ], rfl⟩
  · exact ⟨⟨2, none, .Round4 (Keygen.rPf 3 rnd 1)⟩, by simp, rfl⟩

/-- Before, with one of two first messages accepted, it reports round 1. -/
example (rnd : KeygenRandomness) (b1 : ℕ → KeyGenBroadcastMessage1) {s : Keygen.State}
    (hnew : Keygen.new rnd 2 1 3 = .ok (s, .ok ())) :
    let h := (Keygen.machine rnd).run s [.proceed, .deliver ⟨1, none, .Round1 (b1 1)⟩]
    h.panicked = false ∧ h.errors = [] ∧ (Keygen.machine rnd).current_round h.st = 1 := by
  obtain ⟨a, b, -, -, c, -⟩ := run_213 rnd b1 hnew
  exact ⟨a, b, c⟩

/-- The signer of C44's example finishes, and reports round 7 without an error. -/
example : ∃ s, Sign.new 1 [3, 1] (toyLocal 3) = .ok s ∧
    let h := (Sign.machine (toySign 0)).run s (toyOps ++ [.proceed, .proceed, .proceed])
    h.panicked = false ∧ h.errors = [] ∧ (Sign.machine (toySign 0)).current_round h.st = 7 := by
  obtain ⟨s, hs⟩ := toy_new
  obtain ⟨a, b, -, c, -⟩ := toy_completes hs
  exact ⟨s, hs, a, b, c⟩

end

end Verif.Props
