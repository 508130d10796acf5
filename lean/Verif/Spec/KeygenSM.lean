import Verif.Model.GG20.KeygenSM

/-!
# Specification of a party's run: rounds one after the other

`keygenLine` does not know about stores, early messages or `proceed` calls: it applies the round
functions of `KeygenRounds` one after the other to the peers' messages, ordered by party.
-/

namespace Verif.Spec

open EC Crypto GG20

/-- All parties but `i`, in order. -/
def peers (i n : ℕ) : List ℕ := (List.range' 1 n).filter (fun p => decide (p ≠ i))

/-- Wrap the outgoing messages of a round. -/
def sending {β μ ε α : Type} (f : β → μ) (x : Res ε (α × List (Msg β))) :
    Res ε (α × List (Msg μ)) := do
  let ro ← x
  .ok (ro.1, ro.2.map (Msg.mapBody f))

variable [Crypto]

/-- The messages party `i` sends and its result, if peer `p` sends `b1 p`, ..., `b4 p`. -/
def keygenLine (rnd : KeygenRandomness) (i t n : ℕ) (b1 : ℕ → KeyGenBroadcastMessage1)
    (b2 : ℕ → KeyGenDecommitMessage1) (b3 : ℕ → Vss × Sc) (b4 : ℕ → DLogProof) :
    List (Msg Keygen.M) × Res Keygen.ProceedError LocalKey :=
  let x0 : List (Msg Keygen.M) × Res Keygen.ProceedError Keygen.Round0 := ([], .ok ⟨i, t, n⟩)
  let x1 := Script.step x0 (fun r => sending .Round1 (r.proceed rnd))
  let x2 := Script.step x1 (fun r => sending .Round2 (r.proceed ((peers i n).map b1)))
  let x3 := Script.step x2 (fun r => sending .Round3 (r.proceed ((peers i n).map b2) rnd))
  let x4 := Script.step x3 (fun r => sending .Round4 (r.proceed ((peers i n).map b3) rnd))
  Script.step x4 (fun r => do
    let key ← r.proceed ((peers i n).map b4)
    .ok (key, []))

namespace KeygenMsg

/-- The round a message belongs to. -/
def round : Keygen.M → ℕ
  | .Round1 _ => 1
  | .Round2 _ => 2
  | .Round3 _ => 3
  | .Round4 _ => 4

/-- Party `i` of `n` expects a message like this: from another party, round 3 addressed to `i`, the
other rounds broadcast. -/
def Expected (i n : ℕ) (m : Msg Keygen.M) : Prop :=
  m.sender ∈ peers i n ∧ m.receiver = if round m.body = 3 then some i else none

/-- The message's content is what its sender has to say in that round. -/
def Says (b1 : ℕ → KeyGenBroadcastMessage1) (b2 : ℕ → KeyGenDecommitMessage1)
    (b3 : ℕ → Vss × Sc) (b4 : ℕ → DLogProof) (m : Msg Keygen.M) : Prop :=
  match m.body with
  | .Round1 b => b = b1 m.sender
  | .Round2 b => b = b2 m.sender
  | .Round3 b => b = b3 m.sender
  | .Round4 b => b = b4 m.sender

end KeygenMsg

/-- A sequence of calls that delivers every peer's four messages, in any order and possibly more
than once, calls `proceed` and takes outgoing messages at any time, and may deliver any messages that
are not expected (wrong sender or receiver). -/
structure KeygenSchedule (i n : ℕ) (b1 : ℕ → KeyGenBroadcastMessage1)
    (b2 : ℕ → KeyGenDecommitMessage1) (b3 : ℕ → Vss × Sc) (b4 : ℕ → DLogProof)
    (ops : List (Op Keygen.M)) : Prop where
  noPick : .pick ∉ ops
  genuine : ∀ m, .deliver m ∈ ops → KeygenMsg.Expected i n m → KeygenMsg.Says b1 b2 b3 b4 m
  complete : ∀ p ∈ peers i n,
    .deliver ⟨p, none, .Round1 (b1 p)⟩ ∈ ops ∧ .deliver ⟨p, none, .Round2 (b2 p)⟩ ∈ ops ∧
    .deliver ⟨p, some i, .Round3 (b3 p)⟩ ∈ ops ∧ .deliver ⟨p, none, .Round4 (b4 p)⟩ ∈ ops

/-- What a driver observes at the end of a history agrees with the straight-line execution `x`: the
same messages were sent, `wants_to_proceed` is false, and
* if `x` produced a key, no error was returned, the machine is finished and holds that key;
* if `x` failed, exactly that error was returned, once;
* if `x` panics, a call panicked. -/
def Observes {σ μ ω ε : Type} (mc : StateMachine σ μ ω ε) (h : History σ μ ω ε)
    (x : List (Msg μ) × Res ε ω) : Prop :=
  mc.sent h = x.1 ∧ h.outputs = [] ∧ (h.panicked = false → mc.wants_to_proceed h.st = false) ∧
  match x.2 with
  | .ok o => h.panicked = false ∧ h.errors = [] ∧ mc.is_finished h.st = true ∧
      (mc.pick_output h.st).2 = some (.ok o)
  | .err e => h.panicked = false ∧ h.errors = [.ProceedRound e] ∧ mc.is_finished h.st = false ∧
      (mc.pick_output h.st).2 = some (.err .DoublePickOutput)
  | .panic => h.panicked = true ∧ h.errors = []

end Verif.Spec
