import Verif.Model.GG20.KeygenSM
import Verif.Model.GG20.SignSM

/-!
# The `{:?}` texts of the two GG20 state machines

Models the `Debug` implementations of `Keygen` (`gg_2020/state_machine/keygen.rs`) and of `OfflineStage`
(`gg_2020/state_machine/sign/fmt.rs`).  `#[derive(Debug)]` and `write!` are written out for the plain format
`{:?}`; the indented format `{:#?}` shows the same values on several lines.
-/

namespace Verif

/-- `messages_total` of the stores of the `round_based` crate: one message of each other party.
(used in keygen.rs, lines 372-385; fmt.rs, lines 83 and 93) -/
def Store.messages_total {β : Type} (s : Store β) : ℕ := s.msgs.length

/-- `messages_received` of the stores of the `round_based` crate: those that are not missing any more.
(used in keygen.rs, lines 372-385) -/
def Store.messages_received {β : Type} (s : Store β) : ℕ := s.msgs.length - s.msgs_left

namespace GG20

variable [Crypto]

namespace Keygen

/-- keygen.rs, lines 362-370, `current_round` -/
def R.label : R → String
  | .Round0 _ => "0"
  | .Round1 _ => "1"
  | .Round2 _ => "2"
  | .Round3 _ => "3"
  | .Round4 _ => "4"
  | .Final _ => "[Final]"
  | .Gone => "[Gone]"

/-- keygen.rs, lines 371-374 (and the same in lines 375-386), `msgs1` to `msgs4` -/
def received {β : Type} (msgs : Option (Store β)) : String :=
  match msgs with
  | some msgs => s!"[{msgs.messages_received}/{msgs.messages_total}]"
  | none => "[None]"

/-- keygen.rs, lines 360-398, `<Keygen as Debug>::fmt` -/
def debug (s : State) : String :=
  "{Keygen at round=" ++ s.round.label ++ " msgs1=" ++ received s.msgs1 ++ " msgs2=" ++ received s.msgs2 ++
    " msgs3=" ++ received s.msgs3 ++ " msgs4=" ++ received s.msgs4 ++
    s!" queue=[len={s.msgs_queue.length}]}"

end Keygen

namespace Sign

/-- fmt.rs, lines 27-37 and 52-63, `OfflineR` with its derived `Debug` -/
def R.label : R → String
  | .R0 _ => "R0"
  | .R1 _ => "R1"
  | .R2 _ => "R2"
  | .R3 _ => "R3"
  | .R4 _ => "R4"
  | .R5 _ => "R5"
  | .R6 _ => "R6"
  | .Finished _ => "Finished"
  | .Gone => "Gone"

/-- fmt.rs, lines 65-68, `ContainerType` -/
inductive ContainerType where
  | P2P
  | Broadcast

/-- fmt.rs, lines 72-76, `MessagesContainer` (`ReceivedMessages` is an optional one, line 70) -/
structure MessagesContainer where
  ty : ContainerType
  total : ℕ
  waiting_for : List ℕ

/-- fmt.rs, lines 79-88, `ReceivedMessages::from_broadcast` -/
def from_broadcast {β : Type} (store : Option (Store β)) : Option MessagesContainer :=
  match store with
  | some store => some ⟨.Broadcast, store.messages_total, store.blame.2⟩
  | none => none

/-- fmt.rs, lines 89-98, `ReceivedMessages::from_p2p` -/
def from_p2p {β : Type} (store : Option (Store β)) : Option MessagesContainer :=
  match store with
  | some store => some ⟨.P2P, store.messages_total, store.blame.2⟩
  | none => none

/-- fmt.rs, lines 101-120, `<ReceivedMessages as Debug>::fmt`.  The subtraction panics when it underflows. -/
def received (msgs : Option MessagesContainer) : Res Unit String :=
  match msgs with
  | some c =>
    let ty := match c.ty with
      | .Broadcast => "bc"
      | .P2P => "p2p"
    if c.waiting_for.length ≤ c.total then
      .ok s!"[{ty} {c.total - c.waiting_for.length}/{c.total}]"
    else .panic
  | none => .ok "[gone]"

/-- fmt.rs, lines 5-50 and 122-125: `<OfflineStage as Debug>::fmt`, the derived texts of
`OfflineStageProgress` and of `OutgoingMessages` -/
def debug (s : State) : Res Unit String := do
  let m1 ← received (from_broadcast s.msgs1)
  let m2 ← received (from_p2p s.msgs2)
  let m3 ← received (from_broadcast s.msgs3)
  let m4 ← received (from_broadcast s.msgs4)
  let m5 ← received (from_broadcast s.msgs5)
  .ok ("OfflineStageProgress { round: " ++ s.round.label ++ ", round1_msgs: " ++ m1 ++ ", round2_msgs: " ++
    m2 ++ ", round3_msgs: " ++ m3 ++ ", round4_msgs: " ++ m4 ++ ", round5_msgs: " ++ m5 ++
    s!", msgs_queue: OutgoingMessages \{ len: {s.msgs_queue.length} } }")

end Sign

end GG20
end Verif
