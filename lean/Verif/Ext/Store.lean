import Verif.Base.Check
import Verif.Ext.RoundMsg

/-!
# Message stores of the `round_based` crate (0.1)

`round_based` is a dependency and not part of the repository; these definitions record its
documented behaviour: a store of party `party_i` among `n` parties has one slot for each of the
other `n - 1` parties, ordered by party index.
-/

namespace Verif

/-- `round_based::containers::StoreErr` -/
inductive StoreErr where
  | UnknownSender (sender : ℕ)
  | ItsMe
  | NotForMe
  | ExpectedBroadcast
  | ExpectedP2P
  | MsgOverwrite
  | WantsMoreMessages
  deriving DecidableEq, Repr

/-- `BroadcastMsgsStore` (`p2p = false`) and `P2PMsgsStore` (`p2p = true`) -/
structure Store (β : Type) where
  party_i : ℕ
  p2p : Bool
  msgs : List (Option β)
  msgs_left : ℕ
  deriving DecidableEq

namespace Store

variable {β : Type}

/-- `BroadcastMsgs::expects_messages` / `P2PMsgs::expects_messages` -/
def new (β : Type) (p2p : Bool) (party_i n : ℕ) : Store β :=
  ⟨party_i, p2p, List.replicate (n - 1) none, n - 1⟩

/-- The slot of another party. -/
def slot (party_i sender : ℕ) : ℕ := if sender < party_i then sender - 1 else sender - 2

/-- `MessageStore::push_msg` -/
def push_msg (s : Store β) (m : Msg β) : Res StoreErr (Store β) :=
  if m.sender = 0 then .err (.UnknownSender m.sender)
  else if !s.p2p && m.receiver.isSome then .err .ExpectedBroadcast
  else if s.p2p && m.receiver.isNone then .err .ExpectedP2P
  else if s.p2p && decide (m.receiver ≠ some s.party_i) then .err .NotForMe
  else if m.sender = s.party_i then .err .ItsMe
  else
    match s.msgs[slot s.party_i m.sender]? with
    | none => .err (.UnknownSender m.sender)
    | some (some _) => .err .MsgOverwrite
    | some none => .ok { s with msgs := s.msgs.set (slot s.party_i m.sender) (some m.body),
                                msgs_left := s.msgs_left - 1 }

/-- `MessageStore::wants_more` -/
def wants_more (s : Store β) : Bool := decide (0 < s.msgs_left)

/-- `MessageStore::finish`: the messages ordered by sender -/
def finish (s : Store β) : Res StoreErr (List β) :=
  if 0 < s.msgs_left then .err .WantsMoreMessages
  else Res.mapM Res.ofOption s.msgs

/-- `MessageStore::blame`: how many messages are missing, and from whom -/
def blame (s : Store β) : ℕ × List ℕ :=
  (s.msgs_left, (s.msgs.zipIdx.filter (fun m => m.1.isNone)).map
    (fun m => if m.2 < s.party_i - 1 then m.2 + 1 else m.2 + 2))

end Store
end Verif
