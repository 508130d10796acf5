import Verif.Ext.RoundMsg
import Verif.Model.GG20.Signature

/-!
# The clients of the GG20 message server

Models `join_computation` of `examples/gg20_sm_client.rs` (the filter of incoming messages) and the online
stage of `examples/gg20_signing.rs`.  The stream of a subscription is the list of the messages published in
the room (C58); JSON is not modelled.
-/

namespace Verif.Demo.Client

variable {β : Type}

/-- gg20_sm_client.rs, lines 36-40: the condition of `try_filter` -/
def accepts (index : ℕ) (m : Msg β) : Bool :=
  decide (m.sender ≠ index) && (m.receiver.isNone || decide (m.receiver = some index))

/-- gg20_sm_client.rs, lines 24-40: what a client with the index issued by the server reads -/
def incoming (index : ℕ) (history : List (Msg β)) : List (Msg β) := history.filter (accepts index)

/-- gg20_signing.rs, lines 70-76: what the client broadcasts; `i` is the index it got in the *offline* room
(line 43), not the one it got in the room it broadcasts in (line 58, `_i`). -/
def partialMsg (i : ℕ) (body : β) : Msg β := ⟨i, none, body⟩

/-- gg20_signing.rs, lines 78-82: the first `n - 1` messages of the online room that pass the filter of the
online index; `none` while there are fewer (the client waits). -/
def collect (n index_online : ℕ) (history : List (Msg β)) : Option (List β) :=
  let l := (incoming index_online history).take (n - 1)
  if l.length = n - 1 then some (l.map (·.body)) else none

/-- gg20_signing.rs, lines 65-85: the online stage; `history` is what was published in the online room when
the client has read enough. -/
def online [EC] (n index_online : ℕ) (message : ℤ) (c : GG20.CompletedOfflineStage)
    (history : List (Msg Sc)) : Option (Res Error GG20.SignatureRecid) := do
  let sigs ← collect n index_online history
  some (do
    let (signing, _) ← GG20.SignManual.new message c
    GG20.SignManual.complete signing sigs)

end Verif.Demo.Client
