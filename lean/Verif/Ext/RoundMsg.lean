import Verif.Base.Res

/-!
# Messages and collected message vectors (`round_based` 0.1)
-/

namespace Verif

/-- `round_based::Msg`: `receiver = none` is a broadcast. -/
structure Msg (β : Type) where
  sender : ℕ
  receiver : Option ℕ
  body : β
  deriving DecidableEq, Repr

/-- `Msg::map_body` -/
def Msg.mapBody {β γ : Type} (f : β → γ) (m : Msg β) : Msg γ := ⟨m.sender, m.receiver, f m.body⟩

/-- `BroadcastMsgs::into_vec_including_me` / `P2PMsgs::into_vec_including_me`: `msgs` are the other
parties' messages ordered by sender, `my_ind` is one-based. -/
def intoVecIncludingMe {β : Type} (msgs : List β) (my_ind : ℕ) (me : β) : List β :=
  msgs.insertIdx (my_ind - 1) me

theorem insertIdx_eraseIdx_self {β : Type} {l : List β} {k : ℕ} (h : k < l.length) :
    (l.eraseIdx k).insertIdx k l[k] = l := by
  induction l generalizing k with
  | nil => simp at h
  | cons a l ih =>
    cases k with
    | zero => simp
    | succ k => simpa using ih (by simpa using h)

end Verif
