import Verif.Spec.KeygenSM
import Verif.Spec.SignSM

/-!
# Specification of the `{:?}` texts of the state machines

What a text may depend on: the round, whose messages have been accepted, the number of parties and the number of
outgoing messages.
-/

namespace Verif.Spec

/-- How many of the peers of party `i` of `n` have an accepted message of round `j`. -/
def heard {β : Type} (i n : ℕ) (round : β → ℕ) (accepted : List (Msg β)) (j : ℕ) : ℕ :=
  ((peers i n).filter (fun p => decide (∃ m ∈ accepted, round m.body = j ∧ m.sender = p))).length

/-- The part of the key generation's text on one round: used up, or so many of so many. -/
def keygenCell (used n : ℕ) (count : ℕ → ℕ) (j : ℕ) : String :=
  if j ≤ used then "[None]" else s!"[{count j}/{n - 1}]"

/-- The text of a key generation in round `round`, with the messages of the rounds up to `used` used up. -/
def keygenText (round : String) (used n : ℕ) (count : ℕ → ℕ) (queue : ℕ) : String :=
  "{Keygen at round=" ++ round ++ " msgs1=" ++ keygenCell used n count 1 ++ " msgs2=" ++
    keygenCell used n count 2 ++ " msgs3=" ++ keygenCell used n count 3 ++ " msgs4=" ++
    keygenCell used n count 4 ++ s!" queue=[len={queue}]}"

/-- The round as the key generation shows it: from `is_finished` and `current_round`. -/
def keygenRound (finished : Bool) (current : ℕ) : String :=
  if finished then "[Final]" else if current ≤ 4 then toString current else "[Gone]"

/-- The part of the offline stage's text on one round. -/
def offlineCell (kind : String) (used n : ℕ) (count : ℕ → ℕ) (j : ℕ) : String :=
  if j ≤ used then "[gone]" else s!"[{kind} {count j}/{n - 1}]"

/-- The text of an offline stage in round `round`, with the messages of the rounds up to `used` used up. -/
def offlineText (round : String) (used n : ℕ) (count : ℕ → ℕ) (queue : ℕ) : String :=
  "OfflineStageProgress { round: " ++ round ++ ", round1_msgs: " ++ offlineCell "bc" used n count 1 ++
    ", round2_msgs: " ++ offlineCell "p2p" used n count 2 ++
    ", round3_msgs: " ++ offlineCell "bc" used n count 3 ++
    ", round4_msgs: " ++ offlineCell "bc" used n count 4 ++
    ", round5_msgs: " ++ offlineCell "bc" used n count 5 ++
    s!", msgs_queue: OutgoingMessages \{ len: {queue} } }"

/-- The round as the offline stage shows it: from `is_finished` and `current_round`. -/
def offlineRound (finished : Bool) (current : ℕ) : String :=
  if finished then "Finished" else if current ≤ 6 then "R" ++ toString current else "Gone"

end Verif.Spec
