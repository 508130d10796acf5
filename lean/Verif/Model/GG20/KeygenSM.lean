import Verif.Model.GG20.KeygenRounds
import Verif.Model.RoundMachine

/-!
# The GG20 key generation state machine

Models `src/protocols/multi_party_ecdsa/gg_2020/state_machine/keygen.rs`.  The random values the
party uses are fixed in advance (`rnd`).  `replace(&mut self.round, R::Gone)` means that a call that
fails leaves the round `Gone`, with the round's store taken.
-/

namespace Verif.GG20.Keygen

open EC Crypto

variable [Crypto]

/-- keygen.rs, lines 421-426, `M` (inside `ProtocolMessage`) -/
inductive M where
  | Round1 (m : KeyGenBroadcastMessage1)
  | Round2 (m : KeyGenDecommitMessage1)
  | Round3 (m : Vss × Sc)
  | Round4 (m : DLogProof)

/-- keygen.rs, lines 402-410, `R` -/
inductive R where
  | Round0 (r : Keygen.Round0)
  | Round1 (r : Keygen.Round1)
  | Round2 (r : Keygen.Round2)
  | Round3 (r : Keygen.Round3)
  | Round4 (r : Keygen.Round4)
  | Final (k : LocalKey)
  | Gone

/-- keygen.rs, lines 31-43, `Keygen` -/
structure State where
  round : R
  msgs1 : Option (Store KeyGenBroadcastMessage1)
  msgs2 : Option (Store KeyGenDecommitMessage1)
  msgs3 : Option (Store (Vss × Sc))
  msgs4 : Option (Store DLogProof)
  msgs_queue : List (Msg M)
  party_i : ℕ
  party_n : ℕ

/-- The errors of `Keygen::new` (keygen.rs, lines 440-448, part of `Error`). -/
inductive NewError where
  | TooFewParties
  | InvalidThreshold
  | InvalidPartyIndex
  deriving DecidableEq

/-- keygen.rs, lines 435-466 and 483-489 -/
abbrev Error := SMError ProceedError

/-- rounds.rs, lines 49-51 -/
def Round0.is_expensive : Bool := true
/-- rounds.rs, lines 87-89 -/
def Round1.is_expensive : Bool := false
/-- rounds.rs, lines 155-157 -/
def Round2.is_expensive : Bool := true
/-- rounds.rs, lines 225-227 -/
def Round3.is_expensive : Bool := true
/-- rounds.rs, lines 301-303 -/
def Round4.is_expensive : Bool := true

/-- The number of rounds left, for termination of `proceed_round`. (no lines of its own) -/
def R.left : R → ℕ
  | .Round0 _ => 5
  | .Round1 _ => 4
  | .Round2 _ => 3
  | .Round3 _ => 2
  | .Round4 _ => 1
  | .Final _ => 0
  | .Gone => 0

/-- keygen.rs, lines 93-185, `Keygen::proceed_round` -/
def proceed_round (rnd : KeygenRandomness) (may_block : Bool) (s : State) :
    State × Res Error Unit :=
  match _h : s.round with
  | .Round0 round =>
    if !Round0.is_expensive || may_block then
      let s := { s with round := .Gone }
      match round.proceed rnd with
      | .ok (next, out) =>
        proceed_round rnd may_block { s with
          round := .Round1 next
          msgs_queue := s.msgs_queue ++ out.map (Msg.mapBody M.Round1) }
      | .err e => (s, .err (.ProceedRound e))
      | .panic => (s, .panic)
    else (s, .ok ())
  | .Round1 round =>
    if !wantsMore s.msgs1 && (!Round1.is_expensive || may_block) then
      let store := s.msgs1
      let s := { s with round := .Gone, msgs1 := none }
      match finishStore store with
      | .ok msgs =>
        match round.proceed msgs with
        | .ok (next, out) =>
          proceed_round rnd may_block { s with
            round := .Round2 next
            msgs_queue := s.msgs_queue ++ out.map (Msg.mapBody M.Round2) }
        | .err e => (s, .err (.ProceedRound e))
        | .panic => (s, .panic)
      | .err e => (s, .err e)
      | .panic => (s, .panic)
    else (s, .ok ())
  | .Round2 round =>
    if !wantsMore s.msgs2 && (!Round2.is_expensive || may_block) then
      let store := s.msgs2
      let s := { s with round := .Gone, msgs2 := none }
      match finishStore store with
      | .ok msgs =>
        match round.proceed msgs rnd with
        | .ok (next, out) =>
          proceed_round rnd may_block { s with
            round := .Round3 next
            msgs_queue := s.msgs_queue ++ out.map (Msg.mapBody M.Round3) }
        | .err e => (s, .err (.ProceedRound e))
        | .panic => (s, .panic)
      | .err e => (s, .err e)
      | .panic => (s, .panic)
    else (s, .ok ())
  | .Round3 round =>
    if !wantsMore s.msgs3 && (!Round3.is_expensive || may_block) then
      let store := s.msgs3
      let s := { s with round := .Gone, msgs3 := none }
      match finishStore store with
      | .ok msgs =>
        match round.proceed msgs rnd with
        | .ok (next, out) =>
          proceed_round rnd may_block { s with
            round := .Round4 next
            msgs_queue := s.msgs_queue ++ out.map (Msg.mapBody M.Round4) }
        | .err e => (s, .err (.ProceedRound e))
        | .panic => (s, .panic)
      | .err e => (s, .err e)
      | .panic => (s, .panic)
    else (s, .ok ())
  | .Round4 round =>
    if !wantsMore s.msgs4 && (!Round4.is_expensive || may_block) then
      let store := s.msgs4
      let s := { s with round := .Gone, msgs4 := none }
      match finishStore store with
      | .ok msgs =>
        match round.proceed msgs with
        | .ok key => proceed_round rnd may_block { s with round := .Final key }
        | .err e => (s, .err (.ProceedRound e))
        | .panic => (s, .panic)
      | .err e => (s, .err e)
      | .panic => (s, .panic)
    else (s, .ok ())
  | .Final _ => (s, .ok ())
  | .Gone => (s, .ok ())
termination_by s.round.left
decreasing_by all_goals (simp only [_h, R.left]; omega)

/-- keygen.rs, lines 56-82, `Keygen::new` -/
def new (rnd : KeygenRandomness) (i t n : ℕ) : Except NewError (State × Res Error Unit) :=
  if n < 2 then .error .TooFewParties
  else if t = 0 ∨ t ≥ n then .error .InvalidThreshold
  else if i = 0 ∨ i > n then .error .InvalidPartyIndex
  else .ok (proceed_round rnd false
    { round := .Round0 ⟨i, t, n⟩
      msgs1 := some (Store.new _ false i n)
      msgs2 := some (Store.new _ false i n)
      msgs3 := some (Store.new _ true i n)
      msgs4 := some (Store.new _ false i n)
      msgs_queue := []
      party_i := i
      party_n := n })

/-- keygen.rs, lines 316-325, `current_round` -/
def current_round (s : State) : ℕ :=
  match s.round with
  | .Round0 _ => 0
  | .Round1 _ => 1
  | .Round2 _ => 2
  | .Round3 _ => 3
  | .Round4 _ => 4
  | .Final _ | .Gone => 5

/-- keygen.rs, lines 192-265, `handle_incoming` -/
def handle_incoming (rnd : KeygenRandomness) (s : State) (msg : Msg M) : State × Res Error Unit :=
  match msg.body with
  | .Round1 m =>
    match s.msgs1 with
    | none => (s, .err (.ReceivedOutOfOrderMessage (current_round s) 1))
    | some store =>
      match store.push_msg ⟨msg.sender, msg.receiver, m⟩ with
      | .ok store' => proceed_round rnd false { s with msgs1 := some store' }
      | .err e => (s, .err (.HandleMessage e))
      | .panic => (s, .panic)
  | .Round2 m =>
    match s.msgs2 with
    | none => (s, .err (.ReceivedOutOfOrderMessage (current_round s) 2))
    | some store =>
      match store.push_msg ⟨msg.sender, msg.receiver, m⟩ with
      | .ok store' => proceed_round rnd false { s with msgs2 := some store' }
      | .err e => (s, .err (.HandleMessage e))
      | .panic => (s, .panic)
  | .Round3 m =>
    match s.msgs3 with
    | none => (s, .err (.ReceivedOutOfOrderMessage (current_round s) 3))
    | some store =>
      match store.push_msg ⟨msg.sender, msg.receiver, m⟩ with
      | .ok store' => proceed_round rnd false { s with msgs3 := some store' }
      | .err e => (s, .err (.HandleMessage e))
      | .panic => (s, .panic)
  | .Round4 m =>
    match s.msgs4 with
    | none => (s, .err (.ReceivedOutOfOrderMessage (current_round s) 4))
    | some store =>
      match store.push_msg ⟨msg.sender, msg.receiver, m⟩ with
      | .ok store' => proceed_round rnd false { s with msgs4 := some store' }
      | .err e => (s, .err (.HandleMessage e))
      | .panic => (s, .panic)

/-- keygen.rs, lines 271-285, `wants_to_proceed` -/
def wants_to_proceed (s : State) : Bool :=
  match s.round with
  | .Round0 _ => true
  | .Round1 _ => !wantsMore s.msgs1
  | .Round2 _ => !wantsMore s.msgs2
  | .Round3 _ => !wantsMore s.msgs3
  | .Round4 _ => !wantsMore s.msgs4
  | .Final _ | .Gone => false

/-- keygen.rs, lines 299-301, `is_finished` -/
def is_finished (s : State) : Bool :=
  match s.round with
  | .Final _ => true
  | _ => false

/-- keygen.rs, lines 303-314, `pick_output` -/
def pick_output (s : State) : State × Option (Res Error LocalKey) :=
  match s.round with
  | .Final result => ({ s with round := .Gone }, some (.ok result))
  | .Gone => (s, some (.err .DoublePickOutput))
  | _ => (s, none)

/-- keygen.rs, lines 342-357, `round_blame` -/
def round_blame (s : State) : ℕ × List ℕ :=
  match s.round with
  | .Round0 _ => (0, [])
  | .Round1 _ => blameOf s.msgs1
  | .Round2 _ => blameOf s.msgs2
  | .Round3 _ => blameOf s.msgs3
  | .Round4 _ => blameOf s.msgs4
  | .Final _ | .Gone => (0, [])

/-- keygen.rs, lines 187-335, `impl StateMachine for Keygen`.  `round_timeout` is `None` and
`round_timeout_reached` is never called. -/
def machine (rnd : KeygenRandomness) : StateMachine State M LocalKey ProceedError where
  handle_incoming := handle_incoming rnd
  proceed := proceed_round rnd true
  message_queue := State.msgs_queue
  clear_queue := fun s => { s with msgs_queue := [] }
  wants_to_proceed := wants_to_proceed
  is_finished := is_finished
  pick_output := pick_output
  current_round := current_round
  round_blame := round_blame

end Verif.GG20.Keygen
