import Verif.Model.GG20.SignRounds
import Verif.Model.RoundMachine

/-!
# The GG20 offline stage state machine

Models `OfflineStage` of `src/protocols/multi_party_ecdsa/gg_2020/state_machine/sign.rs`.  The random
values the party uses are fixed in advance (`rnd`).  `replace(&mut self.round, OfflineR::Gone)` means
that a call that fails leaves the round `Gone`, with the round's store taken.
-/

namespace Verif.GG20.Sign

open EC Crypto

variable [Crypto]

/-- sign.rs, lines 483-490, `OfflineM` (inside `OfflineProtocolMessage`) -/
inductive M where
  | M1 (m : MessageA × SignBroadcastPhase1)
  | M2 (m : MessageB × MessageB)
  | M3 (m : TMsg)
  | M4 (m : SignDecommitPhase1)
  | M5 (m : Pt × List PDLwSlackProof)
  | M6 (m : Pt × HomoElGamalProof)

/-- sign.rs, lines 465-475, `OfflineR` -/
inductive R where
  | R0 (r : Sign.Round0)
  | R1 (r : Sign.Round1)
  | R2 (r : Sign.Round2)
  | R3 (r : Sign.Round3)
  | R4 (r : Sign.Round4)
  | R5 (r : Sign.Round5)
  | R6 (r : Sign.Round6)
  | Finished (c : CompletedOfflineStage)
  | Gone

/-- sign.rs, lines 51-66, `OfflineStage` -/
structure State where
  round : R
  msgs1 : Option (Store (MessageA × SignBroadcastPhase1))
  msgs2 : Option (Store (MessageB × MessageB))
  msgs3 : Option (Store TMsg)
  msgs4 : Option (Store SignDecommitPhase1)
  msgs5 : Option (Store (Pt × List PDLwSlackProof))
  msgs6 : Option (Store (Pt × HomoElGamalProof))
  msgs_queue : List (Msg M)
  party_i : ℕ
  party_n : ℕ

/-- The errors of `OfflineStage::new` (sign.rs, lines 523-536, part of `Error`). -/
inductive NewError where
  | TooFewParties
  | TooManyParties (n : ℕ)
  | InvalidPartyIndex
  | InvalidSl
  deriving DecidableEq

/-- sign.rs, lines 521-569 -/
abbrev OfflineError := SMError SignError

/-- sign/rounds.rs, lines 106-108 -/
def Round0.is_expensive : Bool := true
/-- sign/rounds.rs, lines 215-217 -/
def Round1.is_expensive : Bool := true
/-- sign/rounds.rs, lines 323-325 -/
def Round2.is_expensive : Bool := true
/-- sign/rounds.rs, lines 408-410 -/
def Round3.is_expensive : Bool := true
/-- sign/rounds.rs, lines 504-506 -/
def Round4.is_expensive : Bool := true
/-- sign/rounds.rs, lines 598-600 -/
def Round5.is_expensive : Bool := true
/-- sign/rounds.rs, lines 642-644 -/
def Round6.is_expensive : Bool := true

/-- The number of rounds left, for termination of `proceed_round`. (no lines of its own) -/
def R.left : R → ℕ
  | .R0 _ => 7
  | .R1 _ => 6
  | .R2 _ => 5
  | .R3 _ => 4
  | .R4 _ => 3
  | .R5 _ => 2
  | .R6 _ => 1
  | .Finished _ => 0
  | .Gone => 0

/-- sign.rs, lines 126-249, `OfflineStage::proceed_round`: after rounds 0 to 3 it tries the next round,
after rounds 4 to 6 it returns (`try_again`). -/
def proceed_round (rnd : SignRandomness) (may_block : Bool) (s : State) :
    State × Res OfflineError Unit :=
  match _h : s.round with
  | .R0 round =>
    if !Round0.is_expensive || may_block then
      let s := { s with round := .Gone }
      match round.proceed rnd with
      | .ok (next, out) =>
        proceed_round rnd may_block { s with
          round := .R1 next
          msgs_queue := s.msgs_queue ++ out.map (Msg.mapBody M.M1) }
      | .err e => (s, .err (.ProceedRound e))
      | .panic => (s, .panic)
    else (s, .ok ())
  | .R1 round =>
    if !wantsMore s.msgs1 && (!Round1.is_expensive || may_block) then
      let store := s.msgs1
      let s := { s with round := .Gone, msgs1 := none }
      match finishStore store with
      | .ok msgs =>
        match round.proceed msgs rnd with
        | .ok (next, out) =>
          proceed_round rnd may_block { s with
            round := .R2 next
            msgs_queue := s.msgs_queue ++ out.map (Msg.mapBody M.M2) }
        | .err e => (s, .err (.ProceedRound e))
        | .panic => (s, .panic)
      | .err e => (s, .err e)
      | .panic => (s, .panic)
    else (s, .ok ())
  | .R2 round =>
    if !wantsMore s.msgs2 && (!Round2.is_expensive || may_block) then
      let store := s.msgs2
      let s := { s with round := .Gone, msgs2 := none }
      match finishStore store with
      | .ok msgs =>
        match round.proceed msgs rnd with
        | .ok (next, out) =>
          proceed_round rnd may_block { s with
            round := .R3 next
            msgs_queue := s.msgs_queue ++ out.map (Msg.mapBody M.M3) }
        | .err e => (s, .err (.ProceedRound e))
        | .panic => (s, .panic)
      | .err e => (s, .err e)
      | .panic => (s, .panic)
    else (s, .ok ())
  | .R3 round =>
    if !wantsMore s.msgs3 && (!Round3.is_expensive || may_block) then
      let store := s.msgs3
      let s := { s with round := .Gone, msgs3 := none }
      match finishStore store with
      | .ok msgs =>
        match round.proceed msgs with
        | .ok (next, out) =>
          proceed_round rnd may_block { s with
            round := .R4 next
            msgs_queue := s.msgs_queue ++ out.map (Msg.mapBody M.M4) }
        | .err e => (s, .err (.ProceedRound e))
        | .panic => (s, .panic)
      | .err e => (s, .err e)
      | .panic => (s, .panic)
    else (s, .ok ())
  | .R4 round =>
    if !wantsMore s.msgs4 && (!Round4.is_expensive || may_block) then
      let store := s.msgs4
      let s := { s with round := .Gone, msgs4 := none }
      match finishStore store with
      | .ok msgs =>
        match round.proceed msgs rnd with
        | .ok (next, out) =>
          ({ s with
            round := .R5 next
            msgs_queue := s.msgs_queue ++ out.map (Msg.mapBody M.M5) }, .ok ())
        | .err e => (s, .err (.ProceedRound e))
        | .panic => (s, .panic)
      | .err e => (s, .err e)
      | .panic => (s, .panic)
    else (s, .ok ())
  | .R5 round =>
    if !wantsMore s.msgs5 && (!Round5.is_expensive || may_block) then
      let store := s.msgs5
      let s := { s with round := .Gone, msgs5 := none }
      match finishStore store with
      | .ok msgs =>
        match round.proceed msgs rnd with
        | .ok (next, out) =>
          ({ s with
            round := .R6 next
            msgs_queue := s.msgs_queue ++ out.map (Msg.mapBody M.M6) }, .ok ())
        | .err e => (s, .err (.ProceedRound e))
        | .panic => (s, .panic)
      | .err e => (s, .err e)
      | .panic => (s, .panic)
    else (s, .ok ())
  | .R6 round =>
    if !wantsMore s.msgs6 && (!Round6.is_expensive || may_block) then
      let store := s.msgs6
      let s := { s with round := .Gone, msgs6 := none }
      match finishStore store with
      | .ok msgs =>
        match round.proceed msgs with
        | .ok c => ({ s with round := .Finished c }, .ok ())
        | .err e => (s, .err (.ProceedRound e))
        | .panic => (s, .panic)
      | .err e => (s, .err e)
      | .panic => (s, .panic)
    else (s, .ok ())
  | .Finished _ => (s, .ok ())
  | .Gone => (s, .ok ())
termination_by s.round.left
decreasing_by all_goals (simp only [_h, R.left]; omega)

/-- sign.rs, lines 78-119, `OfflineStage::new`.  The duplicate check sorts, removes adjacent repetitions and
compares. -/
def new (i : ℕ) (s_l : List ℕ) (local_key : LocalKey) : Except NewError State :=
  if s_l.length < 2 then .error .TooFewParties
  else if i = 0 ∨ i > s_l.length then .error .InvalidPartyIndex
  else if s_l.any (fun j => j = 0 ∨ j > local_key.n) then .error .InvalidSl
  else if s_l.mergeSort ≠ s_l.mergeSort.destutter (· ≠ ·) then .error .InvalidSl
  else if s_l.length ≥ 2 ^ 16 then .error (.TooManyParties s_l.length)
  else
    let n := s_l.length
    .ok
    { round := .R0 ⟨i, s_l, local_key⟩
      msgs1 := some (Store.new _ false i n)
      msgs2 := some (Store.new _ true i n)
      msgs3 := some (Store.new _ false i n)
      msgs4 := some (Store.new _ false i n)
      msgs5 := some (Store.new _ false i n)
      msgs6 := some (Store.new _ false i n)
      msgs_queue := []
      party_i := i
      party_n := n }

/-- sign.rs, lines 414-425, `current_round` -/
def current_round (s : State) : ℕ :=
  match s.round with
  | .R0 _ => 0
  | .R1 _ => 1
  | .R2 _ => 2
  | .R3 _ => 3
  | .R4 _ => 4
  | .R5 _ => 5
  | .R6 _ => 6
  | .Finished _ | .Gone => 7

/-- sign.rs, lines 257-359, `handle_incoming`.  A late message of rounds 3 to 6 is reported with round 2. -/
def handle_incoming (rnd : SignRandomness) (s : State) (msg : Msg M) : State × Res OfflineError Unit :=
  match msg.body with
  | .M1 m =>
    match s.msgs1 with
    | none => (s, .err (.ReceivedOutOfOrderMessage (current_round s) 1))
    | some store =>
      match store.push_msg ⟨msg.sender, msg.receiver, m⟩ with
      | .ok store' => proceed_round rnd false { s with msgs1 := some store' }
      | .err e => (s, .err (.HandleMessage e))
      | .panic => (s, .panic)
  | .M2 m =>
    match s.msgs2 with
    | none => (s, .err (.ReceivedOutOfOrderMessage (current_round s) 2))
    | some store =>
      match store.push_msg ⟨msg.sender, msg.receiver, m⟩ with
      | .ok store' => proceed_round rnd false { s with msgs2 := some store' }
      | .err e => (s, .err (.HandleMessage e))
      | .panic => (s, .panic)
  | .M3 m =>
    match s.msgs3 with
    | none => (s, .err (.ReceivedOutOfOrderMessage (current_round s) 2))
    | some store =>
      match store.push_msg ⟨msg.sender, msg.receiver, m⟩ with
      | .ok store' => proceed_round rnd false { s with msgs3 := some store' }
      | .err e => (s, .err (.HandleMessage e))
      | .panic => (s, .panic)
  | .M4 m =>
    match s.msgs4 with
    | none => (s, .err (.ReceivedOutOfOrderMessage (current_round s) 2))
    | some store =>
      match store.push_msg ⟨msg.sender, msg.receiver, m⟩ with
      | .ok store' => proceed_round rnd false { s with msgs4 := some store' }
      | .err e => (s, .err (.HandleMessage e))
      | .panic => (s, .panic)
  | .M5 m =>
    match s.msgs5 with
    | none => (s, .err (.ReceivedOutOfOrderMessage (current_round s) 2))
    | some store =>
      match store.push_msg ⟨msg.sender, msg.receiver, m⟩ with
      | .ok store' => proceed_round rnd false { s with msgs5 := some store' }
      | .err e => (s, .err (.HandleMessage e))
      | .panic => (s, .panic)
  | .M6 m =>
    match s.msgs6 with
    | none => (s, .err (.ReceivedOutOfOrderMessage (current_round s) 2))
    | some store =>
      match store.push_msg ⟨msg.sender, msg.receiver, m⟩ with
      | .ok store' => proceed_round rnd false { s with msgs6 := some store' }
      | .err e => (s, .err (.HandleMessage e))
      | .panic => (s, .panic)

/-- sign.rs, lines 365-383, `wants_to_proceed` -/
def wants_to_proceed (s : State) : Bool :=
  match s.round with
  | .R0 _ => true
  | .R1 _ => !wantsMore s.msgs1
  | .R2 _ => !wantsMore s.msgs2
  | .R3 _ => !wantsMore s.msgs3
  | .R4 _ => !wantsMore s.msgs4
  | .R5 _ => !wantsMore s.msgs5
  | .R6 _ => !wantsMore s.msgs6
  | .Finished _ | .Gone => false

/-- sign.rs, lines 397-399, `is_finished` -/
def is_finished (s : State) : Bool :=
  match s.round with
  | .Finished _ => true
  | _ => false

/-- sign.rs, lines 401-412, `pick_output` -/
def pick_output (s : State) : State × Option (Res OfflineError CompletedOfflineStage) :=
  match s.round with
  | .Finished result => ({ s with round := .Gone }, some (.ok result))
  | .Gone => (s, some (.err .DoublePickOutput))
  | _ => (s, none)

/-- sign.rs, lines 440-463, `round_blame` -/
def round_blame (s : State) : ℕ × List ℕ :=
  match s.round with
  | .R0 _ => (0, [])
  | .R1 _ => blameOf s.msgs1
  | .R2 _ => blameOf s.msgs2
  | .R3 _ => blameOf s.msgs3
  | .R4 _ => blameOf s.msgs4
  | .R5 _ => blameOf s.msgs5
  | .R6 _ => blameOf s.msgs6
  | .Finished _ => blameOf s.msgs6
  | .Gone => (0, [])

/-- sign.rs, lines 252-437, `impl StateMachine for OfflineStage`.  `round_timeout` is `None` and
`round_timeout_reached` is never called. -/
def machine (rnd : SignRandomness) : StateMachine State M CompletedOfflineStage SignError where
  handle_incoming := handle_incoming rnd
  proceed := proceed_round rnd true
  message_queue := State.msgs_queue
  clear_queue := fun s => { s with msgs_queue := [] }
  wants_to_proceed := wants_to_proceed
  is_finished := is_finished
  pick_output := pick_output
  current_round := current_round
  round_blame := round_blame

end Verif.GG20.Sign
