import Verif.Ext.StateMachine
import Mathlib.Logic.Function.Basic

/-!
# A generic round-based machine

Not code of the repository: `Keygen` (keygen.rs) and `OfflineStage` (sign.rs) contain the same
logic, written out once per round.  `Proto.machine` is that logic with the rounds as data.  The models
of `Keygen` and `OfflineStage` follow the repository's text and are proved (in `Lemmas`) to behave
exactly like instances of this machine, so that the statements below are proved once.
-/

namespace Verif

/-- Rounds as data: `St k` is the state in round `k` (`St (K+1)` is the output), `Bd k` the body of a
round-`k` message.  `lateRound` is the round reported for a late message, `lastBlame` the store consulted
for blame once finished.
(what differs between the arms of keygen.rs, lines 93-185, and sign.rs, lines 126-249) -/
structure Proto where
  K : ℕ
  Bd : ℕ → Type
  St : ℕ → Type
  Er : Type
  p2p : ℕ → Bool
  expensive : ℕ → Bool
  again : ℕ → Bool
  lateRound : ℕ → ℕ
  lastBlame : ℕ
  fn : (k : ℕ) → St k → List (Bd k) → Res Er (St (k + 1) × List (Msg (Bd (k + 1))))

namespace Proto

/-- A message body with its round. (keygen.rs, lines 421-426; sign.rs, lines 483-490) -/
abbrev Body (P : Proto) := Σ k, P.Bd k

/-- keygen.rs, lines 402-410; sign.rs, lines 466-476: the round, or `Gone` -/
inductive Rd (P : Proto) where
  | at (k : ℕ) (r : P.St k)
  | gone

/-- keygen.rs, lines 31-43; sign.rs, lines 51-66 -/
structure State (P : Proto) where
  round : P.Rd
  stores : (k : ℕ) → Option (Store (P.Bd k))
  queue : List (Msg P.Body)

variable (P : Proto)

/-- keygen.rs, lines 84-91; sign.rs, lines 494-517 -/
def tag (k : ℕ) (m : Msg (P.Bd k)) : Msg P.Body := m.mapBody (fun b => ⟨k, b⟩)

end Proto

/-- `store.as_ref().map(|s| s.wants_more()).unwrap_or(false)`
(keygen.rs, lines 94-97; sign.rs, lines 127-132) -/
def wantsMore {β : Type} (o : Option (Store β)) : Bool :=
  match o with
  | some s => s.wants_more
  | none => false

/-- `store.as_ref().map(|s| s.blame()).unwrap_or_default()`
(keygen.rs, lines 344-356; sign.rs, lines 444-461) -/
def blameOf {β : Type} (o : Option (Store β)) : ℕ × List ℕ :=
  match o with
  | some s => s.blame
  | none => (0, [])

/-- `store.take().ok_or(StoreGone)?` followed by `store.finish().map_err(..)?`
(keygen.rs, lines 113-116; sign.rs, lines 148-151 and the same for the later rounds) -/
def finishStore {β ε : Type} (o : Option (Store β)) : Res (SMError ε) (List β) :=
  match o with
  | none => .err (.InternalError .StoreGone)
  | some s => s.finish.mapErr (fun e => .InternalError (.RetrieveRoundMessages e))

namespace Proto

variable (P : Proto)

/-- keygen.rs, lines 98-184; sign.rs, lines 133-248: the guard of each arm -/
def ready (mayBlock : Bool) (s : P.State) (k : ℕ) : Bool :=
  decide (k ≤ P.K) && !(wantsMore (s.stores k)) && (!(P.expensive k) || mayBlock)

/-- keygen.rs, lines 113-116; sign.rs, lines 148-151 and the same for the later rounds -/
def take (s : P.State) (k : ℕ) : P.State × Res (SMError P.Er) (List (P.Bd k)) :=
  if k = 0 then (s, .ok [])
  else ({ s with stores := Function.update s.stores k none }, finishStore (s.stores k))

/-- keygen.rs, lines 93-185; sign.rs, lines 126-249 -/
def proceedRound (mayBlock : Bool) (s : P.State) : P.State × Res (SMError P.Er) Unit :=
  match _hs : s.round with
  | .gone => (s, .ok ())
  | .at k r =>
    if _h : P.ready mayBlock s k = true then
      let s1 : P.State := { s with round := .gone }
      let t := P.take s1 k
      match t.2 with
      | .ok ms =>
        match P.fn k r ms with
        | .ok (r', out) =>
          let s3 : P.State :=
            { t.1 with round := .at (k + 1) r', queue := t.1.queue ++ out.map (P.tag (k + 1)) }
          if P.again k then proceedRound mayBlock s3 else (s3, .ok ())
        | .err e => (t.1, .err (.ProceedRound e))
        | .panic => (t.1, .panic)
      | .err e => (t.1, .err e)
      | .panic => (t.1, .panic)
    else (s, .ok ())
termination_by match s.round with | .at k _ => P.K + 1 - k | .gone => 0
decreasing_by
  simp only [_hs]
  simp only [ready, Bool.and_eq_true, decide_eq_true_eq] at _h
  omega

/-- keygen.rs, lines 316-325; sign.rs, lines 414-425 -/
def currentRound (s : P.State) : ℕ :=
  match s.round with
  | .at k _ => k
  | .gone => P.K + 1

/-- keygen.rs, lines 192-265; sign.rs, lines 257-359 -/
def handle (s : P.State) (m : Msg P.Body) : P.State × Res (SMError P.Er) Unit :=
  match s.stores m.body.1 with
  | none => (s, .err (.ReceivedOutOfOrderMessage (P.currentRound s) (P.lateRound m.body.1)))
  | some st =>
    match st.push_msg ⟨m.sender, m.receiver, m.body.2⟩ with
    | .ok st' => P.proceedRound false { s with stores := Function.update s.stores m.body.1 (some st') }
    | .err e => (s, .err (.HandleMessage e))
    | .panic => (s, .panic)

/-- keygen.rs, lines 303-314; sign.rs, lines 401-412 -/
def pick (s : P.State) : P.State × Option (Res (SMError P.Er) (P.St (P.K + 1))) :=
  match s.round with
  | .gone => (s, some (.err .DoublePickOutput))
  | .at k r =>
    if h : k = P.K + 1 then ({ s with round := .gone }, some (.ok (h ▸ r))) else (s, none)

/-- keygen.rs, lines 342-357; sign.rs, lines 440-463 -/
def blame (s : P.State) : ℕ × List ℕ :=
  match s.round with
  | .gone => (0, [])
  | .at k _ => blameOf (s.stores (if k = P.K + 1 then P.lastBlame else k))

/-- keygen.rs, lines 187-335; sign.rs, lines 252-437 -/
def machine : StateMachine P.State P.Body (P.St (P.K + 1)) P.Er where
  handle_incoming := P.handle
  proceed := P.proceedRound true
  message_queue := State.queue
  clear_queue := fun s => { s with queue := [] }
  wants_to_proceed := fun s => match s.round with
    | .gone => false
    | .at k _ => decide (k ≤ P.K) && !(wantsMore (s.stores k))
  is_finished := fun s => match s.round with
    | .gone => false
    | .at k _ => decide (k = P.K + 1)
  pick_output := P.pick
  current_round := P.currentRound
  round_blame := P.blame

/-- The state after construction, for party `me` of `n`.
(keygen.rs, lines 66-81; sign.rs, lines 104-118) -/
def init (me n : ℕ) (r : P.St 0) : P.State :=
  ⟨.at 0 r, fun k => if 1 ≤ k ∧ k ≤ P.K then some (Store.new _ (P.p2p k) me n) else none, []⟩

/-- The straight-line execution up to round `k`: round functions applied one after the other to
complete vectors of messages.  Returns the state and all messages sent.
(no lines of its own: the rounds without stores) -/
def straight (r0 : P.St 0) (vecs : (k : ℕ) → List (P.Bd k)) :
    (k : ℕ) → Res P.Er (P.St k × List (Msg P.Body))
  | 0 => .ok (r0, [])
  | k + 1 => do
    let rq ← straight r0 vecs k
    let ro ← P.fn k rq.1 (if k = 0 then [] else vecs k)
    .ok (ro.1, rq.2 ++ ro.2.map (P.tag (k + 1)))

end Proto

/-- A computation that sends messages and then succeeds, fails or panics; one more step.
(no lines of its own: used to state which messages have been sent when a round fails) -/
def Script.step {μ ε α β : Type} (x : List μ × Res ε α) (f : α → Res ε (β × List μ)) :
    List μ × Res ε β :=
  match x.2 with
  | .ok a =>
    match f a with
    | .ok (b, out) => (x.1 ++ out, .ok b)
    | .err e => (x.1, .err e)
    | .panic => (x.1, .panic)
  | .err e => (x.1, .err e)
  | .panic => (x.1, .panic)

namespace Proto

variable (P : Proto)

/-- The straight-line execution, keeping what was sent before a failure.
(no lines of its own: the rounds without stores) -/
def script (r0 : P.St 0) (vecs : (k : ℕ) → List (P.Bd k)) :
    (k : ℕ) → List (Msg P.Body) × Res P.Er (P.St k)
  | 0 => ([], .ok r0)
  | k + 1 => Script.step (script r0 vecs k) (fun r => do
      let ro ← P.fn k r (if k = 0 then [] else vecs k)
      .ok (ro.1, ro.2.map (P.tag (k + 1))))

end Proto
end Verif
