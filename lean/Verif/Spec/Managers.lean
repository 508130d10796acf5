import Verif.Model.Demo.GG18Manager
import Verif.Ext.RoundMsg

/-!
# What clients of the GG18 manager observe, and what a GG20 client should read
-/

namespace Verif.Demo.Manager

/-- The session ids offered by the sign-ups of a kind, in order of arrival -/
def offered (kind : Kind) (es : List Event) : List String :=
  es.filterMap fun
    | .signupRead k u => if k = kind then some u else none
    | _ => none

/-- The answers to the sign-ups of a kind, in order -/
def numbers (kind : Kind) (outs : List Out) : List (Option PartySignup) :=
  outs.filterMap fun
    | .signedUp k s => if k = kind then some s else none
    | _ => none

/-- No client overwrites the sign-up counter of a kind with `set`. -/
def KeepsCounter (kind : Kind) (es : List Event) : Prop := ∀ v, Event.set kind.key v ∉ es

/-- No sign-up of the kind arrives while another one of the same kind is in progress. -/
def Serial (J : Json) (P : Params) (kind : Kind) : Mgr → List Event → Prop
  | _, [] => True
  | m, e :: es =>
    ((∃ u, e = .signupRead kind u) → ∀ s, (kind, s) ∉ m.busy) ∧ Serial J P kind (m.step J P e).1 es

/-- The session id a counter starts with -/
def initialId (uuid_keygen uuid_sign : String) : Kind → String
  | .keygen => uuid_keygen
  | .sign => uuid_sign

/-- How many parties take part in a session: all in key generation, `threshold + 1` in signing -/
def sessionSize (P : Params) : Kind → ℕ
  | .keygen => P.parties
  | .sign => P.threshold + 1

/-- The session of the `k`-th sign-up (from 0): sessions have `L` numbers, the first has the id `first`, a
later one the id offered by the sign-up that opened it. -/
def session (L : ℕ) (first : String) (ids : List String) (k : ℕ) : String :=
  if k < L then first else ids.getD (k / L * L) ""

/-- The value last stored under a key by a list of events without sign-ups of that key -/
def lastSet (key : String) (es : List Event) : Option String :=
  (es.filterMap fun
    | .set k v => if k = key then some v else none
    | _ => none).getLast?

/-- The answers to `get` for a key, in order -/
def got (key : String) (outs : List Out) : List (Option String) :=
  outs.filterMap fun
    | .value k v => if k = key then some v else none
    | _ => none

end Verif.Demo.Manager

namespace Verif.Demo.Client

/-- The messages of a history that are for party `i`: broadcast or addressed to it, and by someone else -/
def forParty {β : Type} (i : ℕ) (history : List (Msg β)) : List (Msg β) :=
  history.filter fun m => m.sender ≠ i ∧ (m.receiver = none ∨ m.receiver = some i)

end Verif.Demo.Client
