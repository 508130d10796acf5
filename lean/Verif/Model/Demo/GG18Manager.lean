import Mathlib.Data.Nat.Notation

/-!
# The manager of the GG18 demo, and how the clients talk to it

Models `examples/gg18_sm_manager.rs` and lines 81-190 of `examples/common.rs` (keys and retries).  A table
from keys to strings; requests run concurrently.  `get` and `set` hold the lock for the whole access; a
sign-up reads under the read lock, releases it, and writes under the write lock (lines 48-66 and 79-97), so
it is two steps.  The configuration file is taken to be readable, and `threshold + 1` not to overflow.
-/

namespace Verif.Demo.Manager

/-- common.rs, lines 29-33, `PartySignup` -/
structure PartySignup where
  number : ℕ
  uuid : String
  deriving DecidableEq

/-- `serde_json` on `PartySignup`: reading inverts writing, and fails on some strings.
(gg18_sm_manager.rs, lines 51, 66, 82, 97, 132, 134) -/
structure Json where
  write : PartySignup → String
  read : String → Option PartySignup
  read_write : ∀ p, read (write p) = some p

/-- common.rs, lines 46-50, `Params`, parsed -/
structure Params where
  parties : ℕ
  threshold : ℕ

/-- gg18_sm_manager.rs, lines 39-40 and 70-71: the two sign-up routes -/
inductive Kind where
  | keygen
  | sign
  deriving DecidableEq

/-- gg18_sm_manager.rs, lines 46 and 77: the key of a sign-up -/
def Kind.key : Kind → String
  | .keygen => "signup-keygen"
  | .sign => "signup-sign"

/-- gg18_sm_manager.rs, lines 52 and 83: how many numbers a session has -/
def Params.limit (P : Params) : Kind → ℕ
  | .keygen => P.parties
  | .sign => P.threshold + 1

/-- gg18_sm_manager.rs, line 105: the table `HashMap<Key, String>` -/
abbrev Table := String → Option String

/-- `HashMap::insert` (gg18_sm_manager.rs, lines 35, 66, 97) -/
def Table.insert (tab : Table) (key value : String) : Table := fun k => if k = key then some value else tab k

/-- Lines 102-134, `main`: the table at the start -/
def Table.init (J : Json) (uuid_keygen uuid_sign : String) : Table :=
  (Table.insert (Table.insert (fun _ => none) Kind.keygen.key (J.write ⟨0, uuid_keygen⟩)) Kind.sign.key
    (J.write ⟨0, uuid_sign⟩))

/-- Lines 48-63 and 79-94: the next number of the session, or number 1 of a new session with the id
`uuid`; `none` is a panic (no entry, or not a sign-up). -/
def readPhase (J : Json) (P : Params) (tab : Table) (kind : Kind) (uuid : String) : Option PartySignup := do
  let value ← tab kind.key
  let client_signup ← J.read value
  some (if client_signup.number < P.limit kind then ⟨client_signup.number + 1, client_signup.uuid⟩
    else ⟨1, uuid⟩)

/-- Lines 65-66 and 96-97 -/
def writePhase (J : Json) (tab : Table) (kind : Kind) (s : PartySignup) : Table :=
  tab.insert kind.key (J.write s)

/-- A whole sign-up without interruption (gg18_sm_manager.rs, lines 46-67 and 77-98) -/
def signup (J : Json) (P : Params) (kind : Kind) (uuid : String) (tab : Table) : Table × Option PartySignup :=
  match readPhase J P tab kind uuid with
  | none => (tab, none)
  | some s => (writePhase J tab kind s, some s)

/-! ### Requests that may overlap -/

/-- The table and the sign-ups that have read the table and not yet written it
(gg18_sm_manager.rs, lines 48-65 and 79-96: between the two locks) -/
structure Mgr where
  tab : Table
  busy : List (Kind × PartySignup)

/-- What happens next: one of the routes of lines 12-29 (`get`) and 31-37 (`set`), or half of a sign-up of
lines 39-68 or 70-99.  `uuid` is what `Uuid::new_v4` would return; `signupWrite j` lets the `j`-th busy
sign-up go on. -/
inductive Event where
  | get (key : String)
  | set (key value : String)
  | signupRead (kind : Kind) (uuid : String)
  | signupWrite (j : ℕ)
  deriving DecidableEq

/-- What the clients are told (gg18_sm_manager.rs, lines 25, 27, 36, 67, 98) -/
inductive Out where
  | value (key : String) (v : Option String)
  | stored (key : String)
  | signedUp (kind : Kind) (s : Option PartySignup)
  deriving DecidableEq

/-- gg18_sm_manager.rs, lines 12-99: one critical section of one request -/
def Mgr.step (J : Json) (P : Params) (m : Mgr) : Event → Mgr × List Out
  | .get key => (m, [.value key (m.tab key)])
  | .set key value => ({ m with tab := m.tab.insert key value }, [.stored key])
  | .signupRead kind uuid =>
    match readPhase J P m.tab kind uuid with
    | none => (m, [.signedUp kind none])
    | some s => ({ m with busy := m.busy ++ [(kind, s)] }, [])
  | .signupWrite j =>
    match m.busy[j]? with
    | none => (m, [])
    | some (kind, s) => (⟨writePhase J m.tab kind s, m.busy.eraseIdx j⟩, [.signedUp kind (some s)])

/-- gg18_sm_manager.rs, lines 12-99: a sequence of critical sections, with everything the clients are told -/
def Mgr.run (J : Json) (P : Params) (m : Mgr) : List Event → Mgr × List Out
  | [] => (m, [])
  | e :: es =>
    let (m1, o1) := m.step J P e
    let (m2, o2) := m1.run J P es
    (m2, o1 ++ o2)

/-! ### Keys, common.rs -/

/-- Line 111 (`broadcast`) and line 145 (`poll_for_broadcasts`) -/
def broadcastKey (party : ℕ) (round uuid : String) : String :=
  toString party ++ "-" ++ round ++ "-" ++ uuid

/-- Line 126 (`sendp2p`) and line 174 (`poll_for_p2p`) -/
def p2pKey (party_from party_to : ℕ) (round uuid : String) : String :=
  toString party_from ++ "-" ++ toString party_to ++ "-" ++ round ++ "-" ++ uuid

/-! ### Retries, common.rs -/

/-- What happens to one HTTP request (common.rs, lines 91-98) -/
inductive Net where
  | ok
  | requestLost
  | replyLost

/-- Lines 88-101, `postb`: `for _i in 1..retries` with `retries = 3` makes two attempts. -/
def postbLoop {σ α : Type} (server : σ → σ × α) (net : ℕ → Net) : List ℕ → σ → σ × Option α
  | [], s => (s, none)
  | i :: is, s =>
    match net i with
    | .ok => ((server s).1, some (server s).2)
    | .requestLost => postbLoop server net is s
    | .replyLost => postbLoop server net is (server s).1

/-- common.rs, lines 81-102, `postb` -/
def postb {σ α : Type} (server : σ → σ × α) (net : ℕ → Net) (s : σ) : σ × Option α :=
  postbLoop server net (List.range' 1 2) s

end Verif.Demo.Manager
