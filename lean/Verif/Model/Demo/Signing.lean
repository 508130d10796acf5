import Verif.Model.Demo.Driver

/-!
# The GG20 signing demo as a whole

Models `main` of `examples/gg20_signing.rs` for several clients: the offline stage in one room of the message
server (`Demo.Driver`), and the online stage in another one, which every client joins when it has finished
the offline stage.  Reading the key and printing the signature are left out.
-/

namespace Verif.Demo.Signing

open EC GG20 Driver

variable [EC] {σ β ε : Type}

/-- What a client does in the online room (gg20_signing.rs, lines 58-87): the index it got there, whether it
has posted its partial signature, how many messages of the room it has read, and what `main` has come to. -/
structure OnlineClient where
  index : Option ℕ
  posted : Bool
  cursor : ℕ
  result : Option (Res Error SignatureRecid)

/-- The two rooms: the clients in the offline room, and the number of the clients that have joined the online
room, the messages posted there and what every client does there.
(gg20_signing.rs, lines 43-45 and 58-60) -/
structure Rooms (σ β ε : Type) where
  offline : Room σ β CompletedOfflineStage ε
  joined : ℕ
  log : List (Msg Sc)
  client : ℕ → OnlineClient

variable (T : Setting σ β CompletedOfflineStage ε) (message : ℤ)

/-- gg20_signing.rs, lines 43-52: nobody has been run yet -/
def init : Rooms σ β ε := ⟨T.init, 0, [], fun _ => ⟨none, false, 0, none⟩⟩

/-- gg20_signing.rs, lines 65-87, by client `i`, which got the index `o` in the online room and has the
presignature `c`: it makes its partial signature, and posts it under the index of the *offline* room. -/
def post (s : Rooms σ β ε) (i o : ℕ) (c : CompletedOfflineStage) : Rooms σ β ε :=
  match SignManual.new message c with
  | .ok (_, p) => { s with
      log := s.log ++ [Client.partialMsg i p]
      client := Function.update s.client i { s.client i with
        posted := true
        result := Client.online T.n o message c [] } }
  | .err e => { s with
      client := Function.update s.client i { s.client i with posted := true, result := some (.err e) } }
  | .panic => { s with
      client := Function.update s.client i { s.client i with posted := true, result := some .panic } }

/-- One step of one client.  The requests of different clients are interleaved arbitrarily.
(gg20_signing.rs, lines 43-87) -/
inductive Step : Rooms σ β ε → Rooms σ β ε → Prop where
  /-- lines 41-56: a step in the offline room -/
  | offline (s : Rooms σ β ε) (r : Room σ β CompletedOfflineStage ε) (h : T.Step s.offline r) :
      Step s { s with offline := r }
  /-- lines 58-60: client `i`, having finished the offline stage, joins the online room; the server issues
  the indices 1, 2, ... (gg20_sm_manager.rs, C59) -/
  | join (s : Rooms σ β ε) (i : ℕ) (h1 : 1 ≤ i) (h2 : i ≤ T.n) (c : CompletedOfflineStage)
      (idle : (s.offline.client i).posted = (s.offline.client i).run.sent.length)
      (returned : (s.offline.client i).run.result = some (.ok c))
      (new : (s.client i).index = none) :
      Step s { s with
        joined := s.joined + 1
        client := Function.update s.client i { s.client i with index := some (s.joined + 1) } }
  /-- lines 65-76 -/
  | post (s : Rooms σ β ε) (i : ℕ) (h1 : 1 ≤ i) (h2 : i ≤ T.n) (c : CompletedOfflineStage) (o : ℕ)
      (returned : (s.offline.client i).run.result = some (.ok c))
      (joined : (s.client i).index = some o) (new : (s.client i).posted = false) :
      Step s (post T message s i o c)
  /-- lines 78-85: client `i`, having posted its partial signature and still waiting for others, reads the
  next message of the online room -/
  | read (s : Rooms σ β ε) (i : ℕ) (h1 : 1 ≤ i) (h2 : i ≤ T.n) (c : CompletedOfflineStage) (o : ℕ)
      (returned : (s.offline.client i).run.result = some (.ok c))
      (joined : (s.client i).index = some o) (posted : (s.client i).posted = true)
      (waits : (s.client i).result = none) (next : (s.client i).cursor < s.log.length) :
      Step s { s with
        client := Function.update s.client i { s.client i with
          cursor := (s.client i).cursor + 1
          result := Client.online T.n o message c (s.log.take ((s.client i).cursor + 1)) } }

/-- `k` steps. (no lines of its own: repetition of `Step`) -/
inductive Steps : ℕ → Rooms σ β ε → Prop where
  | init : Steps 0 (init T)
  | step {k : ℕ} {s s' : Rooms σ β ε} (h : Steps k s) (st : Step T message s s') : Steps (k + 1) s'

end Verif.Demo.Signing
