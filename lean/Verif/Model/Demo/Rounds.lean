import Verif.Base.Check
import Verif.Model.GG20.KeygenRun

/-!
# The GG18 demo clients: exchanging and collecting messages

Models the collection loops of `examples/common.rs`, `examples/gg18_keygen_client.rs` and
`examples/gg18_sign_client.rs`, and one synchronous round among all clients.
-/

namespace Verif.Demo

/-- examples/common.rs, lines 134-161 and 163-190, `poll_for_broadcasts` and `poll_for_p2p`: the values
posted by the parties `1, ..., n` other than `party_num`, in ascending order.  `posted i` is the value
found under party `i`'s key (the loop waits until there is one). -/
def poll {α : Type} (party_num n : ℕ) (posted : ℕ → α) : List α :=
  ((List.range' 1 n).filter (fun i => decide (i ≠ party_num))).map posted

/-- The loop with which the clients put their own value between the received ones, for instance
gg18_sign_client.rs, lines 514-524: for every party number of the list, the own value or the next
received one (`ans[j]` panics when there is none left). -/
def reassembleLoop {ε α : Type} (party_num : ℕ) (own : α) (ans : List α) :
    List ℕ → ℕ → Res ε (List α)
  | [], _ => .ok []
  | i :: is, j =>
    if i = party_num then do
      let rest ← reassembleLoop party_num own ans is j
      .ok (own :: rest)
    else do
      let a ← Res.get ans j
      let rest ← reassembleLoop party_num own ans is (j + 1)
      .ok (a :: rest)

/-- The loops over `1..=PARTIES` or `1..=THRESHOLD + 1` in the two clients
(gg18_keygen_client.rs, lines 77-82, 106-123, 167-180, 202-211, 237-246; gg18_sign_client.rs, lines 89-97, 133-147,
508-524) -/
def reassemble {ε α : Type} (n party_num : ℕ) (own : α) (ans : List α) : Res ε (List α) :=
  reassembleLoop party_num own ans (List.range' 1 n) 0

/-- gg18_sign_client.rs, lines 508-524, `format_vec_from_reads` -/
def format_vec_from_reads {ε α : Type} (ans_vec : List α) (party_num : ℕ) (value_i : α) :
    Res ε (List α) :=
  reassembleLoop party_num value_i ans_vec (List.range' 1 (ans_vec.length + 1)) 0

/-- `vec.remove(i)`; panics out of bounds. (gg18_sign_client.rs, lines 300-301, 381-382, 485) -/
def vecRemove {ε α : Type} (l : List α) (i : ℕ) : Res ε (α × List α) := do
  let a ← Res.get l i
  .ok (a, l.eraseIdx i)

/-- One round among the parties `1, ..., m`: party `k + 1` continues from its state with the messages
addressed to it, ordered by sender. (common.rs, lines 134-190: what the polls of a round return) -/
def runRound {ε σ β τ : Type} (m : ℕ) (step : ℕ → σ → List β → Res ε τ)
    (prev : List (σ × List (Msg β))) : Res ε (List τ) :=
  Res.mapM (fun k => do
    let p ← Res.get prev k
    step (k + 1) p.1 (inbox (prev.map Prod.snd) (k + 1))) (List.range m)

end Verif.Demo
