import Verif.Spec.SignSM
import Verif.Ext.AsyncProtocol

/-! # Specification of what a client's run returns -/

namespace Verif.Spec

open EC Crypto GG20

/-- What `AsyncProtocol::run` returned agrees with the straight-line execution `x`: the same messages were
sent and the same output returned, or the error of the failing round, or its panic. -/
def Returns {σ μ ω ε : Type} (r : Async.Run σ μ ω ε) (x : List (Msg μ) × Res ε ω) : Prop :=
  match x.2 with
  | .ok o => r.result = some (.ok o) ∧ r.sent = x.1
  | .err e => r.result = some (.err (.HandleIncoming (.ProceedRound e))) ∨
      r.result = some (.err (.Proceed (.ProceedRound e)))
  | .panic => r.result = some .panic ∨ r.result = some (.err .ProceedPanicked)

variable [Crypto]

/-- The four messages that peer `p` of `i` sends in key generation. -/
def keygenMail (i : ℕ) (b1 : ℕ → KeyGenBroadcastMessage1) (b2 : ℕ → KeyGenDecommitMessage1)
    (b3 : ℕ → Vss × Sc) (b4 : ℕ → DLogProof) (p : ℕ) : List (Msg Keygen.M) :=
  [⟨p, none, .Round1 (b1 p)⟩, ⟨p, none, .Round2 (b2 p)⟩, ⟨p, some i, .Round3 (b3 p)⟩,
    ⟨p, none, .Round4 (b4 p)⟩]

/-- The six messages that peer `p` of `i` sends in the offline stage. -/
def offlineMail (i : ℕ) (b : SignerMsgs) (p : ℕ) : List (Msg Sign.M) :=
  [⟨p, none, .M1 (b.b1 p)⟩, ⟨p, some i, .M2 (b.b2 p)⟩, ⟨p, none, .M3 (b.b3 p)⟩,
    ⟨p, none, .M4 (b.b4 p)⟩, ⟨p, none, .M5 (b.b5 p)⟩, ⟨p, none, .M6 (b.b6 p)⟩]

/-- Every peer's messages come in the order of the rounds: with a message come, before it, the same
sender's messages of all earlier rounds. -/
def InRoundOrder {β : Type} (rd : β → ℕ) (ms : List (Msg β)) : Prop :=
  ∀ pre post, ms = pre ++ post → ∀ m ∈ pre, ∀ k, 1 ≤ k → k < rd m.body →
    ∃ m' ∈ pre, m'.sender = m.sender ∧ rd m'.body = k

end Verif.Spec
