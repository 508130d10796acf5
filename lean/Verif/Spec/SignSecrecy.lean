import Verif.Spec.SignSM
import Mathlib.Data.Finset.Basic

/-!
# The first rounds of signing with dishonest signers

The signers at the positions in `H` (from 0) follow the program; the others send each of them whatever they like.
-/

namespace Verif.Spec

open EC Crypto GG20 GG20.Sign

variable [Crypto]

/-- The body of the message that `out` has for the signer with index `p`. -/
def sentTo {α : Type} (out : List (Msg α)) (p : ℕ) : Res SignError α :=
  Res.ofOption ((out.find? (fun m => decide (m.receiver = none) || decide (m.receiver = some p))).map (·.body))

variable (H : Finset ℕ) (s_l : List ℕ) (key : ℕ → LocalKey)
  (bad1 : ℕ → ℕ → MessageA × SignBroadcastPhase1) (bad2 : ℕ → ℕ → MessageB × MessageB)

/-- What the signer at position `k` receives: from the honest signers what they sent, from the others `bad`. -/
def received {α β : Type} (step : ℕ → Res SignError (β × List (Msg α))) (bad : ℕ → ℕ → α) (k : ℕ) :
    Res SignError (List α) :=
  Res.mapM (fun j => if j ∈ H then do sentTo (← step j).2 (k + 1) else .ok (bad j k))
    ((List.range s_l.length).filter (fun j => decide (j ≠ k)))

/-- Honest signer `k` sends its commitment and its encrypted nonce. -/
def firstRound (rnd : ℕ → SignRandomness) (k : ℕ) :
    Res SignError (Round1 × List (Msg (MessageA × SignBroadcastPhase1))) :=
  Round0.proceed ⟨k + 1, s_l, key k⟩ (rnd k)

/-- It answers the encrypted nonces of the others. -/
def secondRound (rnd : ℕ → SignRandomness) (k : ℕ) :
    Res SignError (Round2 × List (Msg (MessageB × MessageB))) := do
  let s ← firstRound s_l key rnd k
  s.1.proceed (← received H s_l (firstRound s_l key rnd) bad1 k) (rnd k)

/-- From their answers to its own it computes its shares of `k γ` (published next) and of `k x`. -/
def computedShares (rnd : ℕ → SignRandomness) (k : ℕ) : Res SignError (Sc × Sc) := do
  let s ← secondRound H s_l key bad1 rnd k
  let r ← s.1.proceed (← received H s_l (secondRound H s_l key bad1 rnd) bad2 k) (rnd k)
  .ok (r.1.delta_i, r.1.sigma_i)

/-- The random values `rnd`, with the two masks of each other honest signer towards signer `h` replaced by `f`. -/
def withMasks (h : ℕ) (rnd : ℕ → SignRandomness) (f : {k // k ∈ H.erase h} × Bool → ℕ) (k : ℕ) :
    SignRandomness :=
  if hk : k ∈ H.erase h then
    { rnd k with
      gammaBeta := Function.update (rnd k).gammaBeta h (f (⟨k, hk⟩, false))
      wBeta := Function.update (rnd k).wBeta h (f (⟨k, hk⟩, true)) }
  else rnd k

end Verif.Spec
