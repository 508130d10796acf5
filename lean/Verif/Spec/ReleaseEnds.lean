import Verif.Model.Demo.GG18Sign

/-!
# Specification: what each client of a GG18 signing room does when it is about to release its partial signature
-/

namespace Verif.Spec.GG18

open EC Crypto Demo Demo.Sign

variable [Crypto]

/-- A signing room as `Demo.Sign.run`, up to the round in which partial signatures are released; of that
round the result of each client: what it posts, or that it crashes.  The client with number `i` was started with
the message `message i`.
(gg18_sign_client.rs, lines 36-478, once per client) -/
def releaseEnds (t : ℕ) (key : ℕ → Demo.Keygen.KeyFile) (message : ℕ → ℤ) (rnd : ℕ → Rand) :
    Res Empty (List (Res Empty (List (Msg Sc)))) := do
  let m := t + 1
  let r0 := (List.range m).map (fun k => start (k + 1) (key (k + 1)))
  let r1 ← runRound m (round1 t rnd) r0
  let r2 ← runRound m (round2 t rnd) r1
  let r3 ← runRound m (round3 t) r2
  let r4 ← runRound m round4 r3
  let r5 ← runRound m (fun i => round5 (message i) rnd i) r4
  let r6 ← runRound m round6 r5
  let r7 ← runRound m (round7 t rnd) r6
  let r8 ← runRound m round8 r7
  .ok ((List.range m).map fun k => do
    let p ← Res.get r8 k
    let r ← round9 t (k + 1) p.1 (inbox (r8.map Prod.snd) (k + 1))
    .ok r.2)

end Verif.Spec.GG18
