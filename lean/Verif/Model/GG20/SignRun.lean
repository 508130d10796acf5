import Verif.Model.GG20.SignRounds
import Verif.Model.GG20.KeygenRun

/-!
# A complete offline and online signing among honest signers

Not code of the repository: the network around it, as in `KeygenRun`.
-/

namespace Verif.GG20.Sign

open EC Crypto

variable [Crypto]

/-- The offline stage among the signers listed in `s_l`: the signer at (zero-based) position `k` has index
`k + 1`, the key `key k` and the random values `rnd k`.
(sign.rs, lines 126-249, once per signer; as in `simulate_offline_stage`, lines 667-691) -/
def offline (s_l : List ℕ) (key : ℕ → LocalKey) (rnd : ℕ → SignRandomness) :
    Res SignError (List CompletedOfflineStage) := do
  let m := s_l.length
  let r1 ← Res.mapM (fun k => Round0.proceed ⟨k + 1, s_l, key k⟩ (rnd k)) (List.range m)
  let r2 ← Res.mapM (fun k => do
    (← Res.get r1 k).1.proceed (inbox (r1.map Prod.snd) (k + 1)) (rnd k)) (List.range m)
  let r3 ← Res.mapM (fun k => do
    (← Res.get r2 k).1.proceed (inbox (r2.map Prod.snd) (k + 1)) (rnd k)) (List.range m)
  let r4 ← Res.mapM (fun k => do
    (← Res.get r3 k).1.proceed (inbox (r3.map Prod.snd) (k + 1))) (List.range m)
  let r5 ← Res.mapM (fun k => do
    (← Res.get r4 k).1.proceed (inbox (r4.map Prod.snd) (k + 1)) (rnd k)) (List.range m)
  let r6 ← Res.mapM (fun k => do
    (← Res.get r5 k).1.proceed (inbox (r5.map Prod.snd) (k + 1)) (rnd k)) (List.range m)
  Res.mapM (fun k => do
    (← Res.get r6 k).1.proceed (inbox (r6.map Prod.snd) (k + 1))) (List.range m)

/-- The online stage: everybody broadcasts its partial signature and combines it with the others'.
(sign.rs, lines 630-650, once per signer; as in `simulate_signing`, lines 693-720) -/
def online (message : ℤ) (cs : List CompletedOfflineStage) : Res Error (List SignatureRecid) := do
  let ps ← Res.mapM (SignManual.new message) cs
  Res.mapM (fun k => do
    (← Res.get ps k).1 |> fun st => SignManual.complete st ((ps.map Prod.snd).eraseIdx k))
    (List.range cs.length)

end Verif.GG20.Sign
