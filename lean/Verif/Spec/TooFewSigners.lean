import Verif.Model.GG20.SignRun

/-!
# Specification: how an offline stage ends at each of the signers
-/

namespace Verif.Spec

open EC Crypto GG20 GG20.Sign

variable [Crypto]

/-- The offline stage among the signers of `s_l` as `GG20.Sign.offline`, but with the result of the last
round (`Round6::proceed`) of each signer, be it a presignature or an error.
(sign.rs, lines 126-249, once per signer) -/
def offlineEnds (s_l : List ℕ) (key : ℕ → LocalKey) (rnd : ℕ → SignRandomness) :
    Res SignError (List (Res SignError CompletedOfflineStage)) := do
  let m := s_l.length
  let r1 ← Res.mapM (fun k => Round0.proceed ⟨k + 1, s_l, key k⟩ (rnd k)) (List.range m)
  let r2 ← Res.mapM (fun k => do
    (← Res.get r1 k).1.proceed (inbox (r1.map Prod.snd) (k + 1)) (rnd k)) (List.range m)
  let r3 ← Res.mapM (fun k => do
    (← Res.get r2 k).1.proceed (inbox (r2.map Prod.snd) (k + 1)) (rnd k)) (List.range m)
  let r4 ← Res.mapM (fun k => do
    (← Res.get r3 k).1.proceed (inbox (r3.map Prod.snd) (k + 1))) (List.range m)
  let r5 ← Res.mapM (fun k => do
    (← Res.get r4 k).1.proceed (inbox (r4.map Prod.snd) (k + 1)) (rnd k)) (List.range m)
  let r6 ← Res.mapM (fun k => do
    (← Res.get r5 k).1.proceed (inbox (r5.map Prod.snd) (k + 1)) (rnd k)) (List.range m)
  .ok ((List.range m).map fun k => do
    (← Res.get r6 k).1.proceed (inbox (r6.map Prod.snd) (k + 1)))

end Verif.Spec
