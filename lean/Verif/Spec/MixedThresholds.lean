import Verif.Model.GG20.KeygenRun
import Verif.Model.Demo.GG18Keygen

/-!
# Specification: a key generation whose parties were started with different thresholds

As `Keygen.run`, but party `k + 1` is started with the threshold `τ k` of its own (`Keygen::new(i, t, n)` is called by
each party separately), and the result says for each party how it ends.
-/

namespace Verif.Spec

open EC Crypto GG20 GG20.Keygen

variable [Crypto]

/-- Every message is delivered to whom it is addressed.  For each party, what its last round gives. -/
def mixedRun (τ : ℕ → ℕ) (n : ℕ) (rnd : ℕ → KeygenRandomness) :
    Res ProceedError (List (Res ProceedError LocalKey)) := do
  let r1 ← Res.mapM (fun k => Round0.proceed ⟨k + 1, τ k, n⟩ (rnd k)) (List.range n)
  let r2 ← Res.mapM (fun k => do
    (← Res.get r1 k).1.proceed (inbox (r1.map Prod.snd) (k + 1))) (List.range n)
  let r3 ← Res.mapM (fun k => do
    (← Res.get r2 k).1.proceed (inbox (r2.map Prod.snd) (k + 1)) (rnd k)) (List.range n)
  let r4 ← Res.mapM (fun k => do
    (← Res.get r3 k).1.proceed (inbox (r3.map Prod.snd) (k + 1)) (rnd k)) (List.range n)
  Res.ok ((List.range n).map (fun k => do
    (← Res.get r4 k).1.proceed (inbox (r4.map Prod.snd) (k + 1))))

/-- The same for the clients of the GG18 demo, where client `i` finds the threshold `τ i` in its parameter file. -/
def mixedClients (A : Aead) (τ : ℕ → ℕ) (n : ℕ) (rnd : ℕ → Demo.Keygen.Rand) :
    Res Empty (List Demo.Keygen.KeyFile) := do
  let r1 := (List.range n).map (fun k => Demo.Keygen.start (k + 1) (rnd (k + 1)))
  let r2 ← Demo.runRound n Demo.Keygen.round2 r1
  let r3 ← Demo.runRound n (fun i => Demo.Keygen.round3 A ⟨τ i, n⟩ rnd i) r2
  let r4 ← Demo.runRound n (fun i => Demo.Keygen.round4 A ⟨τ i, n⟩ i) r3
  let r5 ← Demo.runRound n (fun i => Demo.Keygen.round5 ⟨τ i, n⟩ rnd i) r4
  Demo.runRound n (fun i => Demo.Keygen.finish ⟨τ i, n⟩ i) r5

end Verif.Spec
