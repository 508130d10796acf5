import Verif.Model.GG20.SignRun

/-!
# Specification: signers that were given messages of their own
-/

namespace Verif.Spec

open EC Crypto GG20

variable [Crypto]

/-- The online stage among signers with the results `cs` of the offline stage: the signer at position `k` signs
`message k`. The result of each signer. (sign.rs, lines 630-650, once per signer) -/
def onlineEnds (message : ℕ → ℤ) (cs : List CompletedOfflineStage) : Res Error (List (Res Error SignatureRecid)) := do
  let ps ← Res.mapM (fun k => do SignManual.new (message k) (← Res.get cs k)) (List.range cs.length)
  .ok ((List.range cs.length).map fun k => do
    let st ← Res.get ps k
    SignManual.complete st.1 ((ps.map Prod.snd).eraseIdx k))

end Verif.Spec
