import Verif.Spec.GG18Clients
import Verif.Spec.Demo

/-!
# Specification: GG18 signing clients that are told different party numbers
-/

namespace Verif.Spec.GG18

open EC Crypto

variable [Crypto]

/-- The parties that client `k` of a signing room of `m` clients takes part with, in the order of the clients: its own
number stands in its key file, those of the others are what it was told. -/
def toldList (m k : ℕ) (file : Demo.Keygen.KeyFile) (told : ℕ → ℕ) : List ℕ :=
  (List.range' 1 m).map (fun j => if j = k then file.party_id else told j)

/-- Client `v` of a signing room of `t + 1` clients has the key file `filev`, was told the numbers `toldv` and releases
its partial signature for some message; client `p` of the room has the key file `filep` and was told the numbers
`toldp`.  Both run the program; the other clients do anything.  What `v` read from `p` in round 2 is what `p` posted
there. -/
def ReleasesTold (t v p : ℕ) (filev filep : Demo.Keygen.KeyFile) (toldv toldp : ℕ → ℕ) : Prop :=
  ∃ (message : ℤ) (rv rp : ℕ → Demo.Sign.Rand) (bv bp : Demo.Sign.Posted) (st : Demo.Sign.St9) (out : List (Msg Sc))
    (ctx : Demo.Sign.Ctx) (o1 : List (Msg (GG18.SignBroadcastPhase1 × MessageA))) (st2 : Demo.Sign.St2)
    (o2 : List (Msg (MessageB × MessageB))),
    bv.b0 = toldv ∧ bp.b0 = toldp ∧
    Demo.Sign.release t message rv v filev bv = .ok (st, out) ∧
    Demo.Sign.round1 t rp p filep (Demo.poll p (t + 1) bp.b0) = .ok (ctx, o1) ∧
    Demo.Sign.round2 t rp p ctx (Demo.poll p (t + 1) bp.b1) = .ok (st2, o2) ∧
    ⟨p, some v, bv.b2 p⟩ ∈ o2

end Verif.Spec.GG18
