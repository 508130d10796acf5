import Verif.Spec.GG18Clients
import Verif.Spec.Demo

/-!
# Specification: GG18 demo clients whose key files come from different key generations
-/

namespace Verif.Spec.GG18

open EC Crypto

variable [Crypto]

/-- Client `v` of a signing room of `t + 1` clients releases its partial signature for some message, having the key
file `filev`; client `p` of the room has the key file `filep`.  Both run the program; the other clients do anything,
except that they tell both the same numbers, which are less than the group order.  What `v` read from `p` in the
rounds 0 and 2 is what `p` posted there. -/
def ReleasesWith (t v p : ℕ) (filev filep : Demo.Keygen.KeyFile) : Prop :=
  ∃ (message : ℤ) (rv rp : ℕ → Demo.Sign.Rand) (bv bp : Demo.Sign.Posted) (st : Demo.Sign.St9) (out : List (Msg Sc))
    (ctx : Demo.Sign.Ctx) (o1 : List (Msg (GG18.SignBroadcastPhase1 × MessageA))) (st2 : Demo.Sign.St2)
    (o2 : List (Msg (MessageB × MessageB))),
    Demo.Sign.release t message rv v filev bv = .ok (st, out) ∧
    Demo.Sign.round1 t rp p filep (Demo.poll p (t + 1) bp.b0) = .ok (ctx, o1) ∧
    Demo.Sign.round2 t rp p ctx (Demo.poll p (t + 1) bp.b1) = .ok (st2, o2) ∧
    ⟨p, none, bv.b0 p⟩ ∈ (Demo.Sign.start p filep).2 ∧ ⟨v, none, bp.b0 v⟩ ∈ (Demo.Sign.start v filev).2 ∧
    ⟨p, some v, bv.b2 p⟩ ∈ o2 ∧ ∀ j ∈ peers v (t + 1), j ≠ p → bp.b0 j = bv.b0 j ∧ bv.b0 j < q

/-- Two GG18 key generations among `n` clients that follow the protocol, with thresholds `t` and `t'`, random values
`rnd` and `rnd'`, and the key files `files` and `files'`. -/
structure TwoFiles (A : Aead) (t t' n : ℕ) (rnd rnd' : ℕ → Demo.Keygen.Rand)
    (files files' : List Demo.Keygen.KeyFile) : Prop where
  threshold : t < n
  threshold' : t' < n
  honest : ∀ k < n, HonestKeygenRand t (rnd (k + 1))
  honest' : ∀ k < n, HonestKeygenRand t' (rnd' (k + 1))
  first : Demo.Keygen.run A t n rnd = .ok files
  second : Demo.Keygen.run A t' n rnd' = .ok files'

end Verif.Spec.GG18
