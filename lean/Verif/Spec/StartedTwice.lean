import Verif.Model.GG20.SignSM
import Verif.Spec.KeygenSM
import Verif.Spec.MixedCounts

/-!
# Specification: a program that was started twice under one number in one session
-/

namespace Verif.Spec

open EC Crypto GG20

variable [Crypto]

/-- Others take part in a key generation with party `i`: party `p` runs the program with its own threshold `t p` and
number of parties `n p`, starting in state `s p`. -/
def OtherParties (i m : ℕ) (t n : ℕ → ℕ) (rnd : ℕ → KeygenRandomness) (s : ℕ → Keygen.State) : Prop :=
  ∀ p ∈ peers i m, ∃ r, Keygen.new (rnd p) p (t p) (n p) = .ok (s p, r)

/-- A program that was started as party `i` of `m` with the random values `r`; `s0` is the state it starts in and `ops0`
are the calls of its driver.  What it has accepted from the other parties, they have sent.  Nothing is said about
what they have accepted in the name of `i`. -/
structure KeygenAs (i t0 m : ℕ) (r : KeygenRandomness) (s0 : Keygen.State) (ops0 : List (Op Keygen.M))
    (rnd : ℕ → KeygenRandomness) (s : ℕ → Keygen.State) (ops : ℕ → List (Op Keygen.M)) : Prop where
  new : ∃ x, Keygen.new r i t0 m = .ok (s0, x)
  genuine : ∀ p ∈ peers i m, ∀ msg ∈ ((Keygen.machine r).run s0 ops0).accepted, msg.sender = p →
    msg ∈ (Keygen.machine (rnd p)).sent ((Keygen.machine (rnd p)).run (s p) (ops p))

/-- A program that was started as signer `i` of the list `s_l`, with the random values `r` and the key `key`; `s0` is
the state it starts in and `ops0` are the calls of its driver.  What it has accepted from signer `p`, that signer,
which runs the program with the random values `rp` and the calls `opsp` from the state `sp`, has sent. -/
structure SignsAs (i : ℕ) (s_l : List ℕ) (key : LocalKey) (r : SignRandomness) (s0 : Sign.State)
    (ops0 : List (Op Sign.M)) (p : ℕ) (rp : SignRandomness) (sp : Sign.State) (opsp : List (Op Sign.M)) : Prop where
  new : Sign.new i s_l key = .ok s0
  genuine : ∀ msg ∈ ((Sign.machine r).run s0 ops0).accepted, msg.sender = p →
    msg ∈ (Sign.machine rp).sent ((Sign.machine rp).run sp opsp)

end Verif.Spec
