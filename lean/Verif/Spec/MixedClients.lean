import Verif.Spec.GG18Clients

/-!
# Specification: GG18 demo clients that were started for different numbers of parties
-/

namespace Verif.Spec.GG18

open EC Crypto

variable [Crypto]

/-- What client `i` has posted in each round when it has read the answers of the first `s` rounds and found `b` in
them.  A client that has panicked posts nothing more. -/
def keygenPosts (A : Aead) (t n : ℕ) (rnd : ℕ → Demo.Keygen.Rand) (i : ℕ) (b : Demo.Keygen.Posted A) (s : ℕ) :
    List (Msg GG18.KeyGenBroadcastMessage1) × List (Msg GG18.KeyGenDecommitMessage1) × List (Msg A.Ct) ×
      List (Msg Vss) × List (Msg DLogProof) :=
  let (st1, o1) := Demo.Keygen.start i (rnd i)
  if s < 1 then (o1, [], [], [], []) else
  match Demo.Keygen.round2 i st1 (Demo.poll i n b.b1) with
  | .err _ | .panic => (o1, [], [], [], [])
  | .ok (st2, o2) =>
  if s < 2 then (o1, o2, [], [], []) else
  match Demo.Keygen.round3 A ⟨t, n⟩ rnd i st2 (Demo.poll i n b.b2) with
  | .err _ | .panic => (o1, o2, [], [], [])
  | .ok (st3, o3) =>
  if s < 3 then (o1, o2, o3, [], []) else
  match Demo.Keygen.round4 A ⟨t, n⟩ i st3 (Demo.poll i n b.b3) with
  | .err _ | .panic => (o1, o2, o3, [], [])
  | .ok (st4, o4) =>
  if s < 4 then (o1, o2, o3, o4, []) else
  match Demo.Keygen.round5 ⟨t, n⟩ rnd i st4 (Demo.poll i n b.b4) with
  | .err _ | .panic => (o1, o2, o3, o4, [])
  | .ok (_, o5) => (o1, o2, o3, o4, o5)

/-- Clients `1, …, N` of one key generation.  Client `i` was started with its own threshold `t i` and its own number
of parties `n i` (every client reads its own file of parameters), has read the answers of the first `s i` rounds and
has found `b i` in them.  What it has read from another client, that client has posted. -/
structure MixedClients (A : Aead) (N : ℕ) (t n : ℕ → ℕ) (rnd : ℕ → Demo.Keygen.Rand)
    (b : ℕ → Demo.Keygen.Posted A) (s : ℕ → ℕ) : Prop where
  count : ∀ i, 1 ≤ i → i ≤ N → n i ≤ N
  genuine : ∀ i, 1 ≤ i → i ≤ N → ∀ p ∈ peers i (n i),
    let o := keygenPosts A (t p) (n p) rnd p (b p) (s p)
    (1 ≤ s i → ⟨p, none, (b i).b1 p⟩ ∈ o.1) ∧ (2 ≤ s i → ⟨p, none, (b i).b2 p⟩ ∈ o.2.1) ∧
    (3 ≤ s i → ⟨p, some i, (b i).b3 p⟩ ∈ o.2.2.1) ∧ (4 ≤ s i → ⟨p, none, (b i).b4 p⟩ ∈ o.2.2.2.1) ∧
    (5 ≤ s i → ⟨p, none, (b i).b5 p⟩ ∈ o.2.2.2.2)

/-- Client `i` has written a key file. -/
def GotFile (A : Aead) (t n : ℕ → ℕ) (rnd : ℕ → Demo.Keygen.Rand) (b : ℕ → Demo.Keygen.Posted A) (s : ℕ → ℕ)
    (i : ℕ) : Prop :=
  5 ≤ s i ∧ ∃ file, Demo.Keygen.client A (t i) (n i) rnd i (b i) = .ok file

end Verif.Spec.GG18
