import Verif.Model.GG20.KeygenRounds

/-!
# A complete key generation among honest parties

Not code of the repository: the network around it.  All parties run the round functions of
`KeygenRounds`, and every message is delivered to whom it is addressed, ordered by sender (that
the state machine hands the round functions exactly these vectors, whatever the order of arrival,
is the subject of the state machine theorems).
-/

namespace Verif

/-- The messages addressed to party `me`, ordered by sender.
(keygen.rs, lines 192-265: what the message stores hold when a round is complete) -/
def inbox {β : Type} (outs : List (List (Msg β))) (me : ℕ) : List β :=
  (outs.flatten.filter (fun m => decide (m.sender ≠ me) &&
    (decide (m.receiver = none) || decide (m.receiver = some me)))).map (·.body)

namespace GG20.Keygen

open EC Crypto

variable [Crypto]

/-- Key generation with threshold `t` among parties `1, ..., n`; party `k + 1` uses the random values
`rnd k`. (keygen.rs, lines 93-185, once per party; as in `simulate_keygen`, lines 498-512) -/
def run (t n : ℕ) (rnd : ℕ → KeygenRandomness) : Res ProceedError (List LocalKey) := do
  let r1 ← Res.mapM (fun k => Round0.proceed ⟨k + 1, t, n⟩ (rnd k)) (List.range n)
  let r2 ← Res.mapM (fun k => do
    (← Res.get r1 k).1.proceed (inbox (r1.map Prod.snd) (k + 1))) (List.range n)
  let r3 ← Res.mapM (fun k => do
    (← Res.get r2 k).1.proceed (inbox (r2.map Prod.snd) (k + 1)) (rnd k)) (List.range n)
  let r4 ← Res.mapM (fun k => do
    (← Res.get r3 k).1.proceed (inbox (r3.map Prod.snd) (k + 1)) (rnd k)) (List.range n)
  Res.mapM (fun k => do
    (← Res.get r4 k).1.proceed (inbox (r4.map Prod.snd) (k + 1))) (List.range n)

/-- The random values are as the code samples them: a genuine Paillier key of 2047 or 2048 bits,
auxiliary parameters as generated by `generate_h1_h2_N_tilde` from two distinct primes with an
invertible `h1` and a modulus of 2047 or 2048 bits, and `t` polynomial coefficients.
(gg_2020/party_i.rs, lines 137-178) -/
structure HonestRandomness (t : ℕ) (r : KeygenRandomness) : Prop where
  dk_valid : r.dk.Valid
  dk_large : r.dk.Large
  dk_size : bitLength r.dk.n = 2047 ∨ bitLength r.dk.n = 2048
  aux_gen : ∃ (p q : ℕ) (h1 xhi : ℤ), p.Prime ∧ q.Prime ∧ p ≠ q ∧
    (bitLength (p * q) = 2047 ∨ bitLength (p * q) = 2048) ∧ Int.gcd h1 (p * q) = 1 ∧
    0 ≤ xhi ∧ xhi < ((p : ℤ) - 1) * ((q : ℤ) - 1) ∧
    generate_h1_h2_N_tilde p q h1 xhi = some r.aux
  coefs_len : r.coefs.length = t

end GG20.Keygen
end Verif
