import Verif.Base.EC

/-!
# Specification: transcripts of the range proofs

The equations of the sigma protocols behind Alice's and Bob's range proofs (GG18, appendix A),
written in `ZMod M` (the verifier's auxiliary modulus) and `ZMod (N * N)` (the Paillier ciphertext
group).
-/

namespace Verif.Spec

variable [EC]

/-- An accepting transcript of Alice's protocol: first message `(z, u, w)`, challenge `e`, answer
`(s, s1, s2)`. -/
structure AliceTranscript (M N : ℕ) (h1 h2 : (ZMod M)ˣ) (c : ZMod (N * N)) (z w : ZMod M)
    (u : ZMod (N * N)) (e : ℕ) (s s1 s2 : ℤ) : Prop where
  bound : s1 ≤ (EC.q : ℤ) ^ 3
  commitment : ((h1 ^ s1 * h2 ^ s2 : (ZMod M)ˣ) : ZMod M) = w * z ^ e
  ciphertext : (1 + (s1 : ZMod (N * N)) * N) * (s : ZMod (N * N)) ^ N = u * c ^ e

/-- An accepting transcript of Bob's protocol for the response `cb` to the ciphertext `ca`: first
message `(z, z', t, v, w)`, challenge `e`, answer `(s, s1, s2, t1, t2)`. -/
structure BobTranscript (M N : ℕ) (h1 h2 : (ZMod M)ˣ) (ca : (ZMod (N * N))ˣ) (cb : ZMod (N * N))
    (z z' t w : ZMod M) (v : ZMod (N * N)) (e : ℕ) (s s1 s2 t1 t2 : ℤ) : Prop where
  bound : s1 ≤ (EC.q : ℤ) ^ 3
  commitment_b : ((h1 ^ s1 * h2 ^ s2 : (ZMod M)ˣ) : ZMod M) = z' * z ^ e
  commitment_beta : ((h1 ^ t1 * h2 ^ t2 : (ZMod M)ˣ) : ZMod M) = w * t ^ e
  response : ((ca ^ s1 : (ZMod (N * N))ˣ) : ZMod (N * N)) * (s : ZMod (N * N)) ^ N *
    (1 + (t1 : ZMod (N * N)) * N) = v * cb ^ e

/-- An accepting transcript of the PDL-with-slack protocol for the points `G`, `Q` and the ciphertext
`c`: first message `(z, u1, u2, u3)`, challenge `e`, answer `(s1, s2, s3)`. -/
structure PdlTranscript (M N : ℕ) (h1 h2 : (ZMod M)ˣ) (G Q : EC.Pt) (c : ZMod (N * N)) (z : ZMod M)
    (u1 : EC.Pt) (u2 : ZMod (N * N)) (u3 : ZMod M) (e : ℕ) (s1 s2 s3 : ℤ) : Prop where
  point : (s1 : ZMod EC.q) • G = u1 + (e : ZMod EC.q) • Q
  ciphertext : (1 + (s1 : ZMod (N * N)) * N) * (s2 : ZMod (N * N)) ^ N = u2 * c ^ e
  commitment : ((h1 ^ s1 * h2 ^ s3 : (ZMod M)ˣ) : ZMod M) = u3 * z ^ e

end Verif.Spec
