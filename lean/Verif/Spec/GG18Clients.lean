import Verif.Model.Demo.GG18Clients
import Verif.Spec.Demo
import Verif.Spec.KeygenSM
import Verif.Spec.Shamir

/-! # What a GG18 demo client has checked -/

namespace Verif.Spec.GG18

open EC Crypto

variable [Crypto]

/-- Party `i` of `n` finished key generation with `file`, having sampled `rnd` and read `b`; `share j` is
what party `j` sent it under encryption.  Everything that has to hold for that. -/
structure KeygenChecks (A : Aead) (n i : ℕ) (rnd : Demo.Keygen.Rand) (b : Demo.Keygen.Posted A)
    (share : ℕ → Sc) (file : Demo.Keygen.KeyFile) : Prop where
  /-- every opening matches its commitment -/
  opens : ∀ j ∈ peers i n, hashCom (ser (b.b2 j).y_i) (b.b2 j).blind_factor = (b.b1 j).com
  /-- every Paillier key comes with a valid proof -/
  paillier : ∀ j ∈ peers i n, ckVerify (b.b1 j).correct_key_proof (b.b1 j).e = some true
  /-- every share was decrypted with the key shared with its sender: 32 bytes, big-endian -/
  decrypts : ∀ j ∈ peers i n, ∃ (x : ℕ) (key out : List UInt8), xc (rnd.u • (b.b2 j).y_i) = some x ∧
    key.length = 32 ∧ fromBytes key = x ∧ A.dec key (b.b3 j) = some out ∧
    share j = (fromBytes out : Sc)
  /-- every share lies on its sender's committed polynomial, which starts with the opened point -/
  shares : ∀ j ∈ peers i n, feldmanEval (b.b4 j).commitments (i : Sc) = share j • G ∧
    (b.b4 j).commitments.head? = some (b.b2 j).y_i
  /-- every final proof verifies -/
  proofs : ∀ j ∈ peers i n, (b.b5 j).verify = true
  /-- the public key is the sum of the opened points -/
  public_key : file.y_sum = rnd.u • G + ((peers i n).map (fun j => (b.b2 j).y_i)).sum ∧
    file.shared_keys.y = file.y_sum
  /-- the secret share is the sum of the received ones and the own one -/
  secret : file.shared_keys.x_i =
    evalPoly (rnd.u :: rnd.coefs) (i : Sc) + ((peers i n).map share).sum
  /-- what the file says about the others -/
  keys : file.party_id = i ∧ file.party_keys.u_i = rnd.u ∧ file.party_keys.dk = rnd.dk ∧
    ∀ j ∈ peers i n, file.paillier_key_vector[j - 1]? = some (b.b1 j).e ∧
      file.vss_scheme_vec[j - 1]? = some (b.b4 j)
  /-- there is a polynomial commitment for each party, and the own one is that of the sampled polynomial -/
  own : file.vss_scheme_vec.length = n ∧ ∃ v, file.vss_scheme_vec[i - 1]? = some v ∧
    v.commitments = (rnd.u :: rnd.coefs).map (fun c => c • G)

/-- Client `i` of a key generation writes `file`, having read `b` and posted `o1`, ..., `o5`. -/
def KeygenRun (A : Aead) (t n : ℕ) (rnd : ℕ → Demo.Keygen.Rand) (i : ℕ) (b : Demo.Keygen.Posted A)
    (o1 : List (Msg GG18.KeyGenBroadcastMessage1)) (o2 : List (Msg GG18.KeyGenDecommitMessage1))
    (o3 : List (Msg A.Ct)) (o4 : List (Msg Vss)) (o5 : List (Msg DLogProof))
    (file : Demo.Keygen.KeyFile) : Prop :=
  ∃ st1 st2 st3 st4 st5, Demo.Keygen.start i (rnd i) = (st1, o1) ∧
    Demo.Keygen.round2 i st1 (Demo.poll i n b.b1) = .ok (st2, o2) ∧
    Demo.Keygen.round3 A ⟨t, n⟩ rnd i st2 (Demo.poll i n b.b2) = .ok (st3, o3) ∧
    Demo.Keygen.round4 A ⟨t, n⟩ i st3 (Demo.poll i n b.b3) = .ok (st4, o4) ∧
    Demo.Keygen.round5 ⟨t, n⟩ rnd i st4 (Demo.poll i n b.b4) = .ok (st5, o5) ∧
    Demo.Keygen.finish ⟨t, n⟩ i st5 (Demo.poll i n b.b5) = .ok file

/-- The clients in `honest` finished key generation, client `i` with `file i`, where `b i` is what it found
under the keys of the others.  Between them the values are genuine: what `i` read from `p` is what `p`
posted.  Nothing is said about what the others post: they may show everybody something else. -/
structure HonestKeygens (A : Aead) (t n : ℕ) (honest : Finset ℕ) (rnd : ℕ → Demo.Keygen.Rand)
    (b : ℕ → Demo.Keygen.Posted A) (file : ℕ → Demo.Keygen.KeyFile) : Prop where
  range : ∀ i ∈ honest, 1 ≤ i ∧ i ≤ n
  coefs : ∀ i ∈ honest, (rnd i).coefs.length = t
  completed : ∃ (o1 : ℕ → List (Msg GG18.KeyGenBroadcastMessage1))
    (o2 : ℕ → List (Msg GG18.KeyGenDecommitMessage1)) (o3 : ℕ → List (Msg A.Ct))
    (o4 : ℕ → List (Msg Vss)) (o5 : ℕ → List (Msg DLogProof)), (∀ i ∈ honest,
      KeygenRun A t n rnd i (b i) (o1 i) (o2 i) (o3 i) (o4 i) (o5 i) (file i)) ∧
    ∀ i ∈ honest, ∀ p ∈ honest, p ≠ i →
      ⟨p, none, (b i).b1 p⟩ ∈ o1 p ∧ ⟨p, none, (b i).b2 p⟩ ∈ o2 p ∧ ⟨p, some i, (b i).b3 p⟩ ∈ o3 p ∧
      ⟨p, none, (b i).b4 p⟩ ∈ o4 p ∧ ⟨p, none, (b i).b5 p⟩ ∈ o5 p

/-- The key files of the parties in `honest` belong together: they name one public key, and any `t + 1` of
these parties hold its discrete logarithm. -/
def FilesFit (t : ℕ) (honest : Finset ℕ) (file : ℕ → Demo.Keygen.KeyFile) : Prop :=
  ∃ d : Sc, (∀ i ∈ honest, (file i).y_sum = d • G) ∧
    ∀ S ⊆ honest, t + 1 ≤ S.card → ∑ i ∈ S, lagrangeCoeff S i * (file i).shared_keys.x_i = d

/-- The public share that the polynomial commitments in a key file give to the party with the number
`party`, times its Lagrange coefficient among the signers `ids`. -/
def shareCommitment (file : Demo.Keygen.KeyFile) (ids : List ℕ) (party : ℕ) : Option Pt :=
  (mapShareToNewParams (party - 1) (ids.map (· - 1))).map fun li =>
    li • (file.vss_scheme_vec.map (fun v => feldmanEval v.commitments (party : Sc))).sum

/-- Signer number `i` of `m` with the key file `key` released its partial signature `s` for the nonce point
`R`, having sampled `rnd`, read `b` and opened `own6` and `own8`.  Everything that has to hold for that. -/
structure ReleaseChecks (m i : ℕ) (key : Demo.Keygen.KeyFile) (message : ℤ) (rnd : Demo.Sign.Rand)
    (b : Demo.Sign.Posted) (own6 : GG18.Phase5ADecom1) (own8 : GG18.Phase5DDecom2) (R : Pt) (s : Sc) :
    Prop where
  /-- both answers of every other signer are consistent with their proofs -/
  answers : ∀ j ∈ peers i m, ∃ x y,
    (b.b2 j).1.verify_proofs_get_alpha key.party_keys.dk rnd.k = .ok x ∧
    (b.b2 j).2.verify_proofs_get_alpha key.party_keys.dk rnd.k = .ok y
  /-- the second answer is about the key share of the party its sender says it is -/
  share : ∀ j ∈ peers i m, shareCommitment key
    ((List.range' 1 m).map (fun p => if p = i then key.party_id else b.b0 p)) (b.b0 j) =
      some (b.b2 j).2.b_proof.pk
  /-- every revealed point opens the commitment and is the one of the first answer -/
  reveals : ∀ j ∈ peers i m, (b.b2 j).1.b_proof.pk = (b.b4 j).g_gamma_i ∧
    hashCom (ser (b.b4 j).g_gamma_i) (b.b4 j).blind_factor = (b.b1 j).1.com
  /-- the nonce point is the sum of the revealed points divided by the sum of the announced deltas -/
  nonce_point : ∃ own : Sc, own + ((peers i m).map b.b3).sum ≠ 0 ∧
    (own + ((peers i m).map b.b3).sum) • R =
      rnd.gamma • G + ((peers i m).map (fun j => (b.b4 j).g_gamma_i)).sum
  /-- every opening of phase 5 matches its commitment and its proofs verify -/
  opens5a : ∀ j ∈ peers i m,
    hashCom (hashPtsInt [(b.b6 j).1.V_i, (b.b6 j).1.A_i, (b.b6 j).1.B_i]) (b.b6 j).1.blind_factor =
      (b.b5 j).com ∧
    (b.b6 j).2.1.verify ⟨(b.b6 j).1.A_i, R, G, (b.b6 j).1.V_i, (b.b6 j).1.B_i⟩ = true ∧
    (b.b6 j).2.2.verify = true
  /-- every second opening matches its commitment -/
  opens5c : ∀ j ∈ peers i m,
    hashCom (hashPtsInt [(b.b8 j).u_i, (b.b8 j).t_i]) (b.b8 j).blind_factor = (b.b7 j).com
  /-- the own openings are computed from the others' -/
  own_openings : ∃ (x y : ℕ) (sigma : Sc), coords R = some (x, y) ∧
    s = (message : Sc) * rnd.k + (x : Sc) * sigma ∧
    own6.V_i = s • R + rnd.l • G ∧ own6.A_i = rnd.rho • G ∧ own6.B_i = (rnd.l * rnd.rho) • G ∧
    own8.u_i = rnd.rho • (own6.V_i + ((peers i m).map (fun j => (b.b6 j).1.V_i)).sum -
      (message : Sc) • G - (x : Sc) • key.y_sum) ∧
    own8.t_i = rnd.l • ((peers i m).map (fun j => (b.b6 j).1.A_i)).sum
  /-- the last comparison -/
  balance : own8.t_i + ((peers i m).map (fun j => (b.b8 j).t_i)).sum +
      (own6.B_i + ((peers i m).map (fun j => (b.b6 j).1.B_i)).sum) =
    own8.u_i + ((peers i m).map (fun j => (b.b8 j).u_i)).sum

end Verif.Spec.GG18
