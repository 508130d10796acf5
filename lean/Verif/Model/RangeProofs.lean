import Verif.Ext.Paillier
import Verif.Ext.Sigma

/-!
# Range proofs of the MtA exchange

Models `src/utilities/mta/range_proofs.rs`.  Random samples are arguments.  Big-integer operations
on which GMP aborts (a negative power of a non-unit, a zero modulus) give `none`.  An `EncryptionKey`
is its modulus; a `DLogStatement` is `(N_tilde, h1, h2) = (N, g, ni)`.
-/

namespace Verif

open EC Crypto

variable [Crypto]

/-- `group_order().pow(3)` (range_proofs.rs, lines 48, 118, 231, 335) -/
def q3 : ℤ := (EC.q : ℤ) ^ 3

/-- `h1^a * h2^b % N_tilde`, as computed in several places of range_proofs.rs
(range_proofs.rs, lines 52, 57, 238-245) -/
def commitInts (st : DLogStatement) (a b : ℤ) : Option ℤ := do
  let x ← modPow st.g a st.N
  let y ← modPow st.ni b st.N
  some (rem (x * y) st.N)

/-- `h1^s1 * h2^s2 * z_e_inv % N_tilde` (range_proofs.rs, lines 129-132, 346-349, 369-372) -/
def commitInts3 (st : DLogStatement) (a b c : ℤ) : Option ℤ := do
  let x ← modPow st.g a st.N
  let y ← modPow st.ni b st.N
  some (rem (x * y * c) st.N)

/-! ### Alice -/

/-- The samples of `AliceZkpRound1::from`: `alpha` below `q^3`, `beta` a unit below `N`, `gamma` below
`q^3 N_tilde`, `ro` below `q N_tilde`. (range_proofs.rs, lines 48-51) -/
structure AliceRand where
  alpha : ℤ
  beta : ℤ
  gamma : ℤ
  ro : ℤ

/-- range_proofs.rs, lines 26-36, `AliceZkpRound1`: the three values that are hashed -/
structure AliceZkpRound1 where
  z : ℤ
  u : ℤ
  w : ℤ

/-- range_proofs.rs, lines 39-67, `AliceZkpRound1::from` -/
def AliceZkpRound1.make (N : ℕ) (st : DLogStatement) (a : ℤ) (rnd : AliceRand) :
    Option AliceZkpRound1 := do
  let z ← commitInts st a rnd.ro
  let bn ← modPow rnd.beta N (N * N)
  let u := rem ((rnd.alpha * N + 1) * bn) (N * N)
  let w ← commitInts st rnd.alpha rnd.gamma
  some ⟨z, u, w⟩

/-- range_proofs.rs, lines 93-100, `AliceProof` -/
structure AliceProof where
  z : ℤ
  e : ℤ
  s : ℤ
  s1 : ℤ
  s2 : ℤ
  deriving DecidableEq

/-- The Fiat-Shamir challenge of Alice's proof (lines 139-147 and 177-185). -/
def aliceChallenge (N : ℕ) (cipher z u w : ℤ) : ℤ :=
  hashInts [(N : ℤ), (N : ℤ) + 1, cipher, z, u, w]

/-- range_proofs.rs, lines 78-90, `AliceZkpRound2::from`, and 186-192 -/
def AliceProof.respond (N : ℕ) (a r : ℤ) (rnd : AliceRand) (z e : ℤ) : Option AliceProof := do
  let re ← modPow r e N
  some { z := z, e := e, s := rem (re * rnd.beta) N, s1 := e * a + rnd.alpha,
         s2 := e * rnd.ro + rnd.gamma }

/-- range_proofs.rs, lines 160-193, `AliceProof::generate` -/
def AliceProof.generate (a cipher : ℤ) (N : ℕ) (st : DLogStatement) (r : ℤ) (rnd : AliceRand) :
    Option AliceProof := do
  let r1 ← AliceZkpRound1.make N st a rnd
  let e := aliceChallenge N cipher r1.z r1.u r1.w
  AliceProof.respond N a r rnd r1.z e

/-- range_proofs.rs, lines 105-156, `AliceProof::verify` -/
def AliceProof.verify (pf : AliceProof) (cipher : ℤ) (N : ℕ) (st : DLogStatement) : Option Bool :=
  if pf.s1 > q3 then some false else do
  let ze ← modPow pf.z pf.e st.N
  match modInv ze st.N with
  | none => some false
  | some z_e_inv =>
    let w ← commitInts3 st pf.s1 pf.s2 z_e_inv
    let gs1 := rem (pf.s1 * N + 1) (N * N)
    let ce ← modPow cipher pf.e (N * N)
    match modInv ce (N * N) with
    | none => some false
    | some cipher_e_inv =>
      let sn ← modPow pf.s N (N * N)
      let u := rem (gs1 * sn * cipher_e_inv) (N * N)
      some (decide (aliceChallenge N cipher pf.z u w = pf.e))

/-! ### Bob -/

/-- The samples of `BobZkpRound1::from`. (range_proofs.rs, lines 231-237) -/
structure BobRand where
  alpha : ℤ
  beta : ℤ
  gamma : ℤ
  ro : ℤ
  ro_prim : ℤ
  sigma : ℤ
  tau : ℤ

/-- range_proofs.rs, lines 198-211, `BobZkpRound1`: the values that are hashed -/
structure BobZkpRound1 where
  z : ℤ
  z_prim : ℤ
  t : ℤ
  w : ℤ
  v : ℤ

/-- range_proofs.rs, lines 218-264, `BobZkpRound1::from` -/
def BobZkpRound1.make (N : ℕ) (st : DLogStatement) (b : Sc) (beta_prim a_encrypted : ℤ)
    (rnd : BobRand) : Option BobZkpRound1 := do
  let z ← commitInts st b.val rnd.ro
  let z_prim ← commitInts st rnd.alpha rnd.ro_prim
  let t ← commitInts st beta_prim rnd.sigma
  let w ← commitInts st rnd.gamma rnd.tau
  let ca ← modPow a_encrypted rnd.alpha (N * N)
  let bn ← modPow rnd.beta N (N * N)
  let v := rem (ca * (rnd.gamma * N + 1) * bn) (N * N)
  some ⟨z, z_prim, t, w, v⟩

/-- range_proofs.rs, lines 301-304, `BobCheck` -/
structure BobCheck where
  u : Pt
  X : Pt

/-- range_proofs.rs, lines 306-317, `BobProof` -/
structure BobProof where
  t : ℤ
  z : ℤ
  e : ℤ
  s : ℤ
  s1 : ℤ
  s2 : ℤ
  t1 : ℤ
  t2 : ℤ
  deriving DecidableEq

/-- The values hashed for the points of the check (lines 381-388 and 446-453); `none` is the
`unwrap` of the coordinates of the point at infinity. -/
def BobCheck.coords (c : BobCheck) : Option (List ℤ) := do
  let xx ← xc c.X
  let xy ← yc c.X
  let ux ← xc c.u
  let uy ← yc c.u
  some [(xx : ℤ), (xy : ℤ), (ux : ℤ), (uy : ℤ)]

/-- The Fiat-Shamir challenge of Bob's proof (lines 366-402 and 434-464). -/
def bobChallenge (N : ℕ) (a_enc mta_out : ℤ) (r1 : BobZkpRound1) (check : Option BobCheck) :
    Option ℤ :=
  let values := [(N : ℤ), (N : ℤ) + 1, a_enc, mta_out, r1.z, r1.z_prim, r1.t, r1.v, r1.w]
  match check with
  | some c => do
    let cs ← c.coords
    some (hashInts (values ++ cs))
  | none => some (hashInts values)

/-- range_proofs.rs, lines 281-297, `BobZkpRound2::from`, and 468-479 -/
def BobProof.respond (N : ℕ) (b : Sc) (beta_prim r : ℤ) (rnd : BobRand) (t z e : ℤ) :
    Option BobProof := do
  let re ← modPow r e N
  some { t := t, z := z, e := e, s := rem (re * rnd.beta) N, s1 := e * b.val + rnd.alpha,
         s2 := e * rnd.ro + rnd.ro_prim, t1 := e * beta_prim + rnd.gamma,
         t2 := e * rnd.sigma + rnd.tau }

/-- range_proofs.rs, lines 414-487, `BobProof::generate` -/
def BobProof.generate (a_encrypted mta_encrypted : ℤ) (b : Sc) (beta_prim : ℤ) (N : ℕ)
    (st : DLogStatement) (r : ℤ) (check : Bool) (rnd : BobRand) :
    Option (BobProof × Option Pt) := do
  let r1 ← BobZkpRound1.make N st b beta_prim a_encrypted rnd
  let X : Pt := b • G
  let u : Pt := (rnd.alpha : Sc) • G
  let e ← bobChallenge N a_encrypted mta_encrypted r1 (if check then some ⟨u, X⟩ else none)
  let pf ← BobProof.respond N b beta_prim r rnd r1.t r1.z e
  some (pf, if check then some u else none)

/-- range_proofs.rs, lines 321-412, `BobProof::verify` -/
def BobProof.verify (pf : BobProof) (a_enc mta_avc_out : ℤ) (N : ℕ) (st : DLogStatement)
    (check : Option BobCheck) : Option Bool :=
  if pf.s1 > q3 then some false else do
  let ze ← modPow pf.z pf.e st.N
  match modInv ze st.N with
  | none => some false
  | some z_e_inv =>
    let z_prim ← commitInts3 st pf.s1 pf.s2 z_e_inv
    let me ← modPow mta_avc_out pf.e (N * N)
    match modInv me (N * N) with
    | none => some false
    | some mta_e_inv =>
      let ca ← modPow a_enc pf.s1 (N * N)
      let sn ← modPow pf.s N (N * N)
      let v := rem (ca * sn * (pf.t1 * N + 1) * mta_e_inv) (N * N)
      let te ← modPow pf.t pf.e st.N
      match modInv te st.N with
      | none => some false
      | some t_e_inv =>
        let w ← commitInts3 st pf.t1 pf.t2 t_e_inv
        let e ← bobChallenge N a_enc mta_avc_out ⟨pf.z, z_prim, pf.t, w, v⟩ check
        some (decide (e = pf.e))

/-- range_proofs.rs, lines 489-494, `BobProofExt` -/
structure BobProofExt where
  proof : BobProof
  u : Pt

/-- range_proofs.rs, lines 499-534, `BobProofExt::verify` -/
def BobProofExt.verify (pf : BobProofExt) (a_enc mta_avc_out : ℤ) (N : ℕ) (st : DLogStatement)
    (X : Pt) : Option Bool := do
  if (← pf.proof.verify a_enc mta_avc_out N st (some ⟨pf.u, X⟩)) then
    some (decide ((pf.proof.s1 : Sc) • (G : Pt) = (pf.proof.e : Sc) • X + pf.u))
  else some false

omit [Crypto] in
/-- range_proofs.rs, lines 543-552, `from_modulo`: the list contains the results of `sample_below(N)`; `none` means
that the loop has not ended after these draws. -/
def fromModulo (N : ℤ) : List ℤ → Option ℤ
  | [] => none
  | r :: rs => if Int.gcd r N = 1 then some r else fromModulo N rs

omit [Crypto] in
/-- range_proofs.rs, lines 554-556, `from_paillier_key` -/
def fromPaillierKey (n : ℕ) (draws : List ℤ) : Option ℤ := fromModulo n draws

end Verif
