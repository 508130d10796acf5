import Verif.Ext.Crypto
import Verif.Base.Res

/-!
# Sigma proofs of `curv` 0.9

`sigma_dlog`, `sigma_valid_pedersen`, `sigma_correct_homomorphic_elgamal_enc`, `sigma_ec_ddh`.
The crate is not in `/repo`; these are models of its documented behaviour (Fiat-Shamir sigma
protocols).  Provers take their random nonces as arguments.
-/

namespace Verif

open EC Crypto

variable [Crypto]

/-- `curv::cryptographic_primitives::proofs::sigma_dlog::DLogProof` -/
structure DLogProof where
  pk : Pt
  pk_t_rand_commitment : Pt
  challenge_response : Sc
  deriving DecidableEq

def DLogProof.challenge (T pk : Pt) : Sc := hashPts [T, G, pk]

/-- `DLogProof::prove(sk)` with nonce `t` -/
def DLogProof.prove (sk t : Sc) : DLogProof :=
  let pk := sk • G
  let T := t • G
  { pk := pk, pk_t_rand_commitment := T,
    challenge_response := t - DLogProof.challenge T pk * sk }

/-- `DLogProof::verify(..).is_ok()` -/
def DLogProof.verify (pf : DLogProof) : Bool :=
  let e := DLogProof.challenge pf.pk_t_rand_commitment pf.pk
  decide (pf.challenge_response • G + e • pf.pk = pf.pk_t_rand_commitment)

/-- `sigma_valid_pedersen::PedersenProof` for `com = m G + r H` -/
structure PedersenProof where
  e : Sc
  a1 : Pt
  a2 : Pt
  com : Pt
  z1 : Sc
  z2 : Sc
  deriving DecidableEq

/-- `PedersenProof::prove(m, r)` with nonces `s1`, `s2` -/
def PedersenProof.prove (m r s1 s2 : Sc) : PedersenProof :=
  let a1 := s1 • G
  let a2 := s2 • H
  let com := m • G + r • H
  let e := hashPts [G, H, com, a1, a2]
  { e := e, a1 := a1, a2 := a2, com := com, z1 := s1 + e * m, z2 := s2 + e * r }

/-- `PedersenProof::verify(..).is_ok()`: the challenge is recomputed. -/
def PedersenProof.verify (pf : PedersenProof) : Bool :=
  let e := hashPts [G, H, pf.com, pf.a1, pf.a2]
  decide (pf.z1 • G + pf.z2 • H = pf.a1 + pf.a2 + e • pf.com)

/-- `HomoElGamalStatement`: `D = x H' + r Y`, `E = r G'`. -/
structure HomoElGamalStatement where
  G : Pt
  H : Pt
  Y : Pt
  D : Pt
  E : Pt

/-- `sigma_correct_homomorphic_elgamal_enc::HomoELGamalProof` -/
structure HomoElGamalProof where
  T : Pt
  A3 : Pt
  z1 : Sc
  z2 : Sc
  deriving DecidableEq

/-- `HomoELGamalProof::prove(witness = (r, x), statement)` with nonces `s1`, `s2` -/
def HomoElGamalProof.prove (r x : Sc) (st : HomoElGamalStatement) (s1 s2 : Sc) :
    HomoElGamalProof :=
  let A1 := s1 • st.H
  let A2 := s2 • st.Y
  let A3 := s2 • st.G
  let T := A1 + A2
  let e := hashPts [T, A3, st.G, st.H, st.Y, st.D, st.E]
  { T := T, A3 := A3, z1 := s1 + e * x, z2 := s2 + e * r }

/-- `HomoELGamalProof::verify(statement).is_ok()` -/
def HomoElGamalProof.verify (pf : HomoElGamalProof) (st : HomoElGamalStatement) : Bool :=
  let e := hashPts [pf.T, pf.A3, st.G, st.H, st.Y, st.D, st.E]
  decide (pf.z1 • st.H + pf.z2 • st.Y = pf.T + e • st.D) &&
    decide (pf.z2 • st.G = pf.A3 + e • st.E)

/-- `ECDDHStatement` -/
structure ECDDHStatement where
  g1 : Pt
  h1 : Pt
  g2 : Pt
  h2 : Pt

/-- `sigma_ec_ddh::ECDDHProof` -/
structure ECDDHProof where
  a1 : Pt
  a2 : Pt
  z : Sc
  deriving DecidableEq

/-- `ECDDHProof::prove(witness = x, statement)` with nonce `s` -/
def ECDDHProof.prove (x : Sc) (st : ECDDHStatement) (s : Sc) : ECDDHProof :=
  let a1 := s • st.g1
  let a2 := s • st.g2
  let e := hashPts [st.g1, st.h1, st.g2, st.h2, a1, a2]
  { a1 := a1, a2 := a2, z := s + e * x }

/-- `ECDDHProof::verify(statement).is_ok()` -/
def ECDDHProof.verify (pf : ECDDHProof) (st : ECDDHStatement) : Bool :=
  let e := hashPts [st.g1, st.h1, st.g2, st.h2, pf.a1, pf.a2]
  decide (pf.z • st.g1 = pf.a1 + e • st.h1) && decide (pf.z • st.g2 = pf.a2 + e • st.h2)

theorem DLogProof.verify_iff (pf : DLogProof) : pf.verify = true ↔
    pf.challenge_response • G + DLogProof.challenge pf.pk_t_rand_commitment pf.pk • pf.pk =
      pf.pk_t_rand_commitment := decide_eq_true_iff

theorem DLogProof.verify_prove (sk t : Sc) : (DLogProof.prove sk t).verify = true := by
  rw [DLogProof.verify_iff]
  simp only [DLogProof.prove]
  rw [← mul_smul, ← add_smul]; congr 1; ring

@[simp] theorem DLogProof.prove_pk (sk t : Sc) : (DLogProof.prove sk t).pk = sk • G := rfl

theorem PedersenProof.verify_iff (pf : PedersenProof) : pf.verify = true ↔
    pf.z1 • G + pf.z2 • H =
      pf.a1 + pf.a2 + (hashPts [G, H, pf.com, pf.a1, pf.a2] : Sc) • pf.com := decide_eq_true_iff

theorem PedersenProof.verify_prove (m r s1 s2 : Sc) :
    (PedersenProof.prove m r s1 s2).verify = true := by
  rw [PedersenProof.verify_iff]
  simp only [PedersenProof.prove]
  generalize (hashPts _ : Sc) = e
  simp only [smul_add, ← mul_smul, add_smul]
  abel

@[simp] theorem PedersenProof.prove_com (m r s1 s2 : Sc) :
    (PedersenProof.prove m r s1 s2).com = m • G + r • H := rfl

theorem HomoElGamalProof.verify_iff (pf : HomoElGamalProof) (st : HomoElGamalStatement) :
    pf.verify st = true ↔
      pf.z1 • st.H + pf.z2 • st.Y =
        pf.T + (hashPts [pf.T, pf.A3, st.G, st.H, st.Y, st.D, st.E] : Sc) • st.D ∧
      pf.z2 • st.G =
        pf.A3 + (hashPts [pf.T, pf.A3, st.G, st.H, st.Y, st.D, st.E] : Sc) • st.E :=
  Bool.and_eq_true_iff.trans (and_congr decide_eq_true_iff decide_eq_true_iff)

theorem HomoElGamalProof.verify_prove (r x : Sc) (st : HomoElGamalStatement) (s1 s2 : Sc)
    (hD : st.D = x • st.H + r • st.Y) (hE : st.E = r • st.G) :
    (HomoElGamalProof.prove r x st s1 s2).verify st = true := by
  rw [HomoElGamalProof.verify_iff]
  simp only [HomoElGamalProof.prove]
  generalize (hashPts _ : Sc) = e
  rw [hD, hE]
  constructor
  · simp only [smul_add, ← mul_smul, add_smul]
    abel
  · simp only [← mul_smul, add_smul]

theorem ECDDHProof.verify_iff (pf : ECDDHProof) (st : ECDDHStatement) :
    pf.verify st = true ↔
      pf.z • st.g1 = pf.a1 + (hashPts [st.g1, st.h1, st.g2, st.h2, pf.a1, pf.a2] : Sc) • st.h1 ∧
      pf.z • st.g2 = pf.a2 + (hashPts [st.g1, st.h1, st.g2, st.h2, pf.a1, pf.a2] : Sc) • st.h2 :=
  Bool.and_eq_true_iff.trans (and_congr decide_eq_true_iff decide_eq_true_iff)

theorem ECDDHProof.verify_prove (x : Sc) (st : ECDDHStatement) (s : Sc)
    (h1 : st.h1 = x • st.g1) (h2 : st.h2 = x • st.g2) :
    (ECDDHProof.prove x st s).verify st = true := by
  rw [ECDDHProof.verify_iff]
  simp only [ECDDHProof.prove]
  generalize (hashPts _ : Sc) = e
  rw [h1, h2]
  simp only [← mul_smul, add_smul, and_self]

end Verif
