import Verif.Ext.Paillier
import Verif.Ext.Sigma

/-!
# The PDL proof with slack

Models `src/utilities/zk_pdl_with_slack/mod.rs`.  `none` is a panic (an `unwrap` of a missing inverse)
or an abort of GMP.
-/

namespace Verif

open EC Crypto

variable [Crypto]

/-- zk_pdl_with_slack/mod.rs, lines 40-49, `PDLwSlackStatement` -/
structure PDLwSlackStatement where
  ciphertext : ℤ
  ek : ℕ
  Q : Pt
  G : Pt
  h1 : ℤ
  h2 : ℤ
  N_tilde : ℤ
  deriving DecidableEq

/-- zk_pdl_with_slack/mod.rs, lines 50-54, `PDLwSlackWitness` -/
structure PDLwSlackWitness where
  x : Sc
  r : ℤ

/-- zk_pdl_with_slack/mod.rs, lines 56-65, `PDLwSlackProof` -/
structure PDLwSlackProof where
  z : ℤ
  u1 : Pt
  u2 : ℤ
  u3 : ℤ
  s1 : ℤ
  s2 : ℤ
  s3 : ℤ
  deriving DecidableEq

/-- The samples of `PDLwSlackProof::prove` (zk_pdl_with_slack/mod.rs, lines 73-77) -/
structure PdlRand where
  alpha : ℤ
  beta : ℤ
  rho : ℤ
  gamma : ℤ

omit [Crypto] in
/-- zk_pdl_with_slack/mod.rs, lines 190-197: the second power, a negative one through the inverse. -/
def cuoPow (h2 N r : ℤ) : Option ℤ :=
  if r < 0 then (modInv h2 N).bind fun h2_inv => modPow h2_inv (-r) N else modPow h2 r N

omit [Crypto] in
/-- zk_pdl_with_slack/mod.rs, lines 182-199, `commitment_unknown_order`; `mod_mul` reduces to `[0, N)`. -/
def commitmentUnknownOrder (h1 h2 N x r : ℤ) : Option ℤ := do
  let h1_x ← modPow h1 x N
  let h2_r ← cuoPow h2 N r
  some (h1_x * h2_r % N)

/-- The challenge (lines 104-112 and 128-136): `BigInt::from_bytes(P.to_bytes(true))` is `ser P`. -/
def pdlChallenge (st : PDLwSlackStatement) (z : ℤ) (u1 : Pt) (u2 u3 : ℤ) : ℤ :=
  hashInts [ser st.G, ser st.Q, st.ciphertext, z, ser u1, u2, u3]

/-- zk_pdl_with_slack/mod.rs, lines 68-125, `PDLwSlackProof::prove` -/
def PDLwSlackProof.prove (w : PDLwSlackWitness) (st : PDLwSlackStatement) (rnd : PdlRand) :
    Option PDLwSlackProof := do
  let n : ℤ := st.ek
  let z ← commitmentUnknownOrder st.h1 st.h2 st.N_tilde w.x.val rnd.rho
  let u1 := (rnd.alpha : Sc) • st.G
  let u2 ← commitmentUnknownOrder (n + 1) rnd.beta (n * n) rnd.alpha n
  let u3 ← commitmentUnknownOrder st.h1 st.h2 st.N_tilde rnd.alpha rnd.gamma
  let e := pdlChallenge st z u1 u2 u3
  let s1 := e * w.x.val + rnd.alpha
  let s2 ← commitmentUnknownOrder w.r rnd.beta n e 1
  let s3 := e * rnd.rho + rnd.gamma
  some { z := z, u1 := u1, u2 := u2, u3 := u3, s1 := s1, s2 := s2, s3 := s3 }

/-- zk_pdl_with_slack/mod.rs, lines 127-180, `PDLwSlackProof::verify(..).is_ok()` -/
def PDLwSlackProof.verify (pf : PDLwSlackProof) (st : PDLwSlackStatement) : Option Bool := do
  let n : ℤ := st.ek
  let e := pdlChallenge st pf.z pf.u1 pf.u2 pf.u3
  let g_s1 := (pf.s1 : Sc) • st.G
  let e_fe_neg : Sc := (((q : ℤ) - e : ℤ) : Sc)
  let y_minus_e := e_fe_neg • st.Q
  let u1_test := g_s1 + y_minus_e
  let u2_test_tmp ← commitmentUnknownOrder (n + 1) pf.s2 (n * n) pf.s1 n
  let u2_test ← commitmentUnknownOrder u2_test_tmp st.ciphertext (n * n) 1 (-e)
  let u3_test_tmp ← commitmentUnknownOrder st.h1 st.h2 st.N_tilde pf.s1 pf.s3
  let u3_test ← commitmentUnknownOrder u3_test_tmp pf.z st.N_tilde 1 (-e)
  some (decide (pf.u1 = u1_test) && decide (pf.u2 = u2_test) && decide (pf.u3 = u3_test))

end Verif
