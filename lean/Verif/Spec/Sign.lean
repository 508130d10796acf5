import Verif.Model.GG20.SignRun
import Verif.Spec.Shamir

/-!
# Specification: keys and random values of honest signers
-/

namespace Verif.Spec

open EC Crypto GG20

variable [Crypto]

/-- `key` is party `i`'s part of a key with public key `Y`, secret shares `x 1, ..., x n`, Paillier keys
`dk 1, ..., dk n` and auxiliary parameters `sts`. -/
structure KeyOf (n : ℕ) (Y : Pt) (x : ℕ → Sc) (dk : ℕ → DecKey) (sts : List DLogStatement) (i : ℕ)
    (key : LocalKey) : Prop where
  i_pos : 1 ≤ i
  i_le : i ≤ n
  index : key.i = i
  public_key : key.y_sum_s = Y
  share : key.keys_linear.x_i = x i
  pks : key.pk_vec = (List.range n).map (fun j => x (j + 1) • G)
  dk_own : key.paillier_dk = dk i
  eks : key.paillier_key_vec = (List.range n).map (fun j => (dk (j + 1)).n)
  sts_eq : key.h1_h2_n_tilde_vec = sts

/-- The auxiliary parameters of `n` parties: invertible bases. -/
structure AuxOk (n : ℕ) (sts : List DLogStatement) : Prop where
  count : sts.length = n
  usable : ∀ st ∈ sts, 0 < st.N ∧ Int.gcd st.g st.N = 1 ∧ Int.gcd st.ni st.N = 1

/-- The samples of the signer holding `key`, whose secret multiplicands are `k`, `gamma` and `w`, are as the
code draws them: Paillier randomness is invertible, range-proof masks are not negative; and they avoid
the two failures of C29 and C26: the range-proof responses are within the bound, and no `beta_tag` plus
product exceeds the receiver's modulus. -/
structure HonestSample (m : ℕ) (N : ℕ → ℕ) (k w : ℕ → Sc) (sts : List DLogStatement) (me : ℕ)
    (rnd : SignRandomness) : Prop where
  ra_unit : Int.gcd rnd.ra (N me) = 1
  alpha_nonneg : ∀ i, 0 ≤ (rnd.alice i).alpha
  in_range : ∀ m_a, MessageA.a rnd.k (N me) rnd.ra sts rnd.alice = some m_a →
    ∀ pf ∈ m_a.range_proofs, pf.s1 ≤ (q : ℤ) ^ 3
  gammaR_unit : ∀ j < m, j ≠ me → Int.gcd (rnd.gammaR j) (N j) = 1
  wR_unit : ∀ j < m, j ≠ me → Int.gcd (rnd.wR j) (N j) = 1
  gammaBeta_nonneg : ∀ j < m, j ≠ me → 0 ≤ rnd.gammaBeta j
  wBeta_nonneg : ∀ j < m, j ≠ me → 0 ≤ rnd.wBeta j
  gamma_no_wrap : ∀ j < m, j ≠ me → (k j).val * rnd.gamma.val + rnd.gammaBeta j < N j
  w_no_wrap : ∀ j < m, j ≠ me → (k j).val * (w me).val + rnd.wBeta j < N j

/-- The additive share of the key of the signer at position `j` of the list `s_l`: the Lagrange
coefficient of its index times its Shamir share. -/
noncomputable def signShare (x : ℕ → Sc) (s_l : List ℕ) (j : ℕ) : Sc :=
  lagrangeCoeff s_l.toFinset (s_l.getD j 0) * x (s_l.getD j 0)

/-- Honest signers: the list `s_l` names distinct parties of the key, the signer at position `k` holds
the key of the party named there, and samples honestly.  The sums of the nonces `k` and `gamma` are
not zero. -/
structure HonestSigners (n : ℕ) (Y : Pt) (x : ℕ → Sc) (dk : ℕ → DecKey) (sts : List DLogStatement)
    (s_l : List ℕ) (key : ℕ → LocalKey) (rnd : ℕ → SignRandomness) : Prop where
  n_lt : n < q
  n_u16 : n < 65536
  nodup : s_l.Nodup
  members : ∀ i ∈ s_l, 1 ≤ i ∧ i ≤ n
  holds : ∀ k < s_l.length, KeyOf n Y x dk sts (s_l.getD k 0) (key k)
  aux : AuxOk n sts
  dk_valid : ∀ i, 1 ≤ i → i ≤ n → (dk i).Valid
  sample : ∀ k < s_l.length, HonestSample s_l.length (fun j => (dk (s_l.getD j 0)).n)
    (fun j => (rnd j).k) (signShare x s_l) sts k (rnd k)
  k_sum : ∑ j ∈ Finset.range s_l.length, (rnd j).k ≠ 0
  gamma_sum : ∑ j ∈ Finset.range s_l.length, (rnd j).gamma ≠ 0

end Verif.Spec
