import Verif.Model.Demo.GG18Sign
import Verif.Spec.GG18
import Verif.Spec.Sign

/-!
# Specification for the GG18 demo clients
-/

namespace Verif.Spec.GG18

open EC Crypto

variable [Crypto]

/-- What the key generation client samples: a non-zero secret, a genuine Paillier key and `t`
polynomial coefficients. -/
structure HonestKeygenRand (t : ℕ) (r : Demo.Keygen.Rand) : Prop where
  u_ne : r.u ≠ 0
  dk_valid : r.dk.Valid
  dk_large : r.dk.Large
  coefs_len : r.coefs.length = t

/-- `file` is party `i`'s part of a key with public key `Y`, secret shares `x 1, ..., x n` and Paillier keys
`dk 1, ..., dk n`: the polynomial commitments in it determine the public shares. -/
structure KeyFileOf (n : ℕ) (Y : Pt) (x : ℕ → Sc) (dk : ℕ → DecKey) (i : ℕ)
    (file : Demo.Keygen.KeyFile) : Prop where
  i_pos : 1 ≤ i
  i_le : i ≤ n
  index : file.party_id = i
  public_key : file.y_sum = Y
  share : file.shared_keys.x_i = x i
  dk_own : file.party_keys.dk = dk i
  ek_own : file.party_keys.ek = (dk i).n
  eks : file.paillier_key_vector = (List.range n).map (fun j => (dk (j + 1)).n)
  vss_len : file.vss_scheme_vec.length = n
  vss_ne : ∀ v ∈ file.vss_scheme_vec, v.commitments ≠ []
  vss : ∀ j, 1 ≤ j → j ≤ n →
    (file.vss_scheme_vec.map (fun v => feldmanEval v.commitments (j : Sc))).sum = x j • G

/-- The samples of the signer at position `me` (counted from 0) of a room of `m`: Paillier randomness is
invertible, no `beta_tag` is negative and no product plus `beta_tag` exceeds the receiver's modulus
(C26).  `N`, `k` and `w` give every signer's modulus, nonce share and key share by position. -/
structure HonestSignRand (m : ℕ) (N : ℕ → ℕ) (k w : ℕ → Sc) (me : ℕ) (rnd : Demo.Sign.Rand) : Prop where
  ra_unit : Int.gcd rnd.ra (N me) = 1
  gammaR_unit : ∀ j < m, j ≠ me → Int.gcd (rnd.gammaR (j + 1)) (N j) = 1
  wR_unit : ∀ j < m, j ≠ me → Int.gcd (rnd.wR (j + 1)) (N j) = 1
  gammaBeta_nonneg : ∀ j < m, j ≠ me → 0 ≤ rnd.gammaBeta (j + 1)
  wBeta_nonneg : ∀ j < m, j ≠ me → 0 ≤ rnd.wBeta (j + 1)
  gamma_no_wrap : ∀ j < m, j ≠ me → (k j).val * rnd.gamma.val + rnd.gammaBeta (j + 1) < N j
  w_no_wrap : ∀ j < m, j ≠ me → (k j).val * (w me).val + rnd.wBeta (j + 1) < N j

/-- A signing room: client number `k + 1` holds the key file of the party at position `k` of `s_l` and
samples honestly; the sums of the nonces `k` and `gamma` are not zero. -/
structure HonestRoom (n : ℕ) (Y : Pt) (x : ℕ → Sc) (dk : ℕ → DecKey) (s_l : List ℕ)
    (key : ℕ → Demo.Keygen.KeyFile) (rnd : ℕ → Demo.Sign.Rand) : Prop where
  n_lt : n < q
  n_u16 : n < 65536
  nodup : s_l.Nodup
  members : ∀ i ∈ s_l, 1 ≤ i ∧ i ≤ n
  holds : ∀ k < s_l.length, KeyFileOf n Y x dk (s_l.getD k 0) (key (k + 1))
  dk_valid : ∀ i, 1 ≤ i → i ≤ n → (dk i).Valid
  sample : ∀ k < s_l.length, HonestSignRand s_l.length (fun j => (dk (s_l.getD j 0)).n)
    (fun j => (rnd (j + 1)).k) (signShare x s_l) k (rnd (k + 1))
  k_sum : ∑ j ∈ Finset.range s_l.length, (rnd (j + 1)).k ≠ 0
  gamma_sum : ∑ j ∈ Finset.range s_l.length, (rnd (j + 1)).gamma ≠ 0

end Verif.Spec.GG18
