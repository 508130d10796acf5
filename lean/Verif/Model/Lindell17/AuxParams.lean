import Verif.Ext.Num

/-!
# Auxiliary parameters of the two-party protocol
-/

namespace Verif.Lindell17

/-- lindell_2017/party_one.rs, lines 594-607, `generate_h1_h2_n_tilde`: `p`, `q` are the sampled primes
of the auxiliary modulus, `h1` and `xhi` samples.  `none` is the `unwrap` of the missing inverse of `h1`.
Returns `(N_tilde, h1, h2, xhi)`. -/
def generate_h1_h2_n_tilde (p q : ℕ) (h1 xhi : ℤ) : Option (ℤ × ℤ × ℤ × ℤ) := do
  let n : ℤ := (p : ℤ) * q
  let h1_inv ← modInv h1 n
  let h2 ← modPow h1_inv xhi n
  some (n, h1, h2, xhi)

end Verif.Lindell17
