import Verif.Ext.Crypto
import Mathlib.Data.Int.ModEq
import Mathlib.Data.Nat.Prime.Basic

/-!
# Malicious auxiliary parameters

What makes auxiliary parameters `(N~, h1, h2)` disclose the exponents of commitments `h1^a h2^b`, and the program
with which their owner reads them.
-/

namespace Verif.Spec

/-- Modulo a prime factor `P` of `N~`, the power `E` removes `h2` and maps `h1` to an element of prime order `L`. -/
structure ParamsLeak (st : DLogStatement) (P E L : ℕ) : Prop where
  p_prime : P.Prime
  p_dvd : (P : ℤ) ∣ st.N
  l_prime : L.Prime
  ni_pow : st.ni ^ E ≡ 1 [ZMOD P]
  g_pow : (st.g ^ E) ^ L ≡ 1 [ZMOD P]
  g_ne : ¬ st.g ^ E ≡ 1 [ZMOD P]

/-- What the owner of the parameters computes from a commitment `z`, with at most `L` comparisons. -/
def paramResidue (st : DLogStatement) (P E L : ℕ) (z : ℤ) : Option ℕ :=
  (List.range L).find? fun (i : ℕ) => decide (z ^ E % P = (st.g ^ E) ^ i % P)

end Verif.Spec
