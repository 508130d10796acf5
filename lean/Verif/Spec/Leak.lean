import Verif.Model.Mta
import Mathlib.Data.Nat.ChineseRemainder

/-!
# What a cheating Alice does with the MtA exchange

The attacker of C89, written as a program.  It uses only the messages it sees and its own decryption key.
-/

namespace Verif.Spec

open EC Crypto

variable [Crypto]

/-- The first message of a cheating Alice with key `N`: an encryption of any number `a`, and for each of `count`
auxiliary statements the same range proof, which depends on no secret. -/
def forgedMessageA (N : ℕ) (a : ℤ) (count : ℕ) : MessageA :=
  let c := Paillier.encrypt N a 1
  ⟨c, List.replicate count ⟨1, aliceChallenge N c 1 0 1, 0, 0, 0⟩⟩

/-- What Alice computes from the response when she encrypted the inverse of `L` modulo `N`: she decrypts it to
`alpha`, looks for the `u` in `[-L, L)` with `L (alpha G - B') - B = N u G`, where `B` and `B'` are the two points
of the response, and returns `-N u mod L`.  It takes `2 L` comparisons of points. -/
def residueOf (dk : DecKey) (L : ℕ) (m : MessageB) : Option ℕ :=
  (Paillier.decrypt dk m.c).bind fun alpha =>
    ((List.range (2 * L)).find? fun (i : ℕ) => decide ((L : Sc) • ((alpha : Sc) • (G : Pt) - m.beta_tag_proof.pk) -
      m.b_proof.pk = ((dk.n * ((i : ℤ) - L) : ℤ) : Sc) • G)).map fun (i : ℕ) => ((-(dk.n * ((i : ℤ) - L))) % L).toNat

/-- Alice puts together the residues from several exchanges, one for each modulus in `Ls`, by the Chinese remainder
theorem; `m L` is the response in the exchange for `L`. -/
def recover (dk : DecKey) (Ls : List ℕ) (co : Ls.Pairwise (Function.onFun Nat.Coprime id)) (m : ℕ → MessageB) : ℕ :=
  Nat.chineseRemainderOfList (fun L => (residueOf dk L (m L)).getD 0) id Ls co

end Verif.Spec
