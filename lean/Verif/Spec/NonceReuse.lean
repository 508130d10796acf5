import Verif.Model.Lindell17.Verify
import Verif.Model.GG20.Signature

/-!
# What can be computed from two signings with the same nonce share

Not part of the code in /repo.  The formulas use only what the party knows that computes them.
-/

namespace Verif.Spec

open EC Lindell17

variable [EC]

/-- Party two's two guesses for party one's share, from two signatures: `k` and `k'` are party two's own
nonce shares, `x2` is its own key share.  (Two, because party one may have replaced `s` by `q - s`.) -/
def guessShareOne (x2 k k' : Sc) (m m' : ℤ) (sig sig' : Signature) : List Sc :=
  let a : Sc := (sig.s : Sc) * k
  let b : Sc := (sig'.s : Sc) * k'
  let r : Sc := (sig.r : Sc)
  let r' : Sc := (sig'.r : Sc)
  [(a * m' - b * m) / (x2 * (b * r - a * r')), (a * m' + b * m) / (x2 * (-b * r - a * r'))]

/-- Party one's computation of party two's share, from the two decrypted partial signatures `a` and `b`
(modulo `q`) and the `r` of the two signatures. -/
def computeShareTwo (x1 : Sc) (m m' : ℤ) (a b r r' : Sc) : Sc :=
  (a * m' - b * m) / (x1 * (b * r - a * r'))

/-- What signers compute from their own presignatures and two partial signatures `p1`, `p2` that another signer
of the same session made for the messages `m1` and `m2`; `r` is the x-coordinate of the nonce point. -/
def coalitionKey (own : List GG20.CompletedOfflineStage) (r p1 p2 : Sc) (m1 m2 : ℤ) : Sc :=
  ((p2 * m1 - p1 * m2) / (r * ((m1 : Sc) - m2)) + (own.map (·.sigma_i)).sum) /
    ((p1 - p2) / ((m1 : Sc) - m2) + (own.map (·.k_i)).sum)

end Verif.Spec
