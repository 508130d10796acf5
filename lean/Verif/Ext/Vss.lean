import Verif.Base.EC
import Verif.Base.Res

/-!
# Feldman verifiable secret sharing (`curv` 0.9, `secret_sharing::feldman_vss`)

The crate is not in `/repo`; this is a model of its documented behaviour.
-/

namespace Verif

open EC

variable [EC]

/-- `VerifiableSS<Secp256k1>`: parameters and coefficient commitments (constant term first). -/
structure Vss where
  threshold : ℕ
  share_count : ℕ
  commitments : List Pt

/-- `Polynomial::evaluate`: coefficients are listed from the constant term up. -/
def evalPoly (coefs : List Sc) (x : Sc) : Sc := coefs.foldr (fun c acc => c + x * acc) 0

/-- `VerifiableSS::share(t, n, secret)`: `coefs` are the `t` random higher coefficients.
Panics unless `t < n` (assertion in curv). Shares are the values at `1, ..., n`. -/
def Vss.share {ε : Type} (t n : ℕ) (secret : Sc) (coefs : List Sc) : Res ε (Vss × List Sc) :=
  if t < n then
    .ok (⟨t, n, (secret :: coefs).map (fun c => c • G)⟩,
      (List.range n).map (fun i => evalPoly (secret :: coefs) ((i + 1 : ℕ) : Sc)))
  else .panic

/-- `VerifiableSS::get_point_commitment(index)`: Horner's rule on the commitments; panics when
there are none. -/
def pointCommitment (commitments : List Pt) (index : ℕ) : Option Pt :=
  match commitments.reverse with
  | [] => none
  | head :: tail => some (tail.foldl (fun acc x => (index : Sc) • acc + x) head)

/-- `VerifiableSS::validate_share(share, index).is_ok()`. -/
def Vss.validateShare {ε : Type} (v : Vss) (share : Sc) (index : ℕ) : Res ε Bool := do
  let c ← Res.ofOption (pointCommitment v.commitments index)
  .ok (decide (c = share • G))

/-- `Polynomial::lagrange_basis(0, j, xs)` with `xs` the points: `∏_{i ≠ j} (0 - x_i)/(x_j - x_i)`,
positions `i` compared by index; panics when the denominator is zero. -/
def lagrangeBasisAtZero (xs : List Sc) (j : ℕ) : Option Sc := do
  let xj ← xs[j]?
  let others := xs.eraseIdx j
  let num := (others.map (fun x => 0 - x)).prod
  let denum := (others.map (fun x => xj - x)).prod
  if denum = 0 then none else some (num * denum⁻¹)

/-- `VerifiableSS::map_share_to_new_params(params, index, s)`: the Lagrange coefficient of party
`index` (zero-based) in the signer list `s` (zero-based); panics when `index` is not in `s` or
the points are not pairwise distinct. -/
def mapShareToNewParams (index : ℕ) (s : List ℕ) : Option Sc :=
  match s.findIdx? (fun x => x = index) with
  | none => none
  | some j => lagrangeBasisAtZero (s.map (fun x => ((x + 1 : ℕ) : Sc))) j

end Verif
