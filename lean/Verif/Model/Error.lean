import Verif.Base.Res

/-!
# Error types of the library
-/

namespace Verif

/-- `src/lib.rs`, lines 25-33: the crate-wide error enum. -/
inductive Error where
  | InvalidKey
  | InvalidSS
  | InvalidCom
  | InvalidSig
  | Phase5BadSum
  | Phase6Error
  deriving DecidableEq, Repr

/-- `src/protocols/multi_party_ecdsa/gg_2020/mod.rs`, lines 23-27, `ErrorType`. -/
structure ErrorType where
  error_type : String
  bad_actors : List ℕ
  deriving DecidableEq, Repr

end Verif
