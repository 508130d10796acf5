import Verif.Spec.Knowledge
import Verif.Ext.Digest
import Verif.Model.GG20.Keygen
import Verif.Model.GG18.Keygen

/-!
# Observers of commitments

A commitment is the hash of the encodings of a message and of a blinding factor.  The hash function is drawn at
random from all functions of byte strings of at most 65 bytes (33 for a point, 32 for the blinding factor) to
numbers of 256 bits; longer strings are hashed by the function that is given.  An observer may compute hashes,
and its questions are counted.
-/

namespace Verif.Spec

/-- The probability of an event when all outcomes are equally likely. -/
noncomputable def chance {Ω : Type} (event : Ω → Prop) : ℚ := Nat.card {ω // event ω} / Nat.card Ω

/-- What is hashed -/
abbrev ComInput : Type := {l : List UInt8 // l.length ≤ 65}

/-- A digest, read as a number -/
abbrev ComDigest : Type := Fin (2 ^ 256)

/-- Hash functions -/
abbrev ComHash : Type := ComInput → ComDigest

/-- `BigInt::sample(256)` -/
abbrev Blinding : Type := Fin (2 ^ 256)

/-- The dependencies with another hash function for commitments. -/
@[instance_reducible] def withComHash (C : Crypto) (O : ComHash) : Crypto :=
  { C with hashCom := fun m b =>
      if h : (toBytes m ++ toBytes b).length ≤ 65 then ((O ⟨_, h⟩ : ℕ) : ℤ) else C.hashCom m b }

section
variable [C : Crypto]

/-- The first message of GG20 key generation, as one of the given dependencies: the fields are the same. -/
def gg20Seen (O : ComHash) (m : @GG20.KeyGenBroadcastMessage1 (withComHash C O)) : GG20.KeyGenBroadcastMessage1 :=
  let _ := withComHash C O
  @GG20.KeyGenBroadcastMessage1.mk C m.e m.dlog_statement m.com m.correct_key_proof m.composite_dlog_proof_base_h1
    m.composite_dlog_proof_base_h2

/-- The first message of GG18 key generation -/
def gg18Seen (O : ComHash) (m : @GG18.KeyGenBroadcastMessage1 (withComHash C O)) : GG18.KeyGenBroadcastMessage1 :=
  let _ := withComHash C O
  @GG18.KeyGenBroadcastMessage1.mk C m.e m.com m.correct_key_proof

end

end Verif.Spec
