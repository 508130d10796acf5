import Verif.Lemmas.Hiding
import Verif.Model.GG20.Sign
import Verif.Model.GG18.Sign
import Verif.Model.Lindell17.Sign
import Verif.Model.CCLST19.Protocol
import Verif.Base.ToyCrypto
import Verif.Secp256k1.Crypto
import Verif.Lemmas.Digest

/-!
# Commitments hide what is committed to

An observer gets the first message of a party and computes at most `n` hashes.  Whatever it tests, the test
succeeds nearly equally often for any two values that the party may have committed to.
-/

namespace Verif.Props

open EC Crypto Spec

section
variable [C : Crypto] {n : ℕ}

theorem ser_bound (P : Pt) : (ser P).natAbs < 256 ^ 33 := by
  unfold ser
  cases h : coords P with
  | none => simp
  | some xy =>
    obtain ⟨x, y⟩ := xy
    have h1 := (coords_lt P x y h).1
    have h2 := p_lt (self := C.toEC)
    show (2 + y % 2) * 2 ^ 256 + x < 256 ^ 33
    have h3 : y % 2 < 2 := Nat.mod_lt _ (by decide)
    have h4 : (256 : ℕ) ^ 33 = 256 * 2 ^ 256 := by norm_num
    rw [h4]
    generalize (2 : ℕ) ^ 256 = M at *
    nlinarith

/-- **C108** (any commitment): the digest hides which of two messages of at most 33 bytes is committed to. -/
theorem C108_commitment {m m' : ℤ} (hm : m.natAbs < 256 ^ 33) (hm' : m'.natAbs < 256 ^ 33)
    {A : ℤ → Prover ComInput ComDigest Bool} (hA : ∀ c, (A c).AsksAtMost n) :
    |chance (fun ω : Blinding × ComHash => (A ((withComHash C ω.2).hashCom m ω.1.1)).run ω.2 = true) -
      chance (fun ω : Blinding × ComHash => (A ((withComHash C ω.2).hashCom m' ω.1.1)).run ω.2 = true)| ≤
        2 * n / 2 ^ 256 := by
  have := chance_hiding (comInput_inj hm) (comInput_inj hm') (A := fun c : ComDigest => A ((c : ℕ) : ℤ))
    (fun c => hA _)
  rw [card_blinding] at this
  simp only [withComHash_hashCom C _ hm, withComHash_hashCom C _ hm']
  exact_mod_cast this

/-- **C108** (two commitments with own blinding factors). -/
theorem C108_two_commitments {m₁ m₁' m₂ m₂' : ℤ} (hm₁ : m₁.natAbs < 256 ^ 33) (hm₁' : m₁'.natAbs < 256 ^ 33)
    (hm₂ : m₂.natAbs < 256 ^ 33) (hm₂' : m₂'.natAbs < 256 ^ 33)
    {A : ℤ → ℤ → Prover ComInput ComDigest Bool} (hA : ∀ c d, (A c d).AsksAtMost n) :
    |chance (fun ω : (Blinding × ComHash) × Blinding =>
        (A ((withComHash C ω.1.2).hashCom m₁ ω.1.1.1) ((withComHash C ω.1.2).hashCom m₂ ω.2.1)).run ω.1.2 = true) -
      chance (fun ω : (Blinding × ComHash) × Blinding =>
        (A ((withComHash C ω.1.2).hashCom m₁' ω.1.1.1) ((withComHash C ω.1.2).hashCom m₂' ω.2.1)).run ω.1.2 = true)| ≤
      4 * (n + 1) / 2 ^ 256 := by
  have e1 : |chance (fun ω : (Blinding × ComHash) × Blinding =>
        (A ((withComHash C ω.1.2).hashCom m₁ ω.1.1.1) ((withComHash C ω.1.2).hashCom m₂ ω.2.1)).run ω.1.2 = true) -
      chance (fun ω : (Blinding × ComHash) × Blinding =>
        (A ((withComHash C ω.1.2).hashCom m₁' ω.1.1.1) ((withComHash C ω.1.2).hashCom m₂ ω.2.1)).run ω.1.2 = true)| ≤
      2 * ((n + 1 : ℕ) : ℚ) / 2 ^ 256 := by
    refine chance_prod_abs (E := fun ω : (Blinding × ComHash) × Blinding =>
        (A ((withComHash C ω.1.2).hashCom m₁ ω.1.1.1) ((withComHash C ω.1.2).hashCom m₂ ω.2.1)).run ω.1.2 = true)
      (F := fun ω : (Blinding × ComHash) × Blinding =>
        (A ((withComHash C ω.1.2).hashCom m₁' ω.1.1.1) ((withComHash C ω.1.2).hashCom m₂ ω.2.1)).run ω.1.2 = true)
      fun b => ?_
    have := C108_commitment (C := C) hm₁ hm₁' (n := n + 1)
      (A := fun c => .ask (comInput m₂ hm₂ b) fun d => A c ((d : ℕ) : ℤ)) (fun c d => hA _ _)
    simp only [withComHash_hashCom C _ hm₂]
    exact this
  have e2 : |chance (fun ω : (Blinding × ComHash) × Blinding =>
        (A ((withComHash C ω.1.2).hashCom m₁' ω.2.1) ((withComHash C ω.1.2).hashCom m₂ ω.1.1.1)).run ω.1.2 = true) -
      chance (fun ω : (Blinding × ComHash) × Blinding =>
        (A ((withComHash C ω.1.2).hashCom m₁' ω.2.1) ((withComHash C ω.1.2).hashCom m₂' ω.1.1.1)).run ω.1.2 = true)| ≤
      2 * ((n + 1 : ℕ) : ℚ) / 2 ^ 256 := by
    refine chance_prod_abs (E := fun ω : (Blinding × ComHash) × Blinding =>
        (A ((withComHash C ω.1.2).hashCom m₁' ω.2.1) ((withComHash C ω.1.2).hashCom m₂ ω.1.1.1)).run ω.1.2 = true)
      (F := fun ω : (Blinding × ComHash) × Blinding =>
        (A ((withComHash C ω.1.2).hashCom m₁' ω.2.1) ((withComHash C ω.1.2).hashCom m₂' ω.1.1.1)).run ω.1.2 = true)
      fun b => ?_
    have := C108_commitment (C := C) hm₂ hm₂' (n := n + 1)
      (A := fun d => .ask (comInput m₁' hm₁' b) fun c => A ((c : ℕ) : ℤ) d) (fun c d => hA _ _)
    simp only [withComHash_hashCom C _ hm₁']
    exact this
  have hs : ∀ m : ℤ, chance (fun ω : (Blinding × ComHash) × Blinding =>
        (A ((withComHash C ω.1.2).hashCom m₁' ω.2.1) ((withComHash C ω.1.2).hashCom m ω.1.1.1)).run ω.1.2 = true) =
      chance (fun ω : (Blinding × ComHash) × Blinding =>
        (A ((withComHash C ω.1.2).hashCom m₁' ω.1.1.1) ((withComHash C ω.1.2).hashCom m ω.2.1)).run ω.1.2 = true) :=
    fun m => chance_equiv (⟨fun ω => ((ω.2, ω.1.2), ω.1.1), fun ω => ((ω.2, ω.1.2), ω.1.1), fun _ => rfl, fun _ => rfl⟩ :
      (Blinding × ComHash) × Blinding ≃ (Blinding × ComHash) × Blinding)
      (E := fun ω => (A ((withComHash C ω.1.2).hashCom m₁' ω.1.1.1) ((withComHash C ω.1.2).hashCom m ω.2.1)).run ω.1.2 = true)
  rw [hs, hs] at e2
  refine (abs_sub_le _ _ _).trans ((add_le_add e1 e2).trans (le_of_eq ?_))
  push_cast
  ring

/-- **C108** (GG20 key generation): the first message of a party hides its contribution to the key. -/
theorem C108_gg20_keygen (i : ℕ) (u u' : Sc) (dk : DecKey) (aux : ℤ × ℤ × ℤ × ℤ × ℤ) (r1 r2 : ℕ)
    {A : GG20.KeyGenBroadcastMessage1 → Prover ComInput ComDigest Bool} (hA : ∀ m, (A m).AsksAtMost n) :
    |chance (fun ω : Blinding × ComHash => (A (gg20Seen ω.2 (@GG20.Keys.phase1_broadcast (withComHash C ω.2)
        (@GG20.Keys.create (withComHash C ω.2) i u dk aux) ω.1.1 r1 r2).1)).run ω.2 = true) -
      chance (fun ω : Blinding × ComHash => (A (gg20Seen ω.2 (@GG20.Keys.phase1_broadcast (withComHash C ω.2)
        (@GG20.Keys.create (withComHash C ω.2) i u' dk aux) ω.1.1 r1 r2).1)).run ω.2 = true)| ≤ 2 * n / 2 ^ 256 :=
  C108_commitment (ser_bound (u • G)) (ser_bound (u' • G))
    (A := fun c => A ⟨dk.n, ⟨aux.1, aux.2.1, aux.2.2.1⟩, c, ckProve dk, cdProve ⟨aux.1, aux.2.1, aux.2.2.1⟩ aux.2.2.2.1 r1,
      cdProve ⟨aux.1, aux.2.2.1, aux.2.1⟩ aux.2.2.2.2 r2⟩) fun _ => hA _

/-- **C108** (GG18 key generation) -/
theorem C108_gg18_keygen (i : ℕ) (u u' : Sc) (dk : DecKey)
    {A : GG18.KeyGenBroadcastMessage1 → Prover ComInput ComDigest Bool} (hA : ∀ m, (A m).AsksAtMost n) :
    |chance (fun ω : Blinding × ComHash => (A (gg18Seen ω.2 (@GG18.Keys.phase1_broadcast (withComHash C ω.2)
        (@GG18.Keys.create (withComHash C ω.2) i u dk) ω.1.1).1)).run ω.2 = true) -
      chance (fun ω : Blinding × ComHash => (A (gg18Seen ω.2 (@GG18.Keys.phase1_broadcast (withComHash C ω.2)
        (@GG18.Keys.create (withComHash C ω.2) i u' dk) ω.1.1).1)).run ω.2 = true)| ≤ 2 * n / 2 ^ 256 :=
  C108_commitment (ser_bound (u • G)) (ser_bound (u' • G))
    (A := fun c => A ⟨dk.n, c, ckProve dk⟩) fun _ => hA _

/-- **C108** (key generation of the two-party protocols): the first message of party one hides its key share and
the nonce of its proof. -/
theorem C108_two_party_keygen (x x' t t' : Sc)
    {A : Lindell17.KeyGenFirstMsg → Prover ComInput ComDigest Bool} (hA : ∀ m, (A m).AsksAtMost n) :
    |chance (fun ω : (Blinding × ComHash) × Blinding =>
        (A (@Lindell17.create_commitments (withComHash C ω.1.2) x t ω.1.1.1 ω.2.1).1).run ω.1.2 = true) -
      chance (fun ω : (Blinding × ComHash) × Blinding =>
        (A (@Lindell17.create_commitments (withComHash C ω.1.2) x' t' ω.1.1.1 ω.2.1).1).run ω.1.2 = true)| ≤
      4 * (n + 1) / 2 ^ 256 :=
  C108_two_commitments (ser_bound (x • G)) (ser_bound (x' • G)) (ser_bound (t • G)) (ser_bound (t' • G))
    (A := fun c d => A ⟨c, d⟩) fun _ _ => hA _

/-- **C108** (the same in CCLST19) -/
theorem C108_cclst_keygen (x x' t t' : Sc)
    {A : Lindell17.KeyGenFirstMsg → Prover ComInput ComDigest Bool} (hA : ∀ m, (A m).AsksAtMost n) :
    |chance (fun ω : (Blinding × ComHash) × Blinding =>
        (A (@CCLST19.create_commitments (withComHash C ω.1.2) x t ω.1.1.1 ω.2.1).1).run ω.1.2 = true) -
      chance (fun ω : (Blinding × ComHash) × Blinding =>
        (A (@CCLST19.create_commitments (withComHash C ω.1.2) x' t' ω.1.1.1 ω.2.1).1).run ω.1.2 = true)| ≤
      4 * (n + 1) / 2 ^ 256 :=
  C108_two_commitments (ser_bound ((((x.val : ℤ) / 3 : ℤ) : Sc) • G)) (ser_bound ((((x'.val : ℤ) / 3 : ℤ) : Sc) • G))
    (ser_bound (t • G)) (ser_bound (t' • G)) (A := fun c d => A ⟨c, d⟩) fun _ _ => hA _

/-- **C108** (nonce exchange of the two-party protocols): the first message of party two hides its nonce share and
the nonce of its proof. -/
theorem C108_two_party_nonce (hsize : ∀ l : List Pt, (hashPtsInt l).natAbs < 256 ^ 33) (k k' s s' : Sc)
    {A : Lindell17.KeyGenFirstMsg → Prover ComInput ComDigest Bool} (hA : ∀ m, (A m).AsksAtMost n) :
    |chance (fun ω : (Blinding × ComHash) × Blinding =>
        (A (@Lindell17.eph_create_commitments (withComHash C ω.1.2) k s ω.1.1.1 ω.2.1).1).run ω.1.2 = true) -
      chance (fun ω : (Blinding × ComHash) × Blinding =>
        (A (@Lindell17.eph_create_commitments (withComHash C ω.1.2) k' s' ω.1.1.1 ω.2.1).1).run ω.1.2 = true)| ≤
      4 * (n + 1) / 2 ^ 256 :=
  C108_two_commitments (ser_bound (k • G)) (ser_bound (k' • G)) (hsize [s • G, s • H]) (hsize [s' • G, s' • H])
    (A := fun c d => A ⟨c, d⟩) fun _ _ => hA _

/-- **C108** (first message of signing in GG20): the commitment to the nonce mask hides it until the second
message is sent (see C106). -/
theorem C108_gg20_sign (w k g g' : Sc)
    {A : ℤ → Prover ComInput ComDigest Bool} (hA : ∀ c, (A c).AsksAtMost n) :
    |chance (fun ω : Blinding × ComHash => (A (@GG20.SignKeys.phase1_broadcast (withComHash C ω.2)
        (@GG20.SignKeys.mk (withComHash C ω.2) w (w • G) k g (g • G)) ω.1.1).1.com).run ω.2 = true) -
      chance (fun ω : Blinding × ComHash => (A (@GG20.SignKeys.phase1_broadcast (withComHash C ω.2)
        (@GG20.SignKeys.mk (withComHash C ω.2) w (w • G) k g' (g' • G)) ω.1.1).1.com).run ω.2 = true)| ≤
      2 * n / 2 ^ 256 :=
  C108_commitment (ser_bound (g • G)) (ser_bound (g' • G)) hA

/-- **C108** (first message of signing in GG18) -/
theorem C108_gg18_sign (w k g g' : Sc)
    {A : ℤ → Prover ComInput ComDigest Bool} (hA : ∀ c, (A c).AsksAtMost n) :
    |chance (fun ω : Blinding × ComHash => (A (@GG18.SignKeys.phase1_broadcast (withComHash C ω.2)
        (@GG18.SignKeys.mk (withComHash C ω.2) w (w • G) k g (g • G)) ω.1.1).1.com).run ω.2 = true) -
      chance (fun ω : Blinding × ComHash => (A (@GG18.SignKeys.phase1_broadcast (withComHash C ω.2)
        (@GG18.SignKeys.mk (withComHash C ω.2) w (w • G) k g' (g' • G)) ω.1.1).1.com).run ω.2 = true)| ≤
      2 * n / 2 ^ 256 :=
  C108_commitment (ser_bound (g • G)) (ser_bound (g' • G)) hA

/-! ### The hypotheses are met

An observer that tries one blinding factor. -/

/-- It asks one question, and what it sees does depend on the committed point. -/
theorem exists_observer (P P' : Pt) (hP : P ≠ P') : ∃ A : ℤ → Prover ComInput ComDigest Bool,
    (∀ c, (A c).AsksAtMost 1) ∧ ∃ (b : Blinding) (O : ComHash),
      (A ((withComHash C O).hashCom (ser P) b.1)).run O = true ∧
      (A ((withComHash C O).hashCom (ser P') b.1)).run O = false := by
  have hne : comInput (ser P') (ser_bound P') ⟨0, Nat.two_pow_pos _⟩ ≠ comInput (ser P) (ser_bound P) ⟨0, Nat.two_pow_pos _⟩ := by
    intro h
    have h1 := toBytes_inj (List.append_cancel_right (congrArg Subtype.val h))
    refine hP (ser_inj ?_)
    have h2 : ∀ Q : Pt, 0 ≤ ser Q := fun Q => by
      unfold ser
      cases coords Q with
      | none => exact le_refl _
      | some xy => exact Int.natCast_nonneg _
    have := h2 P
    have := h2 P'
    omega
  classical
  refine ⟨fun c => .ask (comInput (ser P) (ser_bound P) ⟨0, Nat.two_pow_pos _⟩) fun d => .result (decide (((d : ℕ) : ℤ) = c)),
    fun _ _ => trivial, ⟨0, Nat.two_pow_pos _⟩,
    fun x => if x = comInput (ser P) (ser_bound P) ⟨0, Nat.two_pow_pos _⟩ then ⟨1, by norm_num⟩ else ⟨0, by norm_num⟩, ?_, ?_⟩
  · rw [withComHash_hashCom C _ (ser_bound P)]
    exact decide_eq_true rfl
  · rw [withComHash_hashCom C _ (ser_bound P')]
    refine decide_eq_false ?_
    dsimp only
    rw [if_pos rfl, if_neg hne]
    decide

end

section
attribute [local instance] Toy.crypto

example : ∃ A : ℤ → Prover ComInput ComDigest Bool, (∀ c, (A c).AsksAtMost 1) ∧ ∃ (b : Blinding) (O : ComHash),
    (A ((withComHash Toy.crypto O).hashCom (ser ((7 : ZMod 31) • G)) b.1)).run O = true ∧
    (A ((withComHash Toy.crypto O).hashCom (ser ((9 : ZMod 31) • G)) b.1)).run O = false :=
  exists_observer _ _ (by decide)

end

/-- On secp256k1 the hashes of points that are committed to are short enough. -/
theorem secp_sizes (l : List (@EC.Pt Secp256k1.inst)) :
    (@Crypto.hashPtsInt Secp256k1.crypto l).natAbs < 256 ^ 33 := by
  show (((fromBytes (Sha256.hash _) : ℕ) : ℤ)).natAbs < 256 ^ 33
  rw [Int.natAbs_natCast]
  have := fromBytes_lt (Sha256.hash (l.flatMap (@Digest.uncompressed Secp256k1.inst)))
  rw [Sha256.hash_length] at this
  exact this.trans (Nat.pow_lt_pow_right (by decide) (by decide))
end Verif.Props
