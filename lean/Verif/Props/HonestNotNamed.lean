import Verif.Lemmas.HonestNotNamed
import Verif.Props.Culprits
import Verif.Props.SignPanic

/-!
# C114: an honest signer is never named
-/

namespace Verif.Props

open EC Crypto GG20 GG20.Sign Spec

section
variable [Crypto] {n : ℕ} {Y : Pt} {x : ℕ → Sc} {dk : ℕ → DecKey} {sts : List DLogStatement} {s_l : List ℕ}
  {v p : ℕ} {keyv keyp : LocalKey} {rndv rndp : SignRandomness} {bv bp : SignerMsgs} {e : SignError}

/-- **C114** (partial). Signers `v + 1` and `p + 1` run the program, the other signers do anything.  If
`v + 1` stops with an error, and the messages it had received from `p + 1` by then are those that `p + 1`
sent, then the error does not name `p + 1`; for errors raised in rounds 5 and 6, provided the two had the
same view of the broadcasts of rounds 3 and 4.

Missing with respect to the property: the last proviso, without which it fails, see
`C114_accuse_each_other`. -/
theorem C114_honest_not_named_partial (hv : HonestSigner n Y x dk sts s_l v keyv rndv)
    (hp : HonestSigner n Y x dk sts s_l p keyp rndp) (hne : p ≠ v)
    (h : (offlineLine rndv (v + 1) s_l keyv bv).2 = .err e)
    (genuine : SignGenuineUpTo (failedAfter e) (offlineLine rndp (p + 1) s_l keyp bp).1 (v + 1) (p + 1) bv)
    (same : 5 ≤ failedAfter e →
      SameBroadcasts (offlineLine rndv (v + 1) s_l keyv bv).1 (v + 1) (p + 1) bv bp) :
    p + 1 ∉ namedSigners e :=
  honest_not_named hv hp hne h genuine same

/-- **C114** (the signer itself). Whatever it receives, a signer that runs the program does not name
itself. -/
theorem C114_not_itself (hv : HonestSigner n Y x dk sts s_l v keyv rndv)
    (h : (offlineLine rndv (v + 1) s_l keyv bv).2 = .err e) : v + 1 ∉ namedSigners e :=
  not_itself hv h

end

/-! ### Examples: parties 3, 1 and 2 on the 31-point group -/

deriving instance DecidableEq for GG20.Sign.M

section
attribute [local instance] Toy.crypto

def tri : List ℕ := [3, 1, 2]
def triKey (k : ℕ) : LocalKey := toyLocal (tri.getD k 0)
def triX1 (k : ℕ) := (⟨k + 1, tri, triKey k⟩ : Sign.Round0).proceed (toySign k)
def triB1 (k : ℕ) : MessageA × SignBroadcastPhase1 := bodyOr (⟨0, []⟩, ⟨0⟩) (triX1 k)
def triX2 (k : ℕ) := triX1 k >>= fun r => r.1.proceed ((GG20.Sign.others 3 k).map triB1) (toySign k)

/-- What the signer at position `i` (from 0) answers to the one at position `k`. -/
def triB2 (i k : ℕ) : MessageB × MessageB :=
  match triX2 i with
  | .ok (_, ms) => (ms[if k < i then k else k - 1]?.map Msg.body).getD
      (⟨0, toyPf, toyPf⟩, ⟨0, toyPf, toyPf⟩)
  | _ => (⟨0, toyPf, toyPf⟩, ⟨0, toyPf, toyPf⟩)
def triX3 (k : ℕ) :=
  triX2 k >>= fun r => r.1.proceed ((GG20.Sign.others 3 k).map (fun i => triB2 i k)) (toySign k)
def triS3 (k : ℕ) : TMsg := bodyOr ⟨(0 : ZMod 31), (0 : ZMod 31), toyPed⟩ (triX3 k)

/-- What the signer at position `k` receives in round 3 from the one at position `i`.  If `c`, the last
signer tells the second another share of `delta` than the first. -/
def triB3 (c : Bool) (k i : ℕ) : TMsg :=
  if c ∧ k = 1 ∧ i = 2 then
    { triS3 i with delta_i := show ZMod 31 from 1 + (show ZMod 31 from (triS3 i).delta_i) }
  else triS3 i
def triX4 (c : Bool) (k : ℕ) := triX3 k >>= fun r => r.1.proceed ((GG20.Sign.others 3 k).map (triB3 c k))
def triB4 (c : Bool) (k : ℕ) : SignDecommitPhase1 := bodyOr ⟨0, (0 : ZMod 31)⟩ (triX4 c k)
def triX5 (c : Bool) (k : ℕ) :=
  triX4 c k >>= fun r => r.1.proceed ((GG20.Sign.others 3 k).map (triB4 c)) (toySign k)
def triB5 (c : Bool) (k : ℕ) : Pt × List PDLwSlackProof := bodyOr ((0 : ZMod 31), []) (triX5 c k)
def triX6 (c : Bool) (k : ℕ) :=
  triX5 c k >>= fun r => r.1.proceed ((GG20.Sign.others 3 k).map (triB5 c)) (toySign k)
def triB6 (c : Bool) (k : ℕ) : Pt × HomoElGamalProof := bodyOr ((0 : ZMod 31), toyHeg) (triX6 c k)

/-- What the signer at position `k` receives. -/
def triMsgs (c : Bool) (k : ℕ) : SignerMsgs :=
  { b1 := fun p => triB1 (p - 1), b2 := fun p => triB2 (p - 1) k, b3 := fun p => triB3 c k (p - 1)
    b4 := fun p => triB4 c (p - 1), b5 := fun p => triB5 c (p - 1), b6 := fun p => triB6 c (p - 1) }

theorem triSigner {k : ℕ} (hk : k < 3) : HonestSigner 3 ((5 : ZMod 31) • (G : Pt)) toyX (fun _ => toyKey)
    [toySt, toySt, toySt] tri k (triKey k) (toySign k) :=
  { n_lt := by decide, n_u16 := by decide, nodup := by decide, members := by decide, pos := hk
    holds := by
      have hb : ∀ k < 3, 1 ≤ tri.getD k 0 ∧ tri.getD k 0 ≤ 3 := by decide
      exact ⟨(hb k hk).1, (hb k hk).2, rfl, rfl, rfl, rfl, rfl, rfl, rfl⟩
    aux := ⟨rfl, by decide⟩, dk_valid := toyKey_valid, moduli := fun _ _ _ => by decide
    ra_unit := by simp [toySign], alpha_nonneg := fun _ => by simp [toySign] }

/-- The three complete the offline stage if all run the program. -/
theorem tri_completes : ∀ k < 3, ∃ out,
    (offlineLine (toySign k) (k + 1) tri (triKey k) (triMsgs false k)).2 = .ok out := by
  have h : ∀ k < 3, (match (offlineLine (toySign k) (k + 1) tri (triKey k) (triMsgs false k)).2 with
    | .ok _ => true | _ => false) = true := by decide +kernel
  intro k hk
  have h := h k hk
  revert h
  generalize (offlineLine (toySign k) (k + 1) tri (triKey k) (triMsgs false k)).2 = r
  cases r <;> simp

theorem tri_err_of {k : ℕ} {b : SignerMsgs} {e : SignError}
    (h : (match (offlineLine (toySign k) (k + 1) tri (triKey k) b).2 with
      | .err e' => decide (e' = e) | _ => false) = true) :
    (offlineLine (toySign k) (k + 1) tri (triKey k) b).2 = .err e := by
  revert h
  generalize (offlineLine (toySign k) (k + 1) tri (triKey k) b).2 = r
  cases r <;> simp

/-- The last signer sends a wrong proof in round 6. -/
def triLast : SignerMsgs :=
  { triMsgs false 0 with b6 := fun p => if p = 3 then ((0 : ZMod 31), toyHeg) else triB6 false (p - 1) }

theorem triLast_err : (offlineLine (toySign 0) 1 tri (triKey 0) triLast).2 =
    .err (.Round6VerifyProof ⟨"phase6", [2]⟩) := tri_err_of (by decide +kernel)

/-- C114's hypotheses hold there: signer 1 stops in round 6, names signer 3 and, by C114, neither signer 2
nor itself. -/
example : namedSigners (.Round6VerifyProof ⟨"phase6", [2]⟩) = [3] ∧
    1 + 1 ∉ namedSigners (.Round6VerifyProof ⟨"phase6", [2]⟩) ∧
    0 + 1 ∉ namedSigners (.Round6VerifyProof ⟨"phase6", [2]⟩) :=
  ⟨rfl, C114_honest_not_named_partial (bp := triMsgs false 1) (triSigner (k := 0) (by decide))
    (triSigner (k := 1) (by decide)) (by decide) triLast_err
    ⟨fun _ => by decide +kernel, fun _ => by decide +kernel, fun _ => by decide +kernel,
      fun _ => by decide +kernel, fun _ => by decide +kernel, fun _ => by decide +kernel⟩
    (fun _ => ⟨by decide +kernel, by decide +kernel, fun j h1 h2 => by
      simp [triLast, triMsgs, triB3]⟩),
   C114_not_itself (triSigner (k := 0) (by decide)) triLast_err⟩

/-- **C114 fails** without a consistent broadcast. Signers 1 and 2 run the program and receive each other's
messages; signer 3 tells them different shares of `delta` in round 3 and otherwise follows the protocol.
Then each of the two honest signers stops with an error that names the other one, and nobody names
signer 3. -/
theorem C114_accuse_each_other : ∃ b₁ b₂ e₁ e₂,
    HonestSigner 3 ((5 : ZMod 31) • (G : Pt)) toyX (fun _ => toyKey) [toySt, toySt, toySt] tri 0 (triKey 0)
      (toySign 0) ∧
    HonestSigner 3 ((5 : ZMod 31) • (G : Pt)) toyX (fun _ => toyKey) [toySt, toySt, toySt] tri 1 (triKey 1)
      (toySign 1) ∧
    (offlineLine (toySign 0) 1 tri (triKey 0) b₁).2 = .err e₁ ∧
    (offlineLine (toySign 1) 2 tri (triKey 1) b₂).2 = .err e₂ ∧
    SignGenuineUpTo (failedAfter e₁) (offlineLine (toySign 1) 2 tri (triKey 1) b₂).1 1 2 b₁ ∧
    SignGenuineUpTo (failedAfter e₂) (offlineLine (toySign 0) 1 tri (triKey 0) b₁).1 2 1 b₂ ∧
    namedSigners e₁ = [2] ∧ namedSigners e₂ = [1] := by
  refine ⟨triMsgs true 0, triMsgs true 1, .Round5 ⟨"Bad PDLwSlack proof", [1]⟩,
    .Round5 ⟨"Bad PDLwSlack proof", [0]⟩, triSigner (by decide), triSigner (by decide),
    tri_err_of (k := 0) (by decide +kernel), tri_err_of (k := 1) (by decide +kernel), ?_, ?_, rfl, rfl⟩
  · exact ⟨fun _ => by decide +kernel, fun _ => by decide +kernel, fun _ => by decide +kernel,
      fun _ => by decide +kernel, fun _ => by decide +kernel, fun h => absurd h (by decide)⟩
  · exact ⟨fun _ => by decide +kernel, fun _ => by decide +kernel, fun _ => by decide +kernel,
      fun _ => by decide +kernel, fun _ => by decide +kernel, fun h => absurd h (by decide)⟩

end
end Verif.Props
