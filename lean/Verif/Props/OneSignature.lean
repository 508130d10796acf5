import Verif.Props.NonceAgreement
import Verif.Props.Signature

/-!
# C121: honest signers of one session output one signature

They may receive different partial signatures from a dishonest signer.
-/

namespace Verif.Props

open EC Crypto Spec GG20 GG20.Sign

section
variable [EC]

/-- For one nonce point there is one low-s signature of a message, unless another point has a congruent
x-coordinate. -/
theorem C121_unique {Y R : Pt} {m : ℤ} {x y : ℕ} {s s' : Sc} (hR : coords R = some (x, y)) (hx : x < q)
    (hx' : p ≤ x + q) (h : EcdsaEq Y m (x : Sc) s) (h' : EcdsaEq Y m (x : Sc) s') (low : LowS s)
    (low' : LowS s') : s = s' := by
  have key : ∀ {s : Sc}, EcdsaEq Y m (x : Sc) s → s ≠ 0 ∧ (s • R = (m : Sc) • G + (x : Sc) • Y ∨
      s • R = -((m : Sc) • G + (x : Sc) • Y)) := by
    rintro s ⟨hs, x1, y1, hc, he⟩
    have hlt := (coords_lt _ _ _ hc).1
    have hxe : x1 = x := by
      have h2 := (ZMod.natCast_eq_natCast_iff' _ _ _).1 he
      rw [Nat.mod_eq_of_lt hx] at h2
      rcases Nat.lt_or_ge x1 q with h3 | h3
      · rwa [Nat.mod_eq_of_lt h3] at h2
      · have := Nat.mod_add_div x1 q
        have h4 : 1 ≤ x1 / q := (Nat.one_le_div_iff q_pos).2 h3
        have := Nat.mul_le_mul_left q h4
        omega
    subst hxe
    have hP : (m : Sc) • G + (x1 : Sc) • Y = s • (((m : Sc) / s) • (G : Pt) + ((x1 : Sc) / s) • Y) := by
      rw [smul_add, ← mul_smul, ← mul_smul, mul_div_cancel₀ _ hs, mul_div_cancel₀ _ hs]
    refine ⟨hs, ?_⟩
    rw [hP]
    rcases x_inj _ _ _ _ _ hR hc with h | h
    · exact .inl (by rw [h])
    · exact .inr (by rw [h, smul_neg, neg_neg])
  obtain ⟨hs, a⟩ := key h
  obtain ⟨-, a'⟩ := key h'
  have hR0 : R ≠ 0 := by rintro rfl; rw [coords_zero] at hR; cases hR
  have hpm : s = s' ∨ s = -s' := by
    have : s • R = s' • R ∨ s • R = (-s') • R := by
      rcases a with a | a <;> rcases a' with a' | a' <;> simp [neg_smul, a, a']
    have inj : ∀ {a b : Sc}, a • R = b • R → a = b := fun {a b} h => by
      have h2 : (a - b) • R = 0 := by rw [sub_smul, h, sub_self]
      exact sub_eq_zero.1 ((smul_eq_zero_iff.1 h2).resolve_right hR0)
    exact this.imp inj inj
  rcases hpm with h | h
  · exact h
  · have hs' : s' ≠ 0 := by rintro rfl; exact hs (by rw [h, neg_zero])
    have hv := neg_val_of_ne hs'
    have hlt := ZMod.val_lt s'
    have hodd := q_odd
    unfold LowS at low low'
    rw [h, hv] at low
    have : 0 < s'.val := Nat.pos_of_ne_zero ((ZMod.val_ne_zero _).2 hs')
    omega

/-- **C121** (GG20, the last step). Two signers that hold results of the offline stage with the same nonce point and
the same public key, sign the same message and output a signature each, whatever partial signatures they received:
the signatures have the same `r`, and the same `s` unless the x-coordinate of the nonce point is exceptional.

Missing with respect to the property: the recovery id, see `C121_recid_differs`, and the exceptional x-coordinates. -/
theorem C121_gg20_partial {c c' : CompletedOfflineStage} (hR : c.R = c'.R) (hY : c.y_sum_s = c'.y_sum_s) {m : ℤ}
    {st st' : GG20.LocalSignature} {s s' : Sc} {sigs sigs' : List Sc} {sig sig' : GG20.SignatureRecid}
    (hn : SignManual.new m c = .ok (st, s)) (hn' : SignManual.new m c' = .ok (st', s'))
    (h : SignManual.complete st sigs = .ok sig) (h' : SignManual.complete st' sigs' = .ok sig') :
    sig.r = sig'.r ∧ (∀ x y, coords c.R = some (x, y) → x < q → p ≤ x + q → sig.s = sig'.s) := by
  have key : ∀ {c : CompletedOfflineStage} {st s}, SignManual.new m c = .ok (st, s) →
      st.R = c.R ∧ st.m = m ∧ st.y = c.y_sum_s := by
    intro c st s h
    unfold SignManual.new phase7_local_sig at h
    simp only [Res.bind_eq_ok, Res.ok.injEq, Prod.mk.injEq] at h
    obtain ⟨_, ⟨_, -, rfl⟩, rfl, -⟩ := h
    exact ⟨rfl, rfl, rfl⟩
  obtain ⟨e1, e2, e3⟩ := key hn
  obtain ⟨e1', e2', e3'⟩ := key hn'
  obtain ⟨a1, a2, -, x, y, hc, hr⟩ := C03_gg20_output_valid _ _ _ h
  obtain ⟨a1', a2', -, x', y', hc', hr'⟩ := C03_gg20_output_valid _ _ _ h'
  rw [e1', ← hR, ← e1, hc] at hc'
  cases hc'
  refine ⟨hr.trans hr'.symm, fun x1 y1 hc1 hx hx' => ?_⟩
  rw [e1, hc1] at hc
  cases hc
  rw [e2, e3, hr] at a1
  rw [e2', e3', ← hY, hr'] at a1'
  exact C121_unique hc1 hx hx' a1 a1' a2 a2'

/-- **C121** (GG18, the last step). -/
theorem C121_gg18_partial {st st' : GG18.LocalSignature} (hR : st.R = st'.R) (hY : st.y = st'.y) (hm : st.m = st'.m)
    {sigs sigs' : List Sc} {sig sig' : GG18.SignatureRecid} (h : st.output_signature sigs = .ok sig)
    (h' : st'.output_signature sigs' = .ok sig') :
    sig.r = sig'.r ∧ (∀ x y, coords st.R = some (x, y) → x < q → p ≤ x + q → sig.s = sig'.s) := by
  obtain ⟨a1, a2, -, x, y, hc, hr⟩ := C03_gg18_output_valid _ _ _ h
  obtain ⟨a1', a2', -, x', y', hc', hr'⟩ := C03_gg18_output_valid _ _ _ h'
  rw [← hR, hc] at hc'
  cases hc'
  refine ⟨hr.trans hr'.symm, fun x1 y1 hc1 hx hx' => ?_⟩
  rw [hc1] at hc
  cases hc
  rw [hr] at a1
  rw [← hm, ← hY, hr'] at a1'
  exact C121_unique hc1 hx hx' a1 a1' a2 a2'

/-- **C121 fails** for the recovery id. Three signers with partial signatures `s₁`, `s₂`, `s₃` that give a signature.
If the third sends its partial signature to the first, and `-2 s₁ - 2 s₂ - s₃` to the second, which it knows when the
others have sent theirs, then both output the same valid `(r, s)` with different recovery ids. -/
theorem C121_recid_differs {R Y : Pt} {m : ℤ} {x y : ℕ} (hR : coords R = some (x, y)) {s₁ s₂ s₃ : Sc}
    {sig : GG20.SignatureRecid} (h : SignManual.complete ⟨(x : Sc), R, s₁, m, Y⟩ [s₂, s₃] = .ok sig) :
    ∃ sig', SignManual.complete ⟨(x : Sc), R, s₂, m, Y⟩ [s₁, -2 * s₁ - 2 * s₂ - s₃] = .ok sig' ∧
      sig'.r = sig.r ∧ sig'.s = sig.s ∧ sig'.recid ≠ sig.recid := by
  obtain ⟨he, hsig⟩ := (gg20_output_ok_iff ⟨(x : Sc), R, s₁, m, Y⟩ _ hR sig).1 h
  simp only [List.sum_cons, List.sum_nil, add_zero] at he hsig
  set s := s₁ + (s₂ + s₃) with hs
  have hs0 : s ≠ 0 := he.1
  have hsum : s₂ + [s₁, -2 * s₁ - 2 * s₂ - s₃].sum = -s := by
    simp only [List.sum_cons, List.sum_nil, add_zero, hs]
    ring
  have he' : EcdsaEq Y m (x : Sc) (s₂ + [s₁, -2 * s₁ - 2 * s₂ - s₃].sum) := by rw [hsum, ecdsaEq_neg]; exact he
  have hval := neg_val_of_ne hs0
  have hlt := ZMod.val_lt s
  have hpos : 0 < s.val := Nat.pos_of_ne_zero ((ZMod.val_ne_zero _).2 hs0)
  have hodd := q_odd
  refine ⟨_, (gg20_output_ok_iff ⟨(x : Sc), R, s₂, m, Y⟩ _ hR _).2 ⟨he', rfl⟩, by rw [hsig], ?_, ?_⟩
  · rw [hsig, hsum]
    unfold normS
    rw [hval]
    by_cases hc : (s.val : ℤ) > (q : ℤ) - s.val
    · rw [if_pos hc, if_neg (by omega)]; simp
    · rw [if_neg hc, if_pos (by omega)]
      have : ((q - s.val : ℕ) : ℤ) = (q : ℤ) - s.val := by omega
      rw [this]; simp
  · rw [hsig, hsum]
    simp only
    unfold recidOf
    rw [hval]
    by_cases hc : (s.val : ℤ) > (q : ℤ) - s.val
    · rw [if_pos hc, if_neg (by omega)]; split <;> decide
    · rw [if_neg hc, if_pos (by omega)]; split <;> decide

end

section
variable [Crypto]

variable {n : ℕ} {Y : Pt} {x : ℕ → Sc} {dk : ℕ → DecKey} {sts : List DLogStatement} {s_l : List ℕ} {v p : ℕ}
  {keyv keyp : LocalKey} {c c' : CompletedOfflineStage}

/-- **C121** (GG20). Two state machines of honest signers, fed with anything but what the other did not send in its
name, hand out a result each; both sign the same message and output a signature, whatever partial signatures they
received.  Then the signatures have the same `r`, and the same `s` unless the x-coordinate of the nonce point is
exceptional; or the coincidence of C120 has occurred. -/
theorem C121_machines_partial {rv rp : GG20.SignRandomness} {sv sp : Sign.State}
    (hv : HonestSigner n Y x dk sts s_l v keyv rv) (hp : HonestSigner n Y x dk sts s_l p keyp rp) (hne : p ≠ v)
    (tells : TellsNonces (dk (s_l.getD p 0)) rp)
    (newv : Sign.new (v + 1) s_l keyv = .ok sv) (newp : Sign.new (p + 1) s_l keyp = .ok sp) (opsv opsp : List (Op M))
    (genuine : ∀ m ∈ ((machine rv).run sv opsv).accepted, m.sender = p + 1 →
      m ∈ (machine rp).sent ((machine rp).run sp opsp))
    (hc : c ∈ ((machine rv).run sv opsv).outputs) (hc' : c' ∈ ((machine rp).run sp opsp).outputs)
    {m : ℤ} {st st' : GG20.LocalSignature} {s s' : Sc} {sigs sigs' : List Sc} {sig sig' : GG20.SignatureRecid}
    (hn : SignManual.new m c = .ok (st, s)) (hn' : SignManual.new m c' = .ok (st', s'))
    (h : SignManual.complete st sigs = .ok sig) (h' : SignManual.complete st' sigs' = .ok sig') :
    (sig.r = sig'.r ∧ ∀ xR yR, coords c.R = some (xR, yR) → xR < q → EC.p ≤ xR + q → sig.s = sig'.s) ∨
      ProofCoincidence ((machine rp).sent ((machine rp).run sp opsp)) (p + 1) c.R c'.R := by
  refine (C120_machines hv hp hne tells newv newp opsv opsp genuine hc hc').imp_left fun hR => ?_
  obtain ⟨_, _, -, -, -, -, -, -, k1⟩ := C68_finished_has_checked newv opsv hc
  obtain ⟨_, _, -, -, -, -, -, -, k2⟩ := C68_finished_has_checked newp opsp hc'
  exact C121_gg20_partial hR (by
    rw [k1.key_check.2.1, k2.key_check.2.1, hv.holds.public_key, hp.holds.public_key]) hn hn' h h'

end

/-! ### Examples: the 31-point group -/

section
attribute [local instance] Toy.crypto

/-- Two signers with the public key 9 and the nonce point 4 that receive different partial signatures for the message
10 and output the same `(r, s)`; the recovery ids differ. -/
example : coords (4 : ZMod 31) = some (21, ((coords (4 : ZMod 31)).getD (0, 0)).2) ∧ 21 < 31 ∧ EC.p ≤ 21 + 31 ∧
    SignManual.new 10 ⟨(1 : ZMod 31), (4 : ZMod 31), (3 : ZMod 31), (9 : ZMod 31)⟩ =
      .ok (⟨21, (4 : ZMod 31), 11, 10, (9 : ZMod 31)⟩, 11) ∧
    SignManual.complete ⟨21, (4 : ZMod 31), 1, 10, (9 : ZMod 31)⟩ [4, 6] = .ok ⟨21, 11, 0⟩ ∧
    SignManual.complete ⟨21, (4 : ZMod 31), 4, 10, (9 : ZMod 31)⟩ [1, -2 * 1 - 2 * 4 - 6] = .ok ⟨21, 11, 1⟩ ∧
    (⟨0, 0, (4 : ZMod 31), 1, 10, (9 : ZMod 31)⟩ : GG18.LocalSignature).output_signature [4, 6] = .ok ⟨21, 11, 0⟩ :=
  ⟨by decide +kernel, by decide, by decide, rfl, by decide +kernel, by decide +kernel, by decide +kernel⟩

/-- Some partial signature of the others completes the presignature to a signature of the message 10. -/
def toySigns (c : CompletedOfflineStage) : Bool :=
  match SignManual.new 10 c with
  | .ok (st, _) => (List.range 31).any fun a : ℕ =>
      match SignManual.complete st [(a : ZMod 31)] with
      | .ok _ => true
      | _ => false
  | _ => false

theorem toySigns_iff {c : CompletedOfflineStage} (h : toySigns c = true) : ∃ st s, ∃ (a : ZMod 31) (sig : _),
    SignManual.new 10 c = .ok (st, s) ∧ SignManual.complete st [a] = .ok sig := by
  unfold toySigns at h
  split at h
  · next st s he =>
    obtain ⟨a, -, h⟩ := List.any_eq_true.1 h
    split at h
    · next sig hs => exact ⟨st, s, _, sig, he, hs⟩
    · cases h
  · cases h

/-- The two state machines of C120's example: for some partial signatures received, both output a signature of the
message 10, with the same `r`. -/
example : ∃ c c' st s st' s' sig sig', ∃ a a' : ZMod 31, c.R = c'.R ∧
    SignManual.new 10 c = .ok (st, s) ∧ SignManual.new 10 c' = .ok (st', s') ∧
    SignManual.complete st [a] = .ok sig ∧ SignManual.complete st' [a'] = .ok sig' ∧ sig.r = sig'.r := by
  obtain ⟨sv, sp, c, c', hv, hp, g, hc, hc', hR, hno⟩ := tri_machines
  have mem : c ∈ ((machine (toySign 0)).run sv (triOps 0)).outputs := hc ▸ List.mem_singleton.2 rfl
  have mem' : c' ∈ ((machine (toySign 1)).run sp (triOps 1)).outputs := hc' ▸ List.mem_singleton.2 rfl
  have hv' := hv
  have hp' := hp
  unfold Sign.new at hv' hp'
  split_ifs at hv' hp'
  simp only [Except.ok.injEq] at hv' hp'
  have o : ((machine (toySign 0)).run sv (triOps 0)).outputs.all toySigns = true := by
    rw [← hv']
    decide +kernel
  have o' : ((machine (toySign 1)).run sp (triOps 1)).outputs.all toySigns = true := by
    rw [← hp']
    decide +kernel
  obtain ⟨st, s, a, sig, h1, h2⟩ := toySigns_iff (List.all_eq_true.1 o _ mem)
  obtain ⟨st', s', a', sig', h1', h2'⟩ := toySigns_iff (List.all_eq_true.1 o' _ mem')
  refine ⟨c, c', st, s, st', s', sig, sig', a, a', hR, h1, h1', h2, h2', ?_⟩
  exact ((C121_machines_partial (triSigner (k := 0) (by decide)) (triSigner (k := 1) (by decide)) (by decide) tri_tells
    hv hp (triOps 0) (triOps 1) g mem mem' h1 h1' h2 h2').resolve_right hno).1

end
end Verif.Props
