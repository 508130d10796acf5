import Verif.Props.SignSM
import Verif.Lemmas.SignPanic

/-!
# Property C45: panics of the offline stage
-/

namespace Verif.Props

open EC Crypto Spec GG20 GG20.Sign

section
variable [Crypto]

/-- **C45.** Let a signer hold an honest key and sample as the code does, and let the other signers send
anything, in any order.  If its offline stage panics then a peer sent one of the messages listed in
`OfflinePanicCause`; on every other input it returns `Ok` or `Err`.

Missing: the property asks that it never panics.  The code does not have it: four of the causes can be
sent by a peer, see the `C45_panics_*` theorems; the other two need a negative challenge, which the
wire format cannot carry, or a hash equal to 0. -/
theorem C45_panic_causes_partial {n : ℕ} {Y : Pt} {x : ℕ → Sc} {dk : ℕ → DecKey}
    {sts : List DLogStatement} {s_l : List ℕ} {k : ℕ} {key : LocalKey} {rnd : SignRandomness}
    (h : HonestSigner n Y x dk sts s_l k key rnd) {s : State}
    (hnew : Sign.new (k + 1) s_l key = .ok s) (ops : List (Op M))
    (hpanic : ((machine rnd).run s ops).panicked = true) :
    OfflinePanicCause x dk sts s_l (k + 1) ((machine rnd).run s ops).accepted
      ((machine rnd).sent ((machine rnd).run s ops)) :=
  panic_cause h hnew hpanic

/-- The same, as a guarantee: if every message accepted from a peer has non-negative challenges that are not
zero, proves the sender's own key share, commits to what it proves, uses invertible commitments, and the
delta shares do not cancel, then the offline stage does not panic. -/
theorem C45_no_panic_partial {n : ℕ} {Y : Pt} {x : ℕ → Sc} {dk : ℕ → DecKey}
    {sts : List DLogStatement} {s_l : List ℕ} {k : ℕ} {key : LocalKey} {rnd : SignRandomness}
    (h : HonestSigner n Y x dk sts s_l k key rnd) {s : State}
    (hnew : Sign.new (k + 1) s_l key = .ok s) (ops : List (Op M))
    (hM1 : ∀ p m c, ⟨p, none, .M1 (m, c)⟩ ∈ ((machine rnd).run s ops).accepted →
      ∀ pf ∈ m.range_proofs, 0 < pf.e)
    (hM2 : ∀ p mg mw, ⟨p, some (k + 1), .M2 (mg, mw)⟩ ∈ ((machine rnd).run s ops).accepted →
      mw.b_proof.pk = signShare x s_l (p - 1) • G)
    (hM3 : ∀ p t, ⟨p, none, .M3 t⟩ ∈ ((machine rnd).run s ops).accepted → t.t_i = t.t_i_proof.com)
    (hdelta : ∀ (own : TMsg) (t : ℕ → TMsg), ⟨k + 1, none, .M3 own⟩ ∈ (machine rnd).sent ((machine rnd).run s ops) →
      (∀ p ∈ peers (k + 1) s_l.length, ⟨p, none, .M3 (t p)⟩ ∈ ((machine rnd).run s ops).accepted) →
      own.delta_i + ((peers (k + 1) s_l.length).map (fun p => (t p).delta_i)).sum ≠ 0)
    (hM5 : ∀ p Rd pfs, ⟨p, none, .M5 (Rd, pfs)⟩ ∈ ((machine rnd).run s ops).accepted →
      ∀ pf ∈ pfs, ∀ st ∈ sts, Int.gcd pf.z st.N = 1) :
    ((machine rnd).run s ops).panicked = false := by
  by_contra hp
  rw [Bool.not_eq_false] at hp
  cases C45_panic_causes_partial h hnew ops hp with
  | negativeChallenge p m c pf received mem neg => exact absurd (hM1 p m c received pf mem) (by omega)
  | foreignShare p mg mw received foreign => exact foreign (hM2 p mg mw received)
  | otherCommitment p t received ne => exact ne (hM3 p t received)
  | zeroDelta own t broadcast received zero => exact hdelta own t broadcast received zero
  | badCiphertext p m c pf received bad mem zero =>
    exact absurd (hM1 p m c received pf mem) (by omega)
  | badCommitment p Rd pfs pf st received mem param bad => exact bad (hM5 p Rd pfs received pf mem st param)

/-- Two signers: the peer's six messages, in order. -/
def plainOps (b : SignerMsgs) : List (Op M) :=
  [.proceed, .deliver ⟨2, none, .M1 (b.b1 2)⟩, .deliver ⟨2, some 1, .M2 (b.b2 2)⟩,
   .deliver ⟨2, none, .M3 (b.b3 2)⟩, .deliver ⟨2, none, .M4 (b.b4 2)⟩,
   .deliver ⟨2, none, .M5 (b.b5 2)⟩, .deliver ⟨2, none, .M6 (b.b6 2)⟩]

theorem plainSchedule (b : SignerMsgs) : OfflineSchedule 1 2 b (plainOps b) where
  noPick := by simp [plainOps]
  genuine := by
    intro m hm he
    simp only [plainOps, List.mem_cons, Op.deliver.injEq, reduceCtorEq, List.not_mem_nil, or_false,
      false_or] at hm
    rcases hm with rfl | rfl | rfl | rfl | rfl | rfl <;> exact rfl
  complete := by
    intro p hp
    have : peers 1 2 = [2] := by decide
    rw [this] at hp
    simp only [List.mem_cons, List.not_mem_nil, or_false] at hp
    subst hp
    simp [plainOps]

/-- If the rounds one after the other panic, so does the state machine. -/
theorem panics_of_line {rnd : SignRandomness} {s_l : List ℕ} (hl : s_l.length = 2) {key : LocalKey}
    {s : State} (hnew : Sign.new 1 s_l key = .ok s) {b : SignerMsgs}
    (hp : (offlineLine rnd 1 s_l key b).2 = .panic) :
    ((machine rnd).run s (plainOps b ++ [.proceed, .proceed, .proceed])).panicked = true := by
  obtain ⟨-, -, -, h4⟩ := C44_any_schedule (rnd := rnd) hnew (hl.symm ▸ plainSchedule b)
  rw [hp] at h4
  exact h4.1

end

/-! ### Witnesses: signer 1 of parties 3 and 1 on the toy curve, whose peer deviates in one message -/

section

attribute [local instance] Toy.crypto

/-- The honest signer. -/
theorem toySigner : HonestSigner 3 ((5 : ZMod 31) • (G : Pt)) toyX (fun _ => toyKey)
    [toySt, toySt, toySt] [3, 1] 0 (toyLocal 3) (toySign 0) :=
  { n_lt := toyHonest.n_lt, n_u16 := toyHonest.n_u16, nodup := toyHonest.nodup
    members := toyHonest.members, pos := by decide
    holds := toyHonest.holds 0 (by decide), aux := toyHonest.aux, dk_valid := toyKey_valid
    moduli := fun _ _ _ => by decide, ra_unit := (toyHonest.sample 0 (by decide)).ra_unit
    alpha_nonneg := (toyHonest.sample 0 (by decide)).alpha_nonneg }

/-- The peer answers with a multiplicand that is not its key share. -/
def badB2 : MessageB × MessageB :=
  ((toyB2 1).1, match MessageB.b (7 : ZMod 31) toyKey.n (toyB1 0).1 1 900 [toySt, toySt, toySt]
      (3 : ZMod 31) (4 : ZMod 31) with
    | .ok m => m.1
    | _ => (toyB2 1).2)
def badMsgs2 : SignerMsgs := { toyMsgs with b2 := fun _ => badB2 }

/-- The peer's `T` is not the commitment of its proof. -/
def badT3 : TMsg :=
  { toyB3 1 with t_i := show ZMod 31 from 1 + (show ZMod 31 from (toyB3 1).t_i) }
def badMsgs3 : SignerMsgs := { toyMsgs with b3 := fun _ => badT3 }

/-- The peer waits for the honest signer's delta and sends its negation. -/
def badD3 : TMsg := { toyB3 1 with delta_i := show ZMod 31 from -(show ZMod 31 from (toyB3 0).delta_i) }
def badMsgsD : SignerMsgs := { toyMsgs with b3 := fun _ => badD3 }

/-- The peer's PDL proof has `z = 0`. -/
def badMsgs5 : SignerMsgs :=
  { toyMsgs with b5 := fun _ => ((toyB5 1).1, (toyB5 1).2.map (fun pf => { pf with z := 0 })) }

theorem line_panic_of {b : SignerMsgs} (h : (match (offlineLine (toySign 0) 1 [3, 1] (toyLocal 3) b).2 with
    | .panic => true | _ => false) = true) :
    (offlineLine (toySign 0) 1 [3, 1] (toyLocal 3) b).2 = .panic := by
  revert h
  generalize (offlineLine (toySign 0) 1 [3, 1] (toyLocal 3) b).2 = r
  cases r <;> simp

/-- **C45** (violation). A peer whose second-round proof is for another share than its own brings the
honest signer down (`assert_eq!` in round 2). -/
theorem C45_panics_foreign_share : ∃ s, Sign.new 1 [3, 1] (toyLocal 3) = .ok s ∧
    ((machine (toySign 0)).run s (plainOps badMsgs2 ++ [.proceed, .proceed, .proceed])).panicked = true := by
  obtain ⟨s, hs⟩ := toy_new
  exact ⟨s, hs, panics_of_line rfl hs (line_panic_of (by decide +kernel))⟩

/-- **C45** (violation). So does one whose `T` differs from the commitment in its proof (`assert_eq!` in
round 3). -/
theorem C45_panics_commitment : ∃ s, Sign.new 1 [3, 1] (toyLocal 3) = .ok s ∧
    ((machine (toySign 0)).run s (plainOps badMsgs3 ++ [.proceed, .proceed, .proceed])).panicked = true := by
  obtain ⟨s, hs⟩ := toy_new
  exact ⟨s, hs, panics_of_line rfl hs (line_panic_of (by decide +kernel))⟩

/-- **C45** (violation). So does one that makes the delta shares cancel (`unwrap` of the inverse in
round 3). -/
theorem C45_panics_delta : ∃ s, Sign.new 1 [3, 1] (toyLocal 3) = .ok s ∧
    ((machine (toySign 0)).run s (plainOps badMsgsD ++ [.proceed, .proceed, .proceed])).panicked = true := by
  obtain ⟨s, hs⟩ := toy_new
  exact ⟨s, hs, panics_of_line rfl hs (line_panic_of (by decide +kernel))⟩

/-- **C45** (violation). So does one whose PDL proof has a commitment without inverse (`unwrap` of
`mod_inv` in round 5). -/
theorem C45_panics_pdl : ∃ s, Sign.new 1 [3, 1] (toyLocal 3) = .ok s ∧
    ((machine (toySign 0)).run s (plainOps badMsgs5 ++ [.proceed, .proceed, .proceed])).panicked = true := by
  obtain ⟨s, hs⟩ := toy_new
  exact ⟨s, hs, panics_of_line rfl hs (line_panic_of (by decide +kernel))⟩

/-- C45's hypotheses hold in these cases, and its conclusion names the cause. -/
example : ∃ s, Sign.new 1 [3, 1] (toyLocal 3) = .ok s ∧
    OfflinePanicCause toyX (fun _ => toyKey) [toySt, toySt, toySt] [3, 1] 1
      ((machine (toySign 0)).run s (plainOps badMsgs3 ++ [.proceed, .proceed, .proceed])).accepted
      ((machine (toySign 0)).sent
        ((machine (toySign 0)).run s (plainOps badMsgs3 ++ [.proceed, .proceed, .proceed]))) := by
  obtain ⟨s, hs, hp⟩ := C45_panics_commitment
  exact ⟨s, hs, C45_panic_causes_partial toySigner hs _ hp⟩

end

end Verif.Props
