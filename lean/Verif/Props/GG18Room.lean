import Verif.Lemmas.GG18Room
import Verif.Props.GG18

/-!
# C99: the GG18 demo clients of one session and their manager
-/

namespace Verif.Props

open EC Crypto Spec Spec.GG18 Demo

/-- The `n` clients of the session `uuid`, started in `start`, come to the results `out`, however their requests
and those of other sessions are interleaved. -/
structure SessionWorks {V β : Type} (n : ℕ) (uuid : String) (start : Demo.Store V (Res Empty β)) (bound : ℕ)
    (out : ℕ → β) : Prop where
  /-- whatever a client returns is the right result -/
  sound : ∀ k s, Demo.Store.Steps n uuid start k s → ∀ i, 1 ≤ i → i ≤ n → ∀ r, s.client i = .done r → r = .ok (out i)
  /-- the clients make at most `bound` requests -/
  ends : ∀ k s, Demo.Store.Steps n uuid start k s → k ≤ bound
  /-- and as long as one of them has not returned, one of them can go on -/
  complete : ∀ k s, Demo.Store.Steps n uuid start k s → (¬ ∃ s', Demo.Store.Step n s s') →
    ∀ i, 1 ≤ i → i ≤ n → s.client i = .done (.ok (out i))

theorem SessionWorks.ofPlan {V β : Type} {n : ℕ} {uuid : String} {start : Demo.Store V (Res Empty β)}
    {l : List (String × Vals V)} (names : List String) (hl : l.map Prod.fst = names) {out : ℕ → β}
    (hf : ∀ k < n, Follows (start.client (k + 1)) (trace n uuid k 0 l) (.ok (out (k + 1))))
    (hn : names.Nodup) (hr : ∀ r ∈ names, RoundName r)
    (hc : ∀ key v, start.table key = some v → Demo.Store.Foreign uuid key) :
    SessionWorks n uuid start (n * (l.length * (2 * n))) out :=
  have P := Plan.ofRounds (res := fun i => .ok (out i)) hf (hl ▸ hn)
    (fun x hx => hr x.1 (hl ▸ List.mem_map_of_mem hx)) hc
  ⟨fun _ _ h _ h1 h2 _ hr => P.sound h h1 h2 hr,
    fun _ _ h => P.bounded h fun i h1 h2 => trace_length _ (by omega) _ _,
    fun _ _ h hs _ h1 h2 => P.complete h hs h1 h2⟩

section
variable [Crypto] {V : Type}

/-- **C99 (key generation).** Honest clients that signed up for one session all finish, with the key files of the
run in which all advance together (C16). -/
theorem C99_keygen (A : Aead) (C : Demo.Keygen.Codecs A V) {t n : ℕ} (ht : t < n) {rnd : ℕ → Demo.Keygen.Rand}
    (hon : ∀ i, 1 ≤ i → i ≤ n → HonestKeygenRand t (rnd i)) {files : List Demo.Keygen.KeyFile}
    (hfiles : Demo.Keygen.run A t n rnd = .ok files) (uuid : String)
    {start : Demo.Store V (Res Empty Demo.Keygen.KeyFile)}
    (hprog : ∀ i, 1 ≤ i → i ≤ n → start.client i = Demo.Keygen.program A C t n rnd uuid i)
    (hnew : ∀ key v, start.table key = some v → Demo.Store.Foreign uuid key) :
    ∃ out, (∀ i, 1 ≤ i → i ≤ n → files[i - 1]? = some (out i)) ∧
      SessionWorks n uuid start (10 * n ^ 2) out := by
  have hon' : ∀ k < n, HonestKeygenRand t (rnd (k + 1)) := fun k hk => hon _ (by omega) (by omega)
  rw [Demo.Keygen.run_eq A ht hon', Res.ok.injEq] at hfiles
  subst hfiles
  refine ⟨fun i => Demo.Keygen.kFile t n rnd (i - 1), fun i h1 h2 => ?_, ?_⟩
  · rw [List.getElem?_map, List.getElem?_range (by omega)]
    rfl
  · rw [show 10 * n ^ 2 = n * ((Demo.Keygen.rounds A C t n rnd).length * (2 * n)) by
      simp only [Demo.Keygen.rounds, List.length_cons, List.length_nil]; ring]
    refine .ofPlan ["round1", "round2", "round3", "round4", "round5"] rfl (fun k hk => ?_) (by decide) ?_ hnew
    · rw [hprog _ (by omega) (by omega)]
      exact Demo.Keygen.follows A C ht hon' uuid hk
    · intro r hr
      fin_cases hr <;> exact ⟨by decide, 'r', by decide, by decide⟩

/-- **C99 (signing).** Honest clients that hold the key files of `t + 1` or more parties and signed up for one
session all finish, with one signature on the message under the public key. -/
theorem C99_signing (C : Demo.Sign.Codecs V) {t n : ℕ} {d : Sc} {x : ℕ → Sc} {dk : ℕ → DecKey} {s_l : List ℕ}
    {key : ℕ → Demo.Keygen.KeyFile} {rnd : ℕ → Demo.Sign.Rand}
    (h : HonestRoom n (d • G) x dk s_l key rnd) (hx : Reconstructs t n x d) (hlen : t + 1 ≤ s_l.length)
    (message : ℤ)
    (hm : ∀ xr y, coords ((∑ j ∈ Finset.range s_l.length, (rnd (j + 1)).k)⁻¹ • (G : Pt)) = some (xr, y) →
      (message : Sc) + (xr : Sc) * d ≠ 0) (uuid : String) {start : Demo.Store V (Res Empty GG18.SignatureRecid)}
    (hprog : ∀ i, 1 ≤ i → i ≤ s_l.length →
      start.client i = Demo.Sign.program C (s_l.length - 1) message rnd uuid key i)
    (hnew : ∀ key v, start.table key = some v → Demo.Store.Foreign uuid key) :
    ∃ sig, EcdsaEq (d • G) message sig.r sig.s ∧ LowS sig.s ∧
      SessionWorks s_l.length uuid start (20 * s_l.length ^ 2) (fun _ => sig) := by
  obtain ⟨xr, y, hc, hse, hs0⟩ := Demo.Sign.honest_equation h hx hlen message hm
  refine ⟨⟨(xr : Sc), normS (∑ i ∈ Finset.range s_l.length, Demo.Sign.cS x s_l rnd message xr i),
    recidOf (∑ i ∈ Finset.range s_l.length, Demo.Sign.cS x s_l rnd message xr i) y⟩,
    ecdsaEq_normS.2 (GG20.Sign.ecdsaEq_of_eq hc hs0 hse), normS_low _, ?_⟩
  · rw [show 20 * s_l.length ^ 2 = s_l.length *
        ((Demo.Sign.rounds C (d • G) x dk s_l key rnd message xr).length * (2 * s_l.length)) by
      simp only [Demo.Sign.rounds, List.length_cons, List.length_nil]; ring]
    refine .ofPlan ["round0", "round1", "round2", "round3", "round4", "round5", "round6", "round7", "round8",
      "round9"] rfl (fun k hk => ?_) (by decide) ?_ hnew
    · rw [hprog _ (by omega) (by omega)]
      exact Demo.Sign.follows C h message hc hse hs0 uuid hk
    · intro r hr
      fin_cases hr <;> exact ⟨by decide, 'r', by decide, by decide⟩

end

/-! ### What other sessions store -/

/-- The session a message belongs to -/
def Slot.session : Slot → String
  | .broadcast _ _ u => u
  | .p2p _ _ _ u => u

theorem Slot.key_tail (a : Slot) : ∃ l, a.key.toList = l ++ a.session.toList := by
  cases a with
  | broadcast p r u =>
    exact ⟨Nat.toDigits 10 p ++ '-' :: (r.toList ++ ['-']), by
      rw [Slot.key, Manager.broadcastKey_toList]; simp [Slot.session]⟩
  | p2p p p' r u =>
    exact ⟨Nat.toDigits 10 p ++ '-' :: (Nat.toDigits 10 p' ++ '-' :: (r.toList ++ ['-'])), by
      rw [Slot.key, Manager.p2pKey_toList]; simp [Slot.session]⟩

/-- **C99.** The messages of a session with another id of the same length do not concern the clients, whatever
rounds they belong to; identifiers made by the manager all have 36 characters. -/
theorem C99_other_session {uuid : String} {a : Slot} (hl : a.session.length = uuid.length)
    (hne : a.session ≠ uuid) : Demo.Store.Foreign uuid a.key := by
  have key : ∀ b : Slot, b.session = uuid → a.key ≠ b.key := by
    rintro b rfl h
    obtain ⟨l, e⟩ := a.key_tail
    obtain ⟨l', e'⟩ := b.key_tail
    rw [h, e'] at e
    have := (List.append_inj' e (by rw [String.length_toList, String.length_toList, hl])).2
    exact hne (String.toList_inj.1 this).symm
  exact fun p p' r => ⟨key (.broadcast p r uuid) rfl, key (.p2p p p' r uuid) rfl⟩

/-- **C99.** Nor do sign-ups. -/
theorem C99_signups (uuid : String) (kind : Manager.Kind) : Demo.Store.Foreign uuid kind.key := fun p p' r =>
  ⟨fun h => C61_not_a_counter (.broadcast p r uuid) kind h.symm,
    fun h => C61_not_a_counter (.p2p p p' r uuid) kind h.symm⟩

/-! ### Examples -/

section
variable [Crypto]

/-- Messages stored as they are, with their type: key generation -/
inductive KeygenText (A : Aead) where
  | m1 (m : GG18.KeyGenBroadcastMessage1)
  | m2 (m : GG18.KeyGenDecommitMessage1)
  | m3 (m : A.Ct)
  | m4 (m : Vss)
  | m5 (m : DLogProof)

def KeygenText.codecs (A : Aead) : Demo.Keygen.Codecs A (KeygenText A) where
  c1 := ⟨.m1, fun | .m1 m => some m | _ => none, fun _ => rfl⟩
  c2 := ⟨.m2, fun | .m2 m => some m | _ => none, fun _ => rfl⟩
  c3 := ⟨.m3, fun | .m3 m => some m | _ => none, fun _ => rfl⟩
  c4 := ⟨.m4, fun | .m4 m => some m | _ => none, fun _ => rfl⟩
  c5 := ⟨.m5, fun | .m5 m => some m | _ => none, fun _ => rfl⟩

/-- The same for signing -/
inductive SignText where
  | m0 (m : ℕ)
  | m1 (m : GG18.SignBroadcastPhase1 × MessageA)
  | m2 (m : MessageB × MessageB)
  | m3 (m : Sc)
  | m4 (m : GG18.SignDecommitPhase1)
  | m5 (m : GG18.Phase5Com1)
  | m6 (m : Demo.Sign.Open5a)
  | m7 (m : GG18.Phase5Com2)
  | m8 (m : GG18.Phase5DDecom2)

def SignText.codecs : Demo.Sign.Codecs SignText where
  c0 := ⟨.m0, fun | .m0 m => some m | _ => none, fun _ => rfl⟩
  c1 := ⟨.m1, fun | .m1 m => some m | _ => none, fun _ => rfl⟩
  c2 := ⟨.m2, fun | .m2 m => some m | _ => none, fun _ => rfl⟩
  c3 := ⟨.m3, fun | .m3 m => some m | _ => none, fun _ => rfl⟩
  c4 := ⟨.m4, fun | .m4 m => some m | _ => none, fun _ => rfl⟩
  c5 := ⟨.m5, fun | .m5 m => some m | _ => none, fun _ => rfl⟩
  c6 := ⟨.m6, fun | .m6 m => some m | _ => none, fun _ => rfl⟩
  c7 := ⟨.m7, fun | .m7 m => some m | _ => none, fun _ => rfl⟩
  c8 := ⟨.m8, fun | .m8 m => some m | _ => none, fun _ => rfl⟩
  c9 := ⟨.m3, fun | .m3 m => some m | _ => none, fun _ => rfl⟩

end

section
attribute [local instance] Toy.crypto

/-- Three clients make a 2-of-3 key in the session "b" while the manager already holds a message of the session
"a". -/
example : ∃ out, SessionWorks 3 "b" ⟨Function.update (fun _ => none) (Slot.broadcast 1 "round1" "a").key
      (some (.m1 (Demo.Keygen.kBc toyKg 0))),
      fun i => Demo.Keygen.program toyAead (KeygenText.codecs toyAead) 1 3 toyKg "b" i⟩ 90 out := by
  have hrun := Demo.Keygen.run_eq toyAead (t := 1) (n := 3) (rnd := toyKg) (by decide)
    (fun k hk => toyKg_honest (by omega) (by omega))
  obtain ⟨out, -, h⟩ := C99_keygen toyAead (KeygenText.codecs toyAead) (t := 1) (n := 3) (by decide)
    (rnd := toyKg) (fun _ => toyKg_honest) hrun "b"
    (start := ⟨Function.update (fun _ => none) (Slot.broadcast 1 "round1" "a").key
      (some (.m1 (Demo.Keygen.kBc toyKg 0))),
      fun i => Demo.Keygen.program toyAead (KeygenText.codecs toyAead) 1 3 toyKg "b" i⟩)
    (fun _ _ _ => rfl) (fun key v h => by
      by_cases hk : key = (Slot.broadcast 1 "round1" "a").key
      · rw [hk]
        exact C99_other_session (by decide) (by decide)
      · dsimp only at h
        rw [Function.update_of_ne hk] at h
        cases h)
  exact ⟨out, h⟩

/-- Parties 3 and 1 sign the message 10. -/
example : ∃ sig : GG18.SignatureRecid, EcdsaEq ((6 : ZMod 31) • (G : Pt)) 10 sig.r sig.s ∧ LowS sig.s ∧
    SessionWorks 2 "c" ⟨fun _ => none, fun i => Demo.Sign.program SignText.codecs 1 10 toyRoom "c"
      (fun k => Demo.Keygen.kFile 1 3 toyKg ([3, 1].getD (k - 1) 0 - 1)) i⟩ 80 (fun _ => sig) := by
  obtain ⟨x, dk, h, hx⟩ := toyRoom_room
  exact C99_signing SignText.codecs h hx (by decide) 10 toyRoom_message "c"
    (start := ⟨fun _ => none, fun i => Demo.Sign.program SignText.codecs 1 10 toyRoom "c"
      (fun k => Demo.Keygen.kFile 1 3 toyKg ([3, 1].getD (k - 1) 0 - 1)) i⟩)
    (fun _ _ _ => rfl) (fun _ _ h => by cases h)

end

end Verif.Props
