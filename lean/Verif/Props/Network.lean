import Verif.Spec.Network
import Verif.Lemmas.SignNet
import Verif.Props.Sign
import Verif.Props.KeygenSM
import Verif.Props.SignSM
import Verif.Props.KeygenMalicious
import Verif.Lemmas.SignPanic

/-!
# C65: all parties together, over a network that delays, reorders, duplicates and misdelivers

The parties run the state machines `Keygen` (key generation) and `OfflineStage` (signing).  An execution
is any list of calls on their machines in which only messages are delivered that their named senders
sent before.  The keys and the presignatures that the theorems compare with are those of the
round-by-round executions `Keygen.run` and `offline`, about which C13-C18 and C39 speak.
-/

namespace Verif.Props

open EC Crypto Spec GG20 GG20.Sign

section
variable [Crypto]

/-! ### Key generation -/

section
variable {t n : ℕ} {rnd : ℕ → KeygenRandomness} {start : ℕ → Keygen.State} {keys : List LocalKey}

/-- **C65** (safety): honest parties that run key generation never panic and report no error except for
picking the key a second time, and the only key party `i` ever hands out, once, is its key of the
round-by-round execution. -/
theorem C65_keygen_sound (hon : ∀ k < n, Keygen.HonestRandomness t (rnd k))
    (hnew : ∀ i, 1 ≤ i → i ≤ n → ∃ r, Keygen.new (rnd (i - 1)) i t n = .ok (start i, r))
    (hrun : Keygen.run t n rnd = .ok keys) {evs : List (ℕ × Op Keygen.M)}
    (ha : (Keygen.network n rnd start).Authentic evs) {i : ℕ} (hi : 1 ≤ i) {key : LocalKey}
    (hkey : keys[i - 1]? = some key) : (Keygen.network n rnd start).Sound evs i key := by
  obtain ⟨hin, rfl⟩ := Keygen.run_get hon hnew hrun hi hkey
  exact (Keygen.network_fits hon hnew).sound ha ⟨hi, hin⟩

/-- **C65** (no deadlock): once every message sent has reached its recipients and no party wants to
proceed, every party has its key. -/
theorem C65_keygen_no_deadlock (hon : ∀ k < n, Keygen.HonestRandomness t (rnd k))
    (hnew : ∀ i, 1 ≤ i → i ≤ n → ∃ r, Keygen.new (rnd (i - 1)) i t n = .ok (start i, r))
    (hrun : Keygen.run t n rnd = .ok keys) {evs : List (ℕ × Op Keygen.M)}
    (ha : (Keygen.network n rnd start).Authentic evs)
    (hq : (Keygen.network n rnd start).Quiescent evs) {i : ℕ} (hi : 1 ≤ i) {key : LocalKey}
    (hkey : keys[i - 1]? = some key) : (Keygen.network n rnd start).Done evs i key := by
  obtain ⟨hin, rfl⟩ := Keygen.run_get hon hnew hrun hi hkey
  exact ((Keygen.network_fits hon hnew).quiescent_done ha hq ⟨hi, hin⟩).1

/-- **C65** (completion is always possible): whatever happened so far, deliveries of sent messages and
calls of `proceed` lead to a situation as in `C65_keygen_no_deadlock`, without anything being picked. -/
theorem C65_keygen_completes (hon : ∀ k < n, Keygen.HonestRandomness t (rnd k))
    (hnew : ∀ i, 1 ≤ i → i ≤ n → ∃ r, Keygen.new (rnd (i - 1)) i t n = .ok (start i, r))
    {evs : List (ℕ × Op Keygen.M)} (ha : (Keygen.network n rnd start).Authentic evs) :
    ∃ more, (Keygen.network n rnd start).Authentic (evs ++ more) ∧
      (Keygen.network n rnd start).Quiescent (evs ++ more) ∧ .pick ∉ more.map Prod.snd :=
  (Keygen.network_fits hon hnew).completes
    (fun _ _ _ _ h _ _ hm => Keygen.netScript_mono h hm)
    (fun _ hi _ _ _ hm => Keygen.netScript_sender hi.1 hm) ha

end

/-! ### One malicious party -/

/-- **C15** (violation at the level of the machine). All parties but party 1 are honest, and party 1 is
honest except that its round-3 message carries an empty commitment vector: every other party's machine
panics, in whatever order the messages arrive.  (With party 1's honest message it would have output its
key.) -/
theorem C15_machine_panics {t n : ℕ} {rnd : ℕ → KeygenRandomness}
    (hon : ∀ k < n, Keygen.HonestRandomness t (rnd k)) {i : ℕ} (hi : 2 ≤ i) {s : Keygen.State}
    {r : Res Keygen.Error Unit} (hnew : Keygen.new (rnd (i - 1)) i t n = .ok (s, r)) :
    ∃ b1 b2 b3 b4 keys key, Keygen.run t n rnd = .ok keys ∧ keys[i - 1]? = some key ∧
      (keygenLine (rnd (i - 1)) i t n b1 b2 b3 b4).2 = .ok key ∧
      ∀ bad : Vss × Sc, bad.1.commitments = [] →
        ∀ ops, KeygenSchedule i n b1 b2 (Function.update b3 1 bad) b4 ops →
          ((Keygen.machine (rnd (i - 1))).run s (ops ++ [.proceed])).panicked = true := by
  obtain ⟨-, -, h1, h2, h3, h4, h5⟩ := Keygen.new_ok hnew
  obtain ⟨k, rfl⟩ : ∃ k, i = k + 1 := ⟨i - 1, by omega⟩
  simp only [Nat.add_sub_cancel] at hnew ⊢
  have hk : k < n := by omega
  have hr1 := Keygen.honest_round1 (t := t) (rnd := rnd) hk
  have hr2 := Keygen.honest_round2 h5 hon hk
  have hr3 := Keygen.honest_round3 (t := t) (rnd := rnd) (by omega) hk
  have hr4 := Keygen.honest_round4 (t := t) (rnd := rnd) (by omega) hon hk
  rw [← peers_map] at hr1 hr2 hr3 hr4
  refine ⟨fun p => Keygen.rBc rnd (p - 1), fun p => Keygen.rDec rnd (p - 1),
    fun p => (Keygen.rVss t n rnd (p - 1), Keygen.rShare rnd (p - 1) k),
    fun p => Keygen.rPf n rnd (p - 1), _, Keygen.rKey t n rnd k, Keygen.run_eq h5 hon,
    by simp [hk], ?_, ?_⟩
  · simp only [keygenLine, Script.step, Keygen.honest_round0 t n rnd k, hr1, hr2, hr3, hr4, sending,
      Res.bind_ok]
  · intro bad hbad ops hs
    have hob := C20_any_schedule hnew hs
    have hp : (keygenLine (rnd k) (k + 1) t n (fun p => Keygen.rBc rnd (p - 1))
        (fun p => Keygen.rDec rnd (p - 1))
        (Function.update (fun p => (Keygen.rVss t n rnd (p - 1), Keygen.rShare rnd (p - 1) k)) 1 bad)
        (fun p => Keygen.rPf n rnd (p - 1))).2 = .panic := by
      have hlen : (peers (k + 1) n).length + 1 = n := by
        rw [peers_eq_others, List.length_map, length_others hk]
        omega
      have hpan : (Keygen.rSt3 t n rnd k).proceed ((peers (k + 1) n).map
          (Function.update (fun p => (Keygen.rVss t n rnd (p - 1), Keygen.rShare rnd (p - 1) k)) 1 bad))
          (rnd k) = .panic := by
        refine C15_peer_panics_round3 _ _ _ (show 2 ≤ k + 1 by omega) (by simp [Keygen.rSt3])
          (by simp [Keygen.rSt3, hlen]) (show k + 1 ≤ n by omega) bad.1 bad.2 ?_ hbad
        have : (peers (k + 1) n).head? = some 1 := by
          obtain ⟨m, rfl⟩ : ∃ m, n = m + 1 := ⟨n - 1, by omega⟩
          simp [peers, List.range'_succ, show k ≠ 0 by omega]
        rw [List.head?_map, this]
        simp
      simp only [keygenLine, Script.step, Keygen.honest_round0 t n rnd k, hr1, hr2, hpan, sending,
        Res.bind_ok, Res.bind_panic]
    have hob := hob.2.2.2
    rw [hp] at hob
    exact hob.1

/-! ### The offline stage of signing -/

section
variable {t n : ℕ} {x : ℕ → Sc} {d : Sc} {dk : ℕ → DecKey} {sts : List DLogStatement}
  {s_l : List ℕ} {key : ℕ → LocalKey} {rnd : ℕ → SignRandomness} {start : ℕ → Sign.State}
  {cs : List CompletedOfflineStage}

/-- **C65** (safety): honest signers never panic and report no error except for picking the presignature a
second time, and the only presignature signer `i` ever hands out, once, is that of the round-by-round
execution. -/
theorem C65_offline_sound (h : HonestSigners n (d • G) x dk sts s_l key rnd)
    (hx : Reconstructs t n x d) (hlen : t + 1 ≤ s_l.length)
    (hnew : ∀ i, 1 ≤ i → i ≤ s_l.length → Sign.new i s_l (key (i - 1)) = .ok (start i))
    (hcs : offline s_l key rnd = .ok cs) {evs : List (ℕ × Op Sign.M)}
    (ha : (Sign.network s_l.length rnd start).Authentic evs) {i : ℕ} (hi : 1 ≤ i)
    {c : CompletedOfflineStage} (hc : cs[i - 1]? = some c) :
    (Sign.network s_l.length rnd start).Sound evs i c := by
  have hd := signShare_sum h.members h.nodup hx hlen
  obtain ⟨mA, hmA⟩ := exists_mA h
  obtain ⟨pf, hpf⟩ := exists_pdl h hmA
  obtain ⟨hin, rfl⟩ := Sign.offline_get h hd rfl hcs hi hc
  exact (Sign.network_fits h hmA hpf hd rfl hnew).sound ha ⟨hi, hin⟩

/-- **C65** (no deadlock): once every message sent has reached its recipients and no signer wants to
proceed, every signer has its presignature. -/
theorem C65_offline_no_deadlock (h : HonestSigners n (d • G) x dk sts s_l key rnd)
    (hx : Reconstructs t n x d) (hlen : t + 1 ≤ s_l.length)
    (hnew : ∀ i, 1 ≤ i → i ≤ s_l.length → Sign.new i s_l (key (i - 1)) = .ok (start i))
    (hcs : offline s_l key rnd = .ok cs) {evs : List (ℕ × Op Sign.M)}
    (ha : (Sign.network s_l.length rnd start).Authentic evs)
    (hq : (Sign.network s_l.length rnd start).Quiescent evs) {i : ℕ} (hi : 1 ≤ i)
    {c : CompletedOfflineStage} (hc : cs[i - 1]? = some c) :
    (Sign.network s_l.length rnd start).Done evs i c := by
  have hd := signShare_sum h.members h.nodup hx hlen
  obtain ⟨mA, hmA⟩ := exists_mA h
  obtain ⟨pf, hpf⟩ := exists_pdl h hmA
  obtain ⟨hin, rfl⟩ := Sign.offline_get h hd rfl hcs hi hc
  exact ((Sign.network_fits h hmA hpf hd rfl hnew).quiescent_done ha hq ⟨hi, hin⟩).1

/-- **C65** (completion is always possible). -/
theorem C65_offline_completes (h : HonestSigners n (d • G) x dk sts s_l key rnd)
    (hx : Reconstructs t n x d) (hlen : t + 1 ≤ s_l.length)
    (hnew : ∀ i, 1 ≤ i → i ≤ s_l.length → Sign.new i s_l (key (i - 1)) = .ok (start i))
    {evs : List (ℕ × Op Sign.M)} (ha : (Sign.network s_l.length rnd start).Authentic evs) :
    ∃ more, (Sign.network s_l.length rnd start).Authentic (evs ++ more) ∧
      (Sign.network s_l.length rnd start).Quiescent (evs ++ more) ∧ .pick ∉ more.map Prod.snd := by
  have hd := signShare_sum h.members h.nodup hx hlen
  obtain ⟨mA, hmA⟩ := exists_mA h
  obtain ⟨pf, hpf⟩ := exists_pdl h hmA
  refine (Sign.network_fits h hmA hpf hd rfl hnew).completes ?_ ?_ ha
  · intro i _ k k' hk _ m hm
    obtain ⟨j, j1, j2, j3⟩ := Sign.mem_netScript.1 hm
    exact Sign.mem_netScript.2 ⟨j, j1, by omega, j3⟩
  · intro i _ k _ m hm
    obtain ⟨j, -, -, hj⟩ := Sign.mem_netScript.1 hm
    exact Sign.netOut_sender hj

/-- **C65** (the whole way to a signature): presignatures that the signers picked or hold at the end of any
such execution make, for every message with `m + r d ≠ 0`, one valid low-`s` signature. -/
theorem C65_offline_then_sign (h : HonestSigners n (d • G) x dk sts s_l key rnd)
    (hx : Reconstructs t n x d) (hlen : t + 1 ≤ s_l.length)
    (hnew : ∀ i, 1 ≤ i → i ≤ s_l.length → Sign.new i s_l (key (i - 1)) = .ok (start i))
    {evs : List (ℕ × Op Sign.M)} (ha : (Sign.network s_l.length rnd start).Authentic evs)
    (hq : (Sign.network s_l.length rnd start).Quiescent evs) :
    ∃ cs : List CompletedOfflineStage, cs.length = s_l.length ∧
      (∀ i c, 1 ≤ i → cs[i - 1]? = some c → (Sign.network s_l.length rnd start).Done evs i c) ∧
      ∀ message : ℤ,
        (∀ xr y, coords ((∑ j ∈ Finset.range s_l.length, (rnd j).k)⁻¹ • (G : Pt)) = some (xr, y) →
          (message : Sc) + (xr : Sc) * d ≠ 0) →
        ∃ sig, online message cs = .ok (List.replicate s_l.length sig) ∧
          EcdsaEq (d • G) message sig.r sig.s ∧ LowS sig.s := by
  obtain ⟨cs, h1, h2, -, h3⟩ := C39_honest_signing h hx hlen
  exact ⟨cs, h2, fun i c hi hc => C65_offline_no_deadlock h hx hlen hnew h1 ha hq hi hc, h3⟩

end
end

/-! ### Examples: the 31-point group -/

section
attribute [local instance] Toy.crypto

theorem toyNetNil {σ β ω ε : Type} (N : Network σ β ω ε) : N.Authentic [] := by
  intro pre i m post h
  simp at h

/-- Three parties generate a key with threshold 1: some execution delivers everything, and then all of
them have their keys, which have one public key. -/
example : ∃ (rnd : ℕ → KeygenRandomness) (start : ℕ → Keygen.State) (keys : List LocalKey)
    (evs : List (ℕ × Op Keygen.M)),
    (∀ k < 3, Keygen.HonestRandomness 1 (rnd k)) ∧
    (∀ i, 1 ≤ i → i ≤ 3 → ∃ r, Keygen.new (rnd (i - 1)) i 1 3 = .ok (start i, r)) ∧
    Keygen.run 1 3 rnd = .ok keys ∧ keys.length = 3 ∧
    (Keygen.network 3 rnd start).Authentic evs ∧ (Keygen.network 3 rnd start).Quiescent evs ∧
    ∀ i key, 1 ≤ i → keys[i - 1]? = some key → (Keygen.network 3 rnd start).Done evs i key := by
  have hex := fun k : ℕ => honestRandomness_exists 1 ((k + 2 : ℕ) : ZMod 31) [(7 : ZMod 31)] rfl
  choose rnd hon _ _ using hex
  have hn : ∀ i, ∃ s, 1 ≤ i → i ≤ 3 → Keygen.new (rnd (i - 1)) i 1 3 = .ok (s, .ok ()) := by
    intro i
    by_cases h : 1 ≤ i ∧ i ≤ 3
    · obtain ⟨s, hs⟩ := (C19_new_accepts (rnd (i - 1)) i 1 3).2 ⟨by omega, by omega, h⟩
      exact ⟨s, fun _ _ => hs⟩
    · obtain ⟨s, -⟩ := (C19_new_accepts (rnd 0) 1 1 3).2 (by omega)
      exact ⟨s, fun h1 h2 => absurd ⟨h1, h2⟩ h⟩
  choose start hstart using hn
  have hnew : ∀ i, 1 ≤ i → i ≤ 3 → ∃ r, Keygen.new (rnd (i - 1)) i 1 3 = .ok (start i, r) :=
    fun i h1 h2 => ⟨_, hstart i h1 h2⟩
  have hrun := Keygen.run_eq (t := 1) (n := 3) (by decide) (fun k _ => hon k)
  obtain ⟨evs, ha, hq, -⟩ := C65_keygen_completes (fun k _ => hon k) hnew (toyNetNil _)
  exact ⟨rnd, start, _, _, fun k _ => hon k, hnew, hrun, by simp, ha, hq,
    fun i key hi hk => C65_keygen_no_deadlock (fun k _ => hon k) hnew hrun ha hq hi hk⟩

theorem toyPick {rnd : KeygenRandomness} {s : Keygen.State} {ops : List (Op Keygen.M)} {key : LocalKey}
    (h1 : ((Keygen.machine rnd).run s ops).outputs = [])
    (h2 : ((Keygen.machine rnd).run s ops).panicked = false)
    (h3 : ((Keygen.machine rnd).run s ops).errors = [])
    (h4 : (Keygen.machine rnd).is_finished ((Keygen.machine rnd).run s ops).st = true)
    (h5 : ((Keygen.machine rnd).pick_output ((Keygen.machine rnd).run s ops).st).2 = some (.ok key)) :
    (Keygen.machine rnd).current_round ((Keygen.machine rnd).run s ops).st = 5 ∧
    ((Keygen.machine rnd).run s (ops ++ [.pick])).outputs = [key] ∧
    ((Keygen.machine rnd).run s (ops ++ [.pick, .pick])).errors = [.DoublePickOutput] := by
  simp only [StateMachine.run, List.foldl_append] at *
  generalize List.foldl _ _ ops = h at *
  obtain ⟨st, dr, ac, er, ou, pa⟩ := h
  obtain ⟨rd, m1, m2, m3, m4, qu, pi, pn⟩ := st
  dsimp only at h1 h2 h3 h4 h5
  subst h1 h2 h3
  cases rd with
  | Final k =>
    have : k = key := by
      simpa [Keygen.machine, Keygen.pick_output] using h5
    subst this
    exact ⟨rfl, rfl, rfl⟩
  | _ => exact absurd h4 (by simp [Keygen.machine, Keygen.is_finished])

/-- C22, C24: party 2 finishes such a key generation, gets a late message (refused as C24 says) and then
hands out its key, once. -/
example : ∃ (rnd : KeygenRandomness) (s : Keygen.State) (ops : List (Op Keygen.M)) (key : LocalKey),
    Keygen.new rnd 2 1 3 = .ok (s, .ok ()) ∧
    ((Keygen.machine rnd).run s ops).outputs = [] ∧ ((Keygen.machine rnd).run s ops).errors = [] ∧
    ((Keygen.machine rnd).run s ops).panicked = false ∧
    (Keygen.machine rnd).current_round ((Keygen.machine rnd).run s ops).st = 5 ∧
    ((Keygen.machine rnd).run s (ops ++ [.pick])).outputs = [key] ∧
    ((Keygen.machine rnd).run s (ops ++ [.pick, .pick])).errors = [.DoublePickOutput] := by
  have hex := fun k : ℕ => honestRandomness_exists 1 ((k + 2 : ℕ) : ZMod 31) [(7 : ZMod 31)] rfl
  choose rnd hon _ _ using hex
  obtain ⟨s, hs⟩ := new_213 (rnd 1)
  obtain ⟨b1, b2, b3, b4, -, key, -, -, hk, -⟩ :=
    C15_machine_panics (fun k (_ : k < 3) => hon k) (le_refl 2) hs
  have ho := C20_any_schedule hs (schedule_213 b1 b2 b3 b4)
  obtain ⟨-, o1, -, ho⟩ := ho
  have hk : (keygenLine (rnd 1) 2 1 3 b1 b2 b3 b4).2 = .ok key := hk
  rw [hk] at ho
  obtain ⟨o2, o3, o4, o5⟩ := ho
  obtain ⟨p1, p2, p3⟩ := toyPick o1 o2 o3 o4 o5
  exact ⟨rnd 1, s, _, key, hs, o1, o3, o2, p1, p2, p3⟩

/-- C15: the schedule of C20's example, with the messages of `C15_machine_panics`. -/
example (bad : Vss × Sc) (hbad : bad.1.commitments = []) :
    ∃ (rnd : KeygenRandomness) (s : Keygen.State) (ops : List (Op Keygen.M)),
      Keygen.new rnd 2 1 3 = .ok (s, .ok ()) ∧
      ((Keygen.machine rnd).run s (ops ++ [.proceed])).panicked = true := by
  have hex := fun k : ℕ => honestRandomness_exists 1 ((k + 2 : ℕ) : ZMod 31) [(7 : ZMod 31)] rfl
  choose rnd hon _ _ using hex
  obtain ⟨s, hs⟩ := new_213 (rnd 1)
  obtain ⟨b1, b2, b3, b4, -, -, -, -, -, h⟩ :=
    C15_machine_panics (fun k (_ : k < 3) => hon k) (le_refl 2) hs
  exact ⟨rnd 1, s, _, hs, h bad hbad _ (schedule_213 b1 b2 _ b4)⟩

/-- Signers 3 and 1 of the toy key: some execution of the offline stage delivers everything, and the
presignatures sign the message 10. -/
example : ∃ (start : ℕ → Sign.State) (evs : List (ℕ × Op Sign.M)) (cs : List CompletedOfflineStage) (sig : SignatureRecid),
    (∀ i, 1 ≤ i → i ≤ 2 →
      Sign.new i [3, 1] (toyLocal ([3, 1].getD (i - 1) 0)) = .ok (start i)) ∧
    (Sign.network 2 toySign start).Authentic evs ∧ (Sign.network 2 toySign start).Quiescent evs ∧
    cs.length = 2 ∧
    (∀ i c, 1 ≤ i → cs[i - 1]? = some c → (Sign.network 2 toySign start).Done evs i c) ∧
    online 10 cs = .ok [sig, sig] ∧ EcdsaEq ((5 : ZMod 31) • (G : Pt)) 10 sig.r sig.s := by
  have hrec := toyX_poly.reconstructs (by decide)
  have h0 : (Polynomial.C (5 : ZMod 31) + Polynomial.C (7 : ZMod 31) * Polynomial.X).eval 0 = 5 := by
    simp
  rw [h0] at hrec
  have hn : ∀ i, ∃ s, 1 ≤ i → i ≤ 2 →
      Sign.new i [3, 1] (toyLocal ([3, 1].getD (i - 1) 0)) = .ok s := by
    intro i
    by_cases h : 1 ≤ i ∧ i ≤ 2
    · obtain ⟨s, hs⟩ := (C37_new_accepts_partial i [3, 1] (toyLocal ([3, 1].getD (i - 1) 0))).2
        ⟨by decide, h, by
          have : (toyLocal ([3, 1].getD (i - 1) 0)).n = 3 := rfl
          rw [this]
          decide, by decide⟩
      exact ⟨s, fun _ _ => hs⟩
    · obtain ⟨s, -⟩ := (C37_new_accepts_partial 1 [3, 1] (toyLocal 3)).2 (by decide)
      exact ⟨s, fun h1 h2 => absurd ⟨h1, h2⟩ h⟩
  choose start hstart using hn
  obtain ⟨evs, ha, hq, -⟩ := C65_offline_completes toyHonest hrec (by decide) hstart (toyNetNil _)
  obtain ⟨cs, h1, h2, h3⟩ := C65_offline_then_sign toyHonest hrec (by decide) hstart ha hq
  obtain ⟨sig, h4, h5, -⟩ := h3 10 (by
    intro xr y h
    have : ∀ xy ∈ coords ((∑ j ∈ Finset.range [3, 1].length, (toySign j).k)⁻¹ • (G : Pt)),
      ((10 : ℤ) : ZMod 31) + (xy.1 : ZMod 31) * 5 ≠ 0 := by decide +kernel
    exact this (xr, y) h)
  exact ⟨start, _, cs, sig, hstart, ha, hq, h1, h2, h4, h5⟩

end
end Verif.Props
