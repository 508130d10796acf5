import Verif.Lemmas.RoomFits
import Verif.Props.Network

/-!
# C94: the demo clients, event loops and message server together

`Demo.Driver.Setting.Steps k r` says that `k` steps of the clients lead to the room `r`: a step is one client
posting its next message, or reading the next message of the room and running its event loop on it.  The keys
and presignatures that the theorems compare with are those of the round-by-round executions `Keygen.run` and
`offline` (C13-C18, C39).
-/

namespace Verif.Props

open EC Crypto Spec GG20 GG20.Sign Demo.Driver

section
variable [Crypto]

/-- What C94 says of clients `1 .. n` in a room, of which client `i` should return `out[i - 1]`. -/
structure RoomWorks {σ β ω ε : Type} (T : Setting σ β ω ε) (bound : ℕ) (out : List ω) : Prop where
  /-- at any time a client has not returned or has returned what it should -/
  sound : ∀ k r, T.Steps k r → ∀ i o, 1 ≤ i → out[i - 1]? = some o →
    (r.client i).run.result = none ∨ (r.client i).run.result = some (.ok o)
  /-- the clients cannot go on forever -/
  ends : ∀ k r, T.Steps k r → k ≤ bound
  /-- and when no client can do anything, all have returned what they should -/
  complete : ∀ k r, T.Steps k r → (¬ ∃ r', T.Step r r') →
    ∀ i o, 1 ≤ i → out[i - 1]? = some o → (r.client i).run.result = some (.ok o)

/-- **C94** (key generation): in every interleaving of the clients' requests every client of the demo returns
its key of the round-by-round execution, after boundedly many steps. -/
theorem C94_keygen {t n : ℕ} {rnd : ℕ → KeygenRandomness} {start : ℕ → Keygen.State}
    {keys : List LocalKey} (hon : ∀ k < n, Keygen.HonestRandomness t (rnd k))
    (hnew : ∀ i, 1 ≤ i → i ≤ n → ∃ r, Keygen.new (rnd (i - 1)) i t n = .ok (start i, r))
    (hrun : Keygen.run t n rnd = .ok keys) :
    RoomWorks (keygenRoom n rnd start) ((n + 1) * (n * (n + 3))) keys := by
  have F := Keygen.room_fits hon hnew
  refine ⟨fun k r h i o hi ho => ?_, fun k r h => ?_, fun k r h hs i o hi ho => ?_⟩
  · obtain ⟨hin, rfl⟩ := Keygen.run_get hon hnew hrun hi ho
    exact F.sound h hi hin
  · exact F.bounded (fun i _ _ => Keygen.netScript_length) h
  · obtain ⟨hin, rfl⟩ := Keygen.run_get hon hnew hrun hi ho
    exact F.complete h hs hi hin

/-- **C94** (offline stage): in every interleaving of the clients' requests every client returns its
presignature of the round-by-round execution, after boundedly many steps. -/
theorem C94_offline {t n : ℕ} {x : ℕ → Sc} {d : Sc} {dk : ℕ → DecKey} {sts : List DLogStatement}
    {s_l : List ℕ} {key : ℕ → LocalKey} {rnd : ℕ → SignRandomness} {start : ℕ → Sign.State}
    {cs : List CompletedOfflineStage} (h : HonestSigners n (d • G) x dk sts s_l key rnd)
    (hx : Reconstructs t n x d) (hlen : t + 1 ≤ s_l.length)
    (hnew : ∀ i, 1 ≤ i → i ≤ s_l.length → Sign.new i s_l (key (i - 1)) = .ok (start i))
    (hcs : offline s_l key rnd = .ok cs) :
    RoomWorks (offlineRoom s_l.length rnd start)
      ((s_l.length + 1) * (s_l.length * (s_l.length + 5))) cs := by
  have hd := signShare_sum h.members h.nodup hx hlen
  obtain ⟨mA, hmA⟩ := exists_mA h
  obtain ⟨pf, hpf⟩ := exists_pdl h hmA
  have F := Sign.room_fits h hmA hpf hd rfl hnew
  refine ⟨fun k r hr i o hi ho => ?_, fun k r hr => ?_, fun k r hr hs i o hi ho => ?_⟩
  · obtain ⟨hin, rfl⟩ := Sign.offline_get h hd rfl hcs hi ho
    exact F.sound hr hi hin
  · exact F.bounded (fun i _ _ => Sign.netScript_length) hr
  · obtain ⟨hin, rfl⟩ := Sign.offline_get h hd rfl hcs hi ho
    exact F.complete hr hs hi hin

omit [Crypto] in
/-- A room in which the clients cannot go on forever is eventually at rest. -/
theorem RoomWorks.rests {σ β ω ε : Type} {T : Setting σ β ω ε} {bound : ℕ} {out : List ω}
    (W : RoomWorks T bound out) {k : ℕ} {r : Room σ β ω ε} (h : T.Steps k r) :
    ∃ k' r', k ≤ k' ∧ T.Steps k' r' ∧ ¬ ∃ r'', T.Step r' r'' := by
  by_cases hs : ∃ r', T.Step r r'
  · obtain ⟨r', hr'⟩ := hs
    have := W.ends _ _ (h.step hr')
    obtain ⟨k', q, h1, h2⟩ := W.rests (h.step hr')
    exact ⟨k', q, by omega, h2⟩
  · exact ⟨k, r, le_rfl, h, hs⟩
termination_by bound - k

end

/-! ### Examples: the 31-point group -/

section
attribute [local instance] Toy.crypto

/-- Three key generation clients: there is an execution at whose end all three have returned their keys. -/
example : ∃ (rnd : ℕ → KeygenRandomness) (start : ℕ → Keygen.State) (keys : List LocalKey) (k : ℕ)
    (r : Room Keygen.State Keygen.M LocalKey Keygen.ProceedError),
    (∀ k < 3, Keygen.HonestRandomness 1 (rnd k)) ∧
    (∀ i, 1 ≤ i → i ≤ 3 → ∃ r, Keygen.new (rnd (i - 1)) i 1 3 = .ok (start i, r)) ∧
    Keygen.run 1 3 rnd = .ok keys ∧ keys.length = 3 ∧
    (keygenRoom 3 rnd start).Steps k r ∧
    ∀ i o, 1 ≤ i → keys[i - 1]? = some o → (r.client i).run.result = some (.ok o) := by
  have hex := fun k : ℕ => honestRandomness_exists 1 ((k + 2 : ℕ) : ZMod 31) [(7 : ZMod 31)] rfl
  choose rnd hon _ _ using hex
  have hn : ∀ i, ∃ s, 1 ≤ i → i ≤ 3 → Keygen.new (rnd (i - 1)) i 1 3 = .ok (s, .ok ()) := by
    intro i
    by_cases h : 1 ≤ i ∧ i ≤ 3
    · obtain ⟨s, hs⟩ := (C19_new_accepts (rnd (i - 1)) i 1 3).2 ⟨by omega, by omega, h⟩
      exact ⟨s, fun _ _ => hs⟩
    · obtain ⟨s, -⟩ := (C19_new_accepts (rnd 0) 1 1 3).2 (by omega)
      exact ⟨s, fun h1 h2 => absurd ⟨h1, h2⟩ h⟩
  choose start hstart using hn
  have hnew : ∀ i, 1 ≤ i → i ≤ 3 → ∃ r, Keygen.new (rnd (i - 1)) i 1 3 = .ok (start i, r) :=
    fun i h1 h2 => ⟨_, hstart i h1 h2⟩
  have hrun := Keygen.run_eq (t := 1) (n := 3) (by decide) (fun k _ => hon k)
  have W := C94_keygen (fun k _ => hon k) hnew hrun
  obtain ⟨k, r, -, h1, h2⟩ := W.rests .init
  exact ⟨rnd, start, _, k, r, fun k _ => hon k, hnew, hrun, by simp, h1, W.complete k r h1 h2⟩

/-- Signers 3 and 1 of the toy key: both clients return their presignatures, and these sign the message 10. -/
example : ∃ (start : ℕ → Sign.State) (cs : List CompletedOfflineStage) (sig : SignatureRecid) (k : ℕ)
    (r : Room Sign.State Sign.M CompletedOfflineStage Sign.SignError),
    (∀ i, 1 ≤ i → i ≤ 2 →
      Sign.new i [3, 1] (toyLocal ([3, 1].getD (i - 1) 0)) = .ok (start i)) ∧
    cs.length = 2 ∧ (offlineRoom 2 toySign start).Steps k r ∧
    (∀ i c, 1 ≤ i → cs[i - 1]? = some c → (r.client i).run.result = some (.ok c)) ∧
    online 10 cs = .ok [sig, sig] ∧ EcdsaEq ((5 : ZMod 31) • (G : Pt)) 10 sig.r sig.s := by
  have hrec := toyX_poly.reconstructs (by decide)
  have h0 : (Polynomial.C (5 : ZMod 31) + Polynomial.C (7 : ZMod 31) * Polynomial.X).eval 0 = 5 := by
    simp
  rw [h0] at hrec
  have hn : ∀ i, ∃ s, 1 ≤ i → i ≤ 2 →
      Sign.new i [3, 1] (toyLocal ([3, 1].getD (i - 1) 0)) = .ok s := by
    intro i
    by_cases h : 1 ≤ i ∧ i ≤ 2
    · obtain ⟨s, hs⟩ := (C37_new_accepts_partial i [3, 1] (toyLocal ([3, 1].getD (i - 1) 0))).2
        ⟨by decide, h, by
          have : (toyLocal ([3, 1].getD (i - 1) 0)).n = 3 := rfl
          rw [this]
          decide, by decide⟩
      exact ⟨s, fun _ _ => hs⟩
    · obtain ⟨s, -⟩ := (C37_new_accepts_partial 1 [3, 1] (toyLocal 3)).2 (by decide)
      exact ⟨s, fun h1 h2 => absurd ⟨h1, h2⟩ h⟩
  choose start hstart using hn
  obtain ⟨cs, c1, c2, -, c3⟩ := C39_honest_signing toyHonest hrec (by decide)
  obtain ⟨sig, h4, h5, -⟩ := c3 10 (by
    intro xr y h
    have : ∀ xy ∈ coords ((∑ j ∈ Finset.range [3, 1].length, (toySign j).k)⁻¹ • (G : Pt)),
      ((10 : ℤ) : ZMod 31) + (xy.1 : ZMod 31) * 5 ≠ 0 := by decide +kernel
    exact this (xr, y) h)
  have W := C94_offline toyHonest hrec (by decide) hstart c1
  obtain ⟨k, r, -, h1, h2⟩ := W.rests .init
  exact ⟨start, cs, sig, k, r, hstart, c2, h1, W.complete k r h1 h2, h4, h5⟩

end
end Verif.Props
