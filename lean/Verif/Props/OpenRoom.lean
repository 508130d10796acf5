import Verif.Spec.OpenRoom
import Verif.Props.Room
import Verif.Props.Driver
import Verif.Props.Managers

/-!
# C109, C110: a room is open to everybody

C109: a client of the demo cannot tell whose message it reads.  C110: whoever reads the room of a key generation
knows the private key.
-/

namespace Verif.Props

open EC Crypto Spec GG20 GG20.Sign Demo.Driver Demo.Client

section
variable [Crypto]

/-! ### C109 -/

omit [Crypto] in
/-- Mail sorted by rounds, with all earlier messages of everybody, is in the order of the rounds. -/
theorem inRoundOrder_sorted {β : Type} {rd : β → ℕ} {ms : List (Msg β)}
    (hs : ms.Pairwise (fun a b => rd a.body ≤ rd b.body))
    (hc : ∀ m ∈ ms, ∀ k, 1 ≤ k → k < rd m.body → ∃ m' ∈ ms, m'.sender = m.sender ∧ rd m'.body = k) :
    InRoundOrder rd ms := by
  rintro pre post rfl m hm k k1 k2
  obtain ⟨m', h1, h2, h3⟩ := hc m (List.mem_append_left _ hm) k k1 k2
  rcases List.mem_append.1 h1 with h | h
  · exact ⟨m', h, h2, h3⟩
  · have := (List.pairwise_append.1 hs).2.2 m hm m' h
    omega

/-- What somebody posts in the name of party `p` of round `k`, knowing the shares `σ` that party `i` dealt. -/
def forged (t n i : ℕ) (rnd : ℕ → KeygenRandomness) (σ : ℕ → Sc) : ℕ → ℕ → Msg Keygen.M
  | 1, p => ⟨p, none, .Round1 (Keygen.rBc rnd (p - 1))⟩
  | 2, p => ⟨p, none, .Round2 (Keygen.rDec rnd (p - 1))⟩
  | 3, p => ⟨p, some i, .Round3 (Keygen.rVss t n rnd (p - 1), Keygen.rShare rnd (p - 1) (i - 1))⟩
  | _, p => ⟨p, none, .Round4 (DLogProof.prove
      ((List.range n).map (fun j => if j = i - 1 then σ p else Keygen.rShare rnd j (p - 1))).sum
      (rnd (p - 1)).dlogNonce)⟩

/-- The forged messages of some rounds. -/
def forgedRounds (t n i : ℕ) (rnd : ℕ → KeygenRandomness) (σ : ℕ → Sc) (ks : List ℕ) : List (Msg Keygen.M) :=
  ks.flatMap (fun k => (peers i n).map (forged t n i rnd σ k))

theorem forged_sender (t n i : ℕ) (rnd : ℕ → KeygenRandomness) (σ : ℕ → Sc) (k p : ℕ) :
    (forged t n i rnd σ k p).sender = p := by
  unfold forged
  split <;> rfl

theorem forged_round (t n i : ℕ) (rnd : ℕ → KeygenRandomness) (σ : ℕ → Sc) {k : ℕ} (h1 : 1 ≤ k) (h2 : k ≤ 4)
    (p : ℕ) : KeygenMsg.round (forged t n i rnd σ k p).body = k := by
  have : k = 1 ∨ k = 2 ∨ k = 3 ∨ k = 4 := by omega
  rcases this with rfl | rfl | rfl | rfl <;> rfl

theorem forged_accepted (t n i : ℕ) (rnd : ℕ → KeygenRandomness) (σ : ℕ → Sc) (k : ℕ) {p : ℕ} (hp : p ≠ i) :
    accepts i (forged t n i rnd σ k p) = true := by
  unfold forged
  split
  · exact accepts_none hp.symm _
  · exact accepts_none hp.symm _
  · rw [accepts_some hp.symm]; simp
  · exact accepts_none hp.symm _

theorem forged_congr {t n i : ℕ} {rnd rnd' : ℕ → KeygenRandomness} (h : ∀ k, k ≠ i - 1 → rnd k = rnd' k)
    (σ : ℕ → Sc) (k : ℕ) {p : ℕ} (hp : p - 1 ≠ i - 1) : forged t n i rnd σ k p = forged t n i rnd' σ k p := by
  have hs : ∀ j, (if j = i - 1 then σ p else Keygen.rShare rnd j (p - 1)) =
      if j = i - 1 then σ p else Keygen.rShare rnd' j (p - 1) := by
    intro j
    split_ifs with hj
    · rfl
    · simp only [Keygen.rShare, h j hj]
  unfold forged
  split
  · simp only [Keygen.rBc, Keygen.rKeys, h _ hp]
  · simp only [Keygen.rDec, Keygen.rKeys, h _ hp]
  · simp only [Keygen.rVss, Keygen.rShare, h _ hp]
  · simp only [h _ hp, hs]

theorem mem_forgedRounds {t n i : ℕ} {rnd : ℕ → KeygenRandomness} {σ : ℕ → Sc} {ks : List ℕ}
    {m : Msg Keygen.M} : m ∈ forgedRounds t n i rnd σ ks ↔
      ∃ k ∈ ks, ∃ p, (1 ≤ p ∧ p ≤ n ∧ p ≠ i) ∧ forged t n i rnd σ k p = m := by
  simp only [forgedRounds, List.mem_flatMap, List.mem_map, mem_peers]

theorem forged_genuine {t n i : ℕ} {rnd : ℕ → KeygenRandomness} {σ : ℕ → Sc}
    (hσ : ∀ p, σ p = Keygen.rShare rnd (i - 1) (p - 1)) (i1 : 1 ≤ i) (i2 : i ≤ n) {k p : ℕ} (k1 : 1 ≤ k)
    (k2 : k ≤ 4) (hp : 1 ≤ p) (hpi : p ≠ i) :
    forged t n i rnd σ k p ∈ Keygen.netScript t n rnd p 5 := by
  have hx : ((List.range n).map (fun j => if j = i - 1 then σ p else Keygen.rShare rnd j (p - 1))).sum =
      Keygen.rX n rnd (p - 1) := by
    unfold Keygen.rX
    congr 1
    refine List.map_congr_left fun j _ => ?_
    split_ifs with hj
    · rw [hσ, hj]
    · rfl
  have hmem : forged t n i rnd σ k p ∈ (Keygen.netScript t n rnd p 5).filter (accepts i) := by
    rw [Keygen.netScript_filter i1 i2 hp hpi.symm]
    have : k = 1 ∨ k = 2 ∨ k = 3 ∨ k = 4 := by omega
    rcases this with rfl | rfl | rfl | rfl <;> simp [forged, hx, Keygen.rPf]
  exact (List.mem_filter.1 hmem).1

/-- What client `i` makes of the forged messages of the first rounds. -/
theorem forged_serves {t n i : ℕ} {rnd : ℕ → KeygenRandomness} {start : ℕ → Keygen.State}
    (hon : ∀ k < n, Keygen.HonestRandomness t (rnd k))
    (hnew : ∀ i, 1 ≤ i → i ≤ n → ∃ r, Keygen.new (rnd (i - 1)) i t n = .ok (start i, r)) (i1 : 1 ≤ i)
    (i2 : i ≤ n) {σ : ℕ → Sc} (hσ : ∀ p, σ p = Keygen.rShare rnd (i - 1) (p - 1)) {K : ℕ} (hK : K ≤ 4)
    {run : Async.Run Keygen.State Keygen.M LocalKey Keygen.ProceedError}
    (hrun : run = Async.run (Keygen.machine (rnd (i - 1))) keygenCritical (start i)
      (forgedRounds t n i rnd σ (List.range' 1 K))) :
    (run.result = none ∧ K < 4 ∧ ∃ pos, K < pos ∧ pos ≤ 4 ∧ run.sent = Keygen.netScript t n rnd i pos) ∨
    (run.result = some (.ok (Keygen.rKey t n rnd (i - 1))) ∧ run.sent = Keygen.netScript t n rnd i 5) := by
  subst hrun
  have hk : ∀ k ∈ List.range' 1 K, 1 ≤ k ∧ k ≤ 4 := by
    intro k hk
    rw [List.mem_range'_1] at hk
    omega
  have hsort : (List.range' 1 K).Pairwise (· < ·) := List.pairwise_lt_range'
  have hrel : ∀ R : Msg Keygen.M → Msg Keygen.M → Prop,
      (∀ k p p', 1 ≤ k → k ≤ 4 → p ≠ p' → R (forged t n i rnd σ k p) (forged t n i rnd σ k p')) →
      (∀ k k' p p', 1 ≤ k → k' ≤ 4 → k < k' → R (forged t n i rnd σ k p) (forged t n i rnd σ k' p')) →
      (forgedRounds t n i rnd σ (List.range' 1 K)).Pairwise R := by
    intro R h1 h2
    unfold forgedRounds
    rw [List.pairwise_flatMap]
    refine ⟨fun k hk' => ?_, hsort.imp_of_mem ?_⟩
    · rw [List.pairwise_map]
      exact (peers_nodup i n).imp fun h => h1 k _ _ (hk k hk').1 (hk k hk').2 h
    · intro a b ha hb hab x hx y hy
      obtain ⟨p, -, rfl⟩ := List.mem_map.1 hx
      obtain ⟨p', -, rfl⟩ := List.mem_map.1 hy
      exact h2 a b p p' (hk a ha).1 (hk b hb).2 hab
  have := (Keygen.room_fits hon hnew).serves i i1 i2 (forgedRounds t n i rnd σ (List.range' 1 K)) ?_ ?_ ?_
  · rcases this with ⟨a, pos, b, c, d, p, p1, p2, p3, p4⟩ | ⟨a, b⟩
    · have hpos : K < pos := by
        by_contra hle
        refine p4 (forged t n i rnd σ pos p) (mem_forgedRounds.2 ⟨pos, ?_, p, ⟨p1, p2, p3⟩, rfl⟩)
          (forged_sender ..) (forged_round _ _ _ _ _ b c _)
        rw [List.mem_range'_1]
        omega
      exact .inl ⟨a, by omega, pos, hpos, c, d⟩
    · exact .inr ⟨a, b⟩
  · intro m hm
    obtain ⟨k, hk', p, ⟨p1, p2, p3⟩, rfl⟩ := mem_forgedRounds.1 hm
    exact ⟨p, p1, p2, p3.symm, forged_genuine hσ i1 i2 (hk k hk').1 (hk k hk').2 p1 p3,
      forged_accepted _ _ _ _ _ _ p3⟩
  · refine hrel _ (fun k p p' _ _ h _ => ?_) (fun k k' p p' h1 h2 h e => ?_)
    · rwa [forged_sender, forged_sender]
    · rw [forged_round _ _ _ _ _ h1 (by omega), forged_round _ _ _ _ _ (by omega) h2] at e
      omega
  · refine inRoundOrder_sorted (hrel _ (fun k p p' h1 h2 _ => ?_) (fun k k' p p' h1 h2 h => ?_)) ?_
    · rw [forged_round _ _ _ _ _ h1 h2, forged_round _ _ _ _ _ h1 h2]
    · rw [forged_round _ _ _ _ _ h1 (by omega), forged_round _ _ _ _ _ (by omega) h2]
      omega
    · intro m hm k k1 k2
      obtain ⟨k', hk', p, hp, rfl⟩ := mem_forgedRounds.1 hm
      rw [forged_round _ _ _ _ _ (hk k' hk').1 (hk k' hk').2] at k2
      refine ⟨forged t n i rnd σ k p, mem_forgedRounds.2 ⟨k, ?_, p, hp, rfl⟩, ?_, ?_⟩
      · rw [List.mem_range'_1] at hk' ⊢
        omega
      · rw [forged_sender, forged_sender]
      · exact forged_round _ _ _ _ _ k1 (by have := (hk k' hk').2; omega) _

/-- **C109, violated** (GG20 demo): somebody who can post in the room plays all other parties for client `i`.
There are messages `first`, not depending on anything that client `i` keeps secret, and then messages `last`
computed from the shares that client `i` has meanwhile posted for the others, all in the names of the other
parties, after which client `i` returns a key like from an honest execution, whatever is posted in the room
afterwards (for instance by the real other parties). -/
theorem C109_gg20_impersonation {t n i : ℕ} (i1 : 1 ≤ i) (i2 : i ≤ n) :
    ∃ (first : (ℕ → KeygenRandomness) → List (Msg Keygen.M))
      (last : (ℕ → KeygenRandomness) → (ℕ → Sc) → List (Msg Keygen.M)),
      (∀ rnd rnd', (∀ k, k ≠ i - 1 → rnd k = rnd' k) → first rnd = first rnd' ∧ last rnd = last rnd') ∧
      (∀ rnd σ, ∀ m ∈ first rnd ++ last rnd σ, m.sender ≠ i) ∧
      ∀ (rnd : ℕ → KeygenRandomness) (start : ℕ → Keygen.State) (keys : List LocalKey) (key : LocalKey),
        (∀ k < n, Keygen.HonestRandomness t (rnd k)) →
        (∀ i, 1 ≤ i → i ≤ n → ∃ r, Keygen.new (rnd (i - 1)) i t n = .ok (start i, r)) →
        Keygen.run t n rnd = .ok keys → keys[i - 1]? = some key →
        ∃ σ : ℕ → Sc,
          (∀ p, 1 ≤ p → p ≤ n → p ≠ i → ∃ v, (⟨i, some p, .Round3 (v, σ p)⟩ : Msg Keygen.M) ∈
            (Async.run (Keygen.machine (rnd (i - 1))) keygenCritical (start i)
              (incoming i (first rnd))).sent) ∧
          ∀ later, (Async.run (Keygen.machine (rnd (i - 1))) keygenCritical (start i)
            (incoming i (first rnd ++ last rnd σ ++ later))).result = some (.ok key) := by
  refine ⟨fun rnd => forgedRounds t n i rnd (fun _ => 0) [1, 2, 3],
    fun rnd σ => forgedRounds t n i rnd σ [4], ?_, ?_, ?_⟩
  · intro rnd rnd' h
    have hc : ∀ σ ks, forgedRounds t n i rnd σ ks = forgedRounds t n i rnd' σ ks := by
      intro σ ks
      unfold forgedRounds
      congr 1
      funext k
      refine List.map_congr_left fun p hp => forged_congr h σ k ?_
      have := mem_peers.1 hp
      omega
    exact ⟨hc _ _, funext fun σ => hc σ _⟩
  · intro rnd σ m hm
    rcases List.mem_append.1 hm with hm | hm <;>
    · obtain ⟨k, -, p, hp, rfl⟩ := mem_forgedRounds.1 hm
      rw [forged_sender]
      exact hp.2.2
  · intro rnd start keys key hon hnew hrun hkey
    obtain ⟨-, rfl⟩ := Keygen.run_get hon hnew hrun i1 hkey
    set σ : ℕ → Sc := fun p => Keygen.rShare rnd (i - 1) (p - 1) with hσ
    have hin : ∀ τ ks, incoming i (forgedRounds t n i rnd τ ks) = forgedRounds t n i rnd τ ks := by
      intro τ ks
      refine List.filter_eq_self.2 fun m hm => ?_
      obtain ⟨k, -, p, hp, rfl⟩ := mem_forgedRounds.1 hm
      exact forged_accepted _ _ _ _ _ _ hp.2.2
    have h3 : forgedRounds t n i rnd (fun _ => 0) [1, 2, 3] =
        forgedRounds t n i rnd σ (List.range' 1 3) := rfl
    have h4 : forgedRounds t n i rnd σ (List.range' 1 3) ++ forgedRounds t n i rnd σ [4] =
        forgedRounds t n i rnd σ (List.range' 1 4) := by
      unfold forgedRounds
      rw [← List.flatMap_append]
      rfl
    refine ⟨σ, fun p p1 p2 p3 => ⟨Keygen.rVss t n rnd (i - 1), ?_⟩, fun later => ?_⟩
    · have hm : (⟨i, some p, .Round3 (Keygen.rVss t n rnd (i - 1), σ p)⟩ : Msg Keygen.M) ∈
          Keygen.netScript t n rnd i 5 := by
        have : (⟨i, some p, .Round3 (Keygen.rVss t n rnd (i - 1), σ p)⟩ : Msg Keygen.M) ∈
          (Keygen.netScript t n rnd i 5).filter (accepts p) := by
          rw [Keygen.netScript_filter p1 p2 i1 p3]
          simp [hσ]
        exact (List.mem_filter.1 this).1
      dsimp only
      rw [h3, hin]
      rcases forged_serves (K := 3) hon hnew i1 i2 (fun _ => rfl) (by decide) rfl with
        ⟨-, -, pos, a, b, c⟩ | ⟨-, c⟩
      · rw [c, show pos = 4 by omega]
        exact hm
      · rw [c]
        exact hm
    · have hres : (Async.run (Keygen.machine (rnd (i - 1))) keygenCritical (start i)
          (forgedRounds t n i rnd σ (List.range' 1 4))).result =
          some (.ok (Keygen.rKey t n rnd (i - 1))) := by
        rcases forged_serves (K := 4) (σ := σ) hon hnew i1 i2 (fun _ => rfl) le_rfl rfl with ⟨-, a, -⟩ | ⟨a, -⟩
        · omega
        · exact a
      dsimp only
      rw [h3, h4]
      unfold incoming
      rw [List.filter_append]
      have := hin σ (List.range' 1 4)
      unfold incoming at this
      rw [this]
      unfold Async.run at hres ⊢
      rw [List.foldl_append]
      generalize List.foldl _ _ (forgedRounds t n i rnd σ (List.range' 1 4)) = run at hres ⊢
      induction later.filter (accepts i) with
      | nil => exact hres
      | cons m l ih =>
        have hsame : Async.receive (Keygen.machine (rnd (i - 1))) keygenCritical run m = run := by
          unfold Async.receive
          simp [Async.Run.andThen, hres]
        rw [List.foldl_cons, hsame]
        exact ih

open Demo.Manager in
omit [Crypto] in
/-- **C109, violated** (GG18 demo): whoever knows the key of a message of some party (it consists of the party's
number, the round and the identifier of the session) replaces what that party posted; a client that polls
afterwards gets the replacement. -/
theorem C109_gg18_overwritten (J : Json) (P : Params) (uk us : String) (a : Slot) (forged : String)
    (es later : List Event) (h : ∀ v, Event.set a.key v ∉ later) :
    ∃ outs, (Mgr.run J P ⟨Table.init J uk us, []⟩ (es ++ .set a.key forged :: later ++ [.get a.key])).2 =
      outs ++ [.value a.key (some forged)] := by
  have hl : lastSet a.key (es ++ .set a.key forged :: later) = some forged := by
    have h0 : ∀ f : Event → Option String,
        (∀ k v, f (.set k v) = if k = a.key then some v else none) →
        (∀ e, (∀ k v, e ≠ .set k v) → f e = none) → later.filterMap f = [] := by
      intro f h1 h2
      rw [List.filterMap_eq_nil_iff]
      intro e he
      by_cases hs : ∃ k v, e = .set k v
      · obtain ⟨k, v, rfl⟩ := hs
        rw [h1, if_neg]
        rintro rfl
        exact h v he
      · exact h2 e fun k v hv => hs ⟨k, v, hv⟩
    unfold lastSet
    rw [List.filterMap_append, List.filterMap_cons]
    simp only [↓reduceIte]
    rw [h0 _ (fun _ _ => rfl) (fun e he => by cases e <;> first | rfl | exact absurd rfl (he _ _))]
    simp
  rw [C78_poll, hl]
  exact ⟨_, rfl⟩

/-- **C109**, the part that holds (GG20 demo): in a room in which only the clients post, each in its own name,
what client `i` takes for a message of party `p` was sent by client `p`. -/
theorem C109_gg20_authentic_partial {t n : ℕ} {rnd : ℕ → KeygenRandomness} {start : ℕ → Keygen.State}
    (hon : ∀ k < n, Keygen.HonestRandomness t (rnd k))
    (hnew : ∀ i, 1 ≤ i → i ≤ n → ∃ r, Keygen.new (rnd (i - 1)) i t n = .ok (start i, r)) {steps : ℕ}
    {r : Room Keygen.State Keygen.M LocalKey Keygen.ProceedError}
    (h : (keygenRoom n rnd start).Steps steps r) {i : ℕ} {m : Msg Keygen.M} (hm : m ∈ incoming i r.log) :
    1 ≤ m.sender ∧ m.sender ≤ n ∧ m.sender ≠ i ∧ m ∈ (r.client m.sender).run.sent := by
  obtain ⟨hl, ha⟩ := List.mem_filter.1 hm
  obtain ⟨I, hs, -⟩ := h.inv (Keygen.room_fits hon hnew)
  obtain ⟨h1, h2⟩ := I.senders m hl
  refine ⟨h1, h2, ?_, List.mem_of_mem_take (i := (r.client m.sender).posted) ?_⟩
  · unfold accepts at ha
    simp only [Bool.and_eq_true, decide_eq_true_eq] at ha
    exact ha.1
  · rw [← I.log m.sender h1 h2]
    exact List.mem_filter.2 ⟨hl, by simp⟩

/-! ### C110 -/

theorem netScript_share {t n : ℕ} {rnd : ℕ → KeygenRandomness} {k j : ℕ} {m : Msg Keygen.M}
    (hm : m ∈ Keygen.netScript t n rnd k 5) {x : Sc} (hx : shareIn k j m = some x) :
    x = Keygen.rShare rnd (k - 1) (j - 1) := by
  unfold shareIn at hx
  split_ifs at hx with h
  change m ∈ _ ++ _ ++ _ ++ _ at hm
  simp only [List.mem_append, List.mem_singleton, List.mem_map] at hm
  rcases hm with ((rfl | rfl) | ⟨m', hm', rfl⟩) | rfl
  · cases hx
  · cases hx
  · unfold Keygen.rOut3 at hm'
    obtain ⟨a, -, rfl⟩ := List.mem_map.1 hm'
    simp only [Msg.mapBody, Option.some.injEq] at hx h
    rw [← hx, ← h.2]
    rfl
  · cases hx

/-- The sum over all dealers of what the others' shares interpolate to. -/
theorem dealt_sum {t n : ℕ} {rnd : ℕ → KeygenRandomness} (hon : ∀ k < n, (rnd k).coefs.length = t)
    (ht : t + 1 < n) (hn : n < q) :
    ∑ k ∈ Finset.Icc 1 n, ∑ j ∈ (Finset.Icc 1 n).erase k,
      lagrangeCoeff ((Finset.Icc 1 n).erase k) j * Keygen.rShare rnd (k - 1) (j - 1) =
      Keygen.rSecret n rnd := by
  have h : ∀ k ∈ Finset.Icc 1 n, ∑ j ∈ (Finset.Icc 1 n).erase k,
      lagrangeCoeff ((Finset.Icc 1 n).erase k) j * Keygen.rShare rnd (k - 1) (j - 1) =
      (rnd (k - 1)).u := by
    intro k hk
    rw [Finset.mem_Icc] at hk
    have hp : OnPolynomial t n (fun j => Keygen.rShare rnd (k - 1) (j - 1))
        (toPoly ((rnd (k - 1)).u :: (rnd (k - 1)).coefs)) := by
      refine ⟨?_, fun i h1 h2 => ?_⟩
      · have := degree_toPoly_lt ((rnd (k - 1)).u :: (rnd (k - 1)).coefs)
        rwa [List.length_cons, hon (k - 1) (by omega)] at this
      · simp only [eval_toPoly, Keygen.rShare, Nat.sub_add_cancel h1]
    have := hp.reconstructs hn ((Finset.Icc 1 n).erase k)
      (fun i hi => Finset.mem_Icc.1 (Finset.mem_of_mem_erase hi))
      (by rw [Finset.card_erase_of_mem (Finset.mem_Icc.2 hk), Nat.card_Icc]; omega)
    rw [eval_toPoly, evalPoly_zero_cons] at this
    exact this
  rw [Finset.sum_congr rfl h, Keygen.rSecret, sum_map_range_eq]
  refine Finset.sum_nbij' (fun k => k - 1) (fun k => k + 1) ?_ ?_ ?_ ?_ ?_
  · intro k hk
    rw [Finset.mem_Icc] at hk
    rw [Finset.mem_range]
    omega
  · intro k hk
    rw [Finset.mem_range] at hk
    rw [Finset.mem_Icc]
    omega
  · intro k hk
    exact Nat.sub_add_cancel (Finset.mem_Icc.1 hk).1
  · intro k _
    exact Nat.add_sub_cancel k 1
  · intro k _
    rfl

/-- In a room of honest clients every message of `k` is one of its script. -/
theorem log_script {t n : ℕ} {rnd : ℕ → KeygenRandomness} {start : ℕ → Keygen.State}
    (hon : ∀ k < n, Keygen.HonestRandomness t (rnd k))
    (hnew : ∀ i, 1 ≤ i → i ≤ n → ∃ r, Keygen.new (rnd (i - 1)) i t n = .ok (start i, r)) {steps : ℕ}
    {r : Room Keygen.State Keygen.M LocalKey Keygen.ProceedError}
    (h : (keygenRoom n rnd start).Steps steps r) {m : Msg Keygen.M} (hm : m ∈ r.log) :
    1 ≤ m.sender ∧ m.sender ≤ n ∧ m ∈ Keygen.netScript t n rnd m.sender 5 := by
  obtain ⟨I, hs, -⟩ := h.inv (Keygen.room_fits hon hnew)
  obtain ⟨h1, h2⟩ := I.senders m hm
  refine ⟨h1, h2, (hs m.sender h1 h2).subset
    (List.mem_of_mem_take (i := (r.client m.sender).posted) ?_)⟩
  rw [← I.log m.sender h1 h2]
  exact List.mem_filter.2 ⟨hm, by simp⟩

theorem dealtIn_eq {t n : ℕ} {rnd : ℕ → KeygenRandomness} {start : ℕ → Keygen.State}
    (hon : ∀ k < n, Keygen.HonestRandomness t (rnd k))
    (hnew : ∀ i, 1 ≤ i → i ≤ n → ∃ r, Keygen.new (rnd (i - 1)) i t n = .ok (start i, r)) {steps : ℕ}
    {r : Room Keygen.State Keygen.M LocalKey Keygen.ProceedError}
    (h : (keygenRoom n rnd start).Steps steps r) {k j : ℕ} (hd : Dealt r.log k j) :
    dealtIn r.log k j = Keygen.rShare rnd (k - 1) (j - 1) := by
  unfold dealtIn
  cases hf : r.log.findSome? (shareIn k j) with
  | none =>
    obtain ⟨v, x, hm⟩ := hd
    have := List.findSome?_eq_none_iff.1 hf _ hm
    simp [shareIn] at this
  | some x =>
    obtain ⟨m, hm, hx⟩ := List.exists_of_findSome?_eq_some hf
    have hk : m.sender = k := by
      unfold shareIn at hx
      split_ifs at hx with h
      exact h.1
    obtain ⟨-, -, h3⟩ := log_script hon hnew h hm
    rw [hk] at h3
    exact netScript_share h3 hx

theorem rKey_public {t n : ℕ} {rnd : ℕ → KeygenRandomness} (k : ℕ) :
    (Keygen.rKey t n rnd k).public_key = Keygen.rSecret n rnd • G := by
  show ((List.range n).map (fun j => (rnd j).u • G)).sum = _
  rw [Keygen.rSecret, sum_map_range_eq, sum_map_range_eq, Finset.sum_smul]

/-- **C110, violated** (GG20 demo): in every interleaving of honest clients, as soon as every dealer has posted
its shares, whoever reads the room computes the private key from the messages, if fewer than all parties are
needed to sign. -/
theorem C110_gg20_disclosed {t n : ℕ} {rnd : ℕ → KeygenRandomness} {start : ℕ → Keygen.State}
    {keys : List LocalKey} (hon : ∀ k < n, Keygen.HonestRandomness t (rnd k)) (ht : t + 1 < n) (hn : n < q)
    (hnew : ∀ i, 1 ≤ i → i ≤ n → ∃ r, Keygen.new (rnd (i - 1)) i t n = .ok (start i, r))
    (hrun : Keygen.run t n rnd = .ok keys) {steps : ℕ}
    {r : Room Keygen.State Keygen.M LocalKey Keygen.ProceedError}
    (h : (keygenRoom n rnd start).Steps steps r)
    (hd : ∀ k j, 1 ≤ k → k ≤ n → 1 ≤ j → j ≤ n → k ≠ j → Dealt r.log k j) {i : ℕ} (hi : 1 ≤ i)
    {key : LocalKey} (hkey : keys[i - 1]? = some key) :
    key.public_key = keyFromLog n r.log • G := by
  obtain ⟨-, rfl⟩ := Keygen.run_get hon hnew hrun hi hkey
  rw [rKey_public, ← dealt_sum (fun k hk => (hon k hk).coefs_len) ht hn]
  unfold keyFromLog
  refine congrArg (· • G) (Finset.sum_congr rfl fun k hk => Finset.sum_congr rfl fun j hj => ?_)
  rw [Finset.mem_erase, Finset.mem_Icc] at hj
  rw [Finset.mem_Icc] at hk
  rw [dealtIn_eq hon hnew h (hd k j hk.1 hk.2 hj.2.1 hj.2.2 (Ne.symm hj.1))]

/-- **C110, violated** (GG20 demo): when the clients are done, all have returned a key whose private part is
computed from the messages of the room. -/
theorem C110_gg20_at_rest {t n : ℕ} {rnd : ℕ → KeygenRandomness} {start : ℕ → Keygen.State}
    {keys : List LocalKey} (hon : ∀ k < n, Keygen.HonestRandomness t (rnd k)) (ht : t + 1 < n) (hn : n < q)
    (hnew : ∀ i, 1 ≤ i → i ≤ n → ∃ r, Keygen.new (rnd (i - 1)) i t n = .ok (start i, r))
    (hrun : Keygen.run t n rnd = .ok keys) {steps : ℕ}
    {r : Room Keygen.State Keygen.M LocalKey Keygen.ProceedError}
    (h : (keygenRoom n rnd start).Steps steps r) (hstuck : ¬ ∃ r', (keygenRoom n rnd start).Step r r')
    {i : ℕ} (hi : 1 ≤ i) {key : LocalKey} (hkey : keys[i - 1]? = some key) :
    (r.client i).run.result = some (.ok key) ∧ key.public_key = keyFromLog n r.log • G := by
  refine ⟨(C94_keygen hon hnew hrun).complete _ r h hstuck i key hi hkey,
    C110_gg20_disclosed hon ht hn hnew hrun h ?_ hi hkey⟩
  intro k j k1 k2 j1 j2 hkj
  have F := Keygen.room_fits hon hnew
  obtain ⟨I, hs, -⟩ := h.inv F
  have hidle : (r.client k).posted = (r.client k).run.sent.length := by
    have := I.posted k k1 k2
    by_contra hne
    exact hstuck ⟨_, .post r k k1 k2 _ (List.getElem?_eq_getElem (by omega))⟩
  have hres := F.complete h hstuck k1 k2
  have hsent : (r.client k).run.sent = Keygen.netScript t n rnd k 5 := by
    have := I.serves F hs k1 k2 (List.take_prefix (r.client k).cursor r.log)
    rw [← I.run k k1 k2] at this
    rcases this with ⟨hno, -⟩ | ⟨-, c⟩
    · rw [hres] at hno
      cases hno
    · exact c
  have hlog := I.log k k1 k2
  rw [hidle, List.take_length, hsent] at hlog
  refine ⟨Keygen.rVss t n rnd (k - 1), Keygen.rShare rnd (k - 1) (j - 1), ?_⟩
  have hin : (⟨k, some j, .Round3 (Keygen.rVss t n rnd (k - 1), Keygen.rShare rnd (k - 1) (j - 1))⟩ :
      Msg Keygen.M) ∈ (Keygen.netScript t n rnd k 5).filter (accepts j) := by
    rw [Keygen.netScript_filter j1 j2 k1 hkj.symm]
    simp
  rw [← hlog] at hin
  exact (List.mem_filter.1 (List.mem_filter.1 hin).1).1

/-- **C110**, the part that holds (GG20 demo): what reaches the event loop of client `j` contains no shares but
its own: the value at `j` of the sender's polynomial.  (That client is not stopped from reading the others in
the room: `C110_gg20_disclosed`.) -/
theorem C110_gg20_filtered_partial {t n : ℕ} {rnd : ℕ → KeygenRandomness} {start : ℕ → Keygen.State}
    (hon : ∀ k < n, Keygen.HonestRandomness t (rnd k))
    (hnew : ∀ i, 1 ≤ i → i ≤ n → ∃ r, Keygen.new (rnd (i - 1)) i t n = .ok (start i, r)) {steps : ℕ}
    {r : Room Keygen.State Keygen.M LocalKey Keygen.ProceedError}
    (h : (keygenRoom n rnd start).Steps steps r) {j : ℕ} {m : Msg Keygen.M}
    (hm : m ∈ incoming j r.log) {v : Vss} {x : Sc} (hb : m.body = .Round3 (v, x)) :
    m.receiver = some j ∧
      x = (toPoly ((rnd (m.sender - 1)).u :: (rnd (m.sender - 1)).coefs)).eval (j : Sc) := by
  obtain ⟨hl, ha⟩ := List.mem_filter.1 hm
  obtain ⟨-, -, hs⟩ := log_script hon hnew h hl
  have hr := accepts_recv ha
  change m ∈ _ ++ _ ++ _ ++ _ at hs
  simp only [List.mem_append, List.mem_singleton, List.mem_map] at hs
  rcases hs with ((hs | hs) | ⟨m', hm', hs⟩) | hs
  · rw [hs] at hb; cases hb
  · rw [hs] at hb; cases hb
  · unfold Keygen.rOut3 at hm'
    obtain ⟨a, -, rfl⟩ := List.mem_map.1 hm'
    rw [← hs] at hr hb
    simp only [Msg.mapBody, reduceCtorEq, false_or, Option.some.injEq] at hr hb
    rw [← hs]
    refine ⟨by simp [Msg.mapBody, hr], ?_⟩
    have hx : Keygen.rShare rnd (m.sender - 1) a = x := by
      injection hb with hb
      exact (Prod.mk.inj hb).2
    rw [← hx, eval_toPoly, ← hr]
    rfl
  · rw [hs] at hb; cases hb

end

/-! ### Examples: the 31-point group -/

section
attribute [local instance] Toy.crypto

/-- Three parties, of which two are needed to sign: there are honest random values, and an execution at whose
end the hypotheses of `C110_gg20_at_rest` hold for client 2. -/
theorem toy_open_room : ∃ (rnd : ℕ → KeygenRandomness) (start : ℕ → Keygen.State) (keys : List LocalKey)
    (key : LocalKey) (k : ℕ) (r : Room Keygen.State Keygen.M LocalKey Keygen.ProceedError),
    (∀ k < 3, Keygen.HonestRandomness 1 (rnd k)) ∧
    (∀ i, 1 ≤ i → i ≤ 3 → ∃ r, Keygen.new (rnd (i - 1)) i 1 3 = .ok (start i, r)) ∧
    Keygen.run 1 3 rnd = .ok keys ∧ keys[2 - 1]? = some key ∧ (keygenRoom 3 rnd start).Steps k r ∧
    ¬ ∃ r', (keygenRoom 3 rnd start).Step r r' := by
  have hex := fun k : ℕ => honestRandomness_exists 1 ((k + 2 : ℕ) : ZMod 31) [(7 : ZMod 31)] rfl
  choose rnd hon _ _ using hex
  have hn : ∀ i, ∃ s, 1 ≤ i → i ≤ 3 → Keygen.new (rnd (i - 1)) i 1 3 = .ok (s, .ok ()) := by
    intro i
    by_cases h : 1 ≤ i ∧ i ≤ 3
    · obtain ⟨s, hs⟩ := (C19_new_accepts (rnd (i - 1)) i 1 3).2 ⟨by omega, by omega, h⟩
      exact ⟨s, fun _ _ => hs⟩
    · obtain ⟨s, -⟩ := (C19_new_accepts (rnd 0) 1 1 3).2 (by omega)
      exact ⟨s, fun h1 h2 => absurd ⟨h1, h2⟩ h⟩
  choose start hstart using hn
  have hnew : ∀ i, 1 ≤ i → i ≤ 3 → ∃ r, Keygen.new (rnd (i - 1)) i 1 3 = .ok (start i, r) :=
    fun i h1 h2 => ⟨_, hstart i h1 h2⟩
  have hrun := Keygen.run_eq (t := 1) (n := 3) (by decide) (fun k _ => hon k)
  obtain ⟨k, r, -, h1, h2⟩ := (C94_keygen (fun k _ => hon k) hnew hrun).rests .init
  exact ⟨rnd, start, _, Keygen.rKey 1 3 rnd 1, k, r, fun k _ => hon k, hnew, hrun, rfl, h1, h2⟩

/-- Client 2 has returned a key, and the room tells its private part. -/
example : ∃ (rnd : ℕ → KeygenRandomness) (start : ℕ → Keygen.State) (key : LocalKey) (k : ℕ)
    (r : Room Keygen.State Keygen.M LocalKey Keygen.ProceedError), (keygenRoom 3 rnd start).Steps k r ∧
    (r.client 2).run.result = some (.ok key) ∧ key.public_key = keyFromLog 3 r.log • (G : Pt) := by
  obtain ⟨rnd, start, keys, key, k, r, hon, hnew, hrun, hkey, h1, h2⟩ := toy_open_room
  exact ⟨rnd, start, key, k, r, h1, C110_gg20_at_rest hon (by decide) (by decide) hnew hrun h1 h2
    (by decide) hkey⟩

/-- Somebody played the parties 1 and 3 for client 2, before the real ones posted anything. -/
example : ∃ (rnd : ℕ → KeygenRandomness) (s : Keygen.State) (key : LocalKey)
    (ms : List (Msg Keygen.M)), (∀ m ∈ ms, m.sender ≠ 2) ∧
    ∀ later, (Async.run (Keygen.machine (rnd 1)) keygenCritical s (incoming 2 (ms ++ later))).result =
      some (.ok key) := by
  obtain ⟨rnd, start, keys, key, k, r, hon, hnew, hrun, hkey, h1, h2⟩ := toy_open_room
  obtain ⟨first, last, -, hs, h⟩ := C109_gg20_impersonation (t := 1) (n := 3) (i := 2) (by decide) (by decide)
  obtain ⟨σ, -, h⟩ := h rnd start keys key hon hnew hrun hkey
  exact ⟨rnd, start 2, key, _, hs rnd σ, h⟩

/-- Party 1 posted "true", somebody else "false". -/
example : ∃ outs, (Demo.Manager.Mgr.run toyJson ⟨2, 1⟩ ⟨Demo.Manager.Table.init toyJson "k" "s", []⟩
    [.set (Slot.broadcast 1 "round1" "k").key "true", .set (Slot.broadcast 1 "round1" "k").key "false",
      .get (Slot.broadcast 1 "round1" "k").key]).2 =
      outs ++ [.value (Slot.broadcast 1 "round1" "k").key (some "false")] :=
  C109_gg18_overwritten toyJson ⟨2, 1⟩ "k" "s" (.broadcast 1 "round1" "k") "false"
    [.set (Slot.broadcast 1 "round1" "k").key "true"] [] (by simp)

end
end Verif.Props
