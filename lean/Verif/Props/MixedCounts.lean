import Verif.Spec.MixedCounts
import Verif.Spec.Hiding
import Verif.Lemmas.Hiding
import Verif.Lemmas.KeygenSent
import Verif.Lemmas.KeygenEquiv
import Verif.Props.KeygenSM
import Verif.Props.Managers
import Verif.Props.Network
import Verif.Props.GG18Malicious

/-!
# C131: parties that were started for different numbers of parties notice it
-/

namespace Verif.Props

open EC Crypto Spec GG20 GG20.Keygen

section
variable [Crypto]

variable {N : ℕ} {t n : ℕ → ℕ} {rnd : ℕ → KeygenRandomness} {s : ℕ → Keygen.State} {ops : ℕ → List (Op M)}

/-- What a party has accepted in round 3 from party `k` is what party `k` deals. -/
theorem mixed_accepted (h : MixedKeygens N t n rnd s ops) {p k : ℕ} (hp : 1 ≤ p) (hpN : p ≤ N) (hk : 1 ≤ k)
    (hkN : k ≤ N) (hne : k ≠ p) {b : Vss × Sc}
    (ha : ⟨k, some p, .Round3 b⟩ ∈ ((machine (rnd p)).run (s p) (ops p)).accepted) :
    p ≤ n k ∧ b = ownDeal (rnd k) (t k) (n k) (p - 1) := by
  obtain ⟨r, hr⟩ := h.new k hk hkN
  obtain ⟨-, a, -, b⟩ := sent_round3 hr (ops k) (h.genuine p k hp hpN hk hkN hne _ ha rfl)
  exact ⟨a, b⟩

/-- What a party has accepted in round 4 from party `p` is about the sum of the shares for `p` of the parties that `p`
knows of. -/
theorem mixed_proof (h : MixedKeygens N t n rnd s ops) {v p : ℕ} (hv : 1 ≤ v) (hvN : v ≤ N) (hp : 1 ≤ p)
    (hpN : p ≤ N) (hne : p ≠ v) {b : DLogProof}
    (ha : ⟨p, none, .Round4 b⟩ ∈ ((machine (rnd v)).run (s v) (ops v)).accepted) :
    (∀ k, 1 ≤ k → k ≤ n p → k ≠ p → p ≤ n k) ∧
    b.pk = (∑ k ∈ Finset.Icc 1 (n p), shareFor (rnd k) p) • (G : Pt) := by
  obtain ⟨r, hr⟩ := h.new p hp hpN
  have hc := h.count p hp hpN
  obtain ⟨b3, h3, rfl⟩ := sent_round4 hr (ops p) (h.genuine v p hv hvN hp hpN hne _ ha rfl)
  have h3' : ∀ k, 1 ≤ k → k ≤ n p → k ≠ p → p ≤ n k ∧ b3 k = ownDeal (rnd k) (t k) (n k) (p - 1) :=
    fun k k1 k2 k3 => mixed_accepted h hp hpN k1 (by omega) k3 (h3 k (mem_peers.2 ⟨k1, k2, k3⟩))
  refine ⟨fun k k1 k2 k3 => (h3' k k1 k2 k3).1, ?_⟩
  rw [ownPf, DLogProof.prove_pk, dealt, assemble, List.map_map, sum_map_range_eq, sum_Icc_one]
  congr 1
  refine Finset.sum_congr rfl fun k hk => ?_
  have hk := Finset.mem_range.1 hk
  simp only [Function.comp_apply, shareFor]
  split
  next e => subst e; simp only [ownDeal, Nat.sub_add_cancel hp]
  next e => rw [(h3' (k + 1) (by omega) (by omega) (by omega)).2]; simp only [ownDeal, Nat.sub_add_cancel hp]

/-- **C131** (no party is left out). A party gets a key only if each of the parties that it takes part with was started
for at least as many parties.  So of parties that were started for different numbers, those started for the largest
one get no key. -/
theorem C131_largest (h : MixedKeygens N t n rnd s ops) {v k : ℕ} (hv : 1 ≤ v) (hvN : v ≤ N)
    (hkey : GotKey rnd s ops v) (hk : 1 ≤ k) (hkn : k ≤ n v) : n v ≤ n k := by
  obtain ⟨key, ho⟩ := hkey
  obtain ⟨r, hr⟩ := h.new v hv hvN
  have hc := h.count v hv hvN
  obtain ⟨-, -, -, hvn, -⟩ := new_ok hr
  obtain ⟨b1, b2, b3, b4, hb, -⟩ := C22_output_correct hr (ops v) ho
  by_cases e : k = n v
  · subst e
    obtain ⟨r', hr'⟩ := h.new (n v) hk hc
    exact (new_ok hr').2.2.2.1
  by_cases ev : n v = v
  · rw [ev]
    exact (mixed_accepted h hv hvN hk (by omega) (by omega)
      (hb k (mem_peers.2 ⟨hk, hkn, by omega⟩)).2.2.1).1
  · have hl : 1 ≤ n v := by omega
    obtain ⟨r', hr'⟩ := h.new (n v) hl hc
    have hln := (new_ok hr').2.2.2.1
    exact (mixed_proof h hv hvN hl hc ev (hb (n v) (mem_peers.2 ⟨hl, le_rfl, ev⟩)).2.2.2).1 k hk (by omega) e

/-- **C131** (the shares of the others cancel). If a party gets a key although another one, `p`, was started for more
parties, the shares for `p` that the parties it did not know of deal add up to zero. -/
theorem C131_shares (h : MixedKeygens N t n rnd s ops) {v p : ℕ} (hv : 1 ≤ v) (hvN : v ≤ N)
    (hkey : GotKey rnd s ops v) (hp : 1 ≤ p) (hpn : p ≤ n v) :
    ∑ k ∈ Finset.Ioc (n v) (n p), shareFor (rnd k) p = 0 := by
  by_cases hne : p = v
  · subst hne
    simp
  have hle := C131_largest h hv hvN hkey hp hpn
  obtain ⟨key, ho⟩ := hkey
  obtain ⟨r, hr⟩ := h.new v hv hvN
  have hc := h.count v hv hvN
  obtain ⟨-, -, -, hvn, -, -, ht⟩ := new_ok hr
  obtain ⟨b1, b2, b3, b4, hb, hl⟩ := C22_output_correct hr (ops v) ho
  obtain ⟨w, rfl⟩ : ∃ w, v = w + 1 := ⟨v - 1, by omega⟩
  obtain ⟨bcs, ys, all, pfs, hs⟩ := keygenLine_seen ht (by omega) (congrArg Prod.snd hl)
  obtain ⟨pf, g1, -, g2⟩ := hs.proofs (p - 1) (by omega)
  rw [hs.pfs_eq, assemble_get _ _ (by omega), if_neg (by omega), Nat.sub_add_cancel hp, Option.some.injEq] at g1
  subst g1
  rw [(mixed_proof h hv hvN hp (by omega) hne (hb p (mem_peers.2 ⟨hp, hpn, hne⟩)).2.2.2).2] at g2
  have e : ((all.map Prod.fst).map (fun v => feldmanEval v.commitments ((p - 1 + 1 : ℕ) : Sc))).sum =
      (∑ k ∈ Finset.Icc 1 (n (w + 1)), shareFor (rnd k) p) • (G : Pt) := by
    rw [hs.all_eq, assemble, List.map_map, List.map_map, sum_map_range_eq, sum_Icc_one, Finset.sum_smul]
    refine Finset.sum_congr rfl fun k hk => ?_
    have hk := Finset.mem_range.1 hk
    simp only [Function.comp_apply, Nat.sub_add_cancel hp, shareFor]
    split
    next e => subst e; rw [feldmanEval_map]
    next e =>
      rw [(mixed_accepted h hv hvN (k := k + 1) (by omega) (by omega) (by omega)
        (hb (k + 1) (mem_peers.2 ⟨by omega, by omega, by omega⟩)).2.2.1).2]
      simp only [ownDeal, feldmanEval_map]
  rw [e] at g2
  have h3 := smul_G_eq_zero.1 (show (∑ k ∈ Finset.Icc 1 (n p), shareFor (rnd k) p -
      ∑ k ∈ Finset.Icc 1 (n (w + 1)), shareFor (rnd k) p) • (G : Pt) = 0 by rw [sub_smul, g2, sub_self])
  have hd : Finset.Icc 1 (n p) = Finset.Icc 1 (n (w + 1)) ∪ Finset.Ioc (n (w + 1)) (n p) := by
    ext x
    simp only [Finset.mem_Icc, Finset.mem_union, Finset.mem_Ioc]
    omega
  rw [hd, Finset.sum_union (by
    rw [Finset.disjoint_left]
    intro x hx hx'
    have := Finset.mem_Icc.1 hx
    have := Finset.mem_Ioc.1 hx'
    omega), add_sub_cancel_left] at h3
  exact h3

/-- **C131** (chance). Party `v` takes part with a party `p` that was started for more parties, and `k` is one of the
parties that `v` does not know of and `p` does.  Over the secret `u` that `k` draws, the chance that `v` gets a key,
in any schedule, is at most `1 / (q - 1)`. -/
theorem C131_chance {v p k : ℕ} (hv : 1 ≤ v) (hvN : v ≤ N) (hp : 1 ≤ p) (hpn : p ≤ n v) (hk : n v < k)
    (hkn : k ≤ n p) :
    (chance fun u : {z : Sc // z ≠ 0} =>
      ∃ s ops, MixedKeygens N t n (Function.update rnd k { rnd k with u := u }) s ops ∧
        GotKey (Function.update rnd k { rnd k with u := u }) s ops v) ≤ 1 / ((q : ℚ) - 1) := by
  have hq := q_prime.out.one_lt
  have hsc : (Nat.card {z : Sc // z ≠ 0} : ℚ) = (q : ℚ) - 1 := by
    have : Fintype Sc := Fintype.ofFinite _
    classical
    rw [Nat.card_eq_fintype_card, Fintype.card_subtype_compl, Fintype.card_subtype_eq, ← Nat.card_eq_fintype_card,
      show Nat.card Sc = q from Nat.card_zmod q, Nat.cast_sub hq.le, Nat.cast_one]
  set c : Sc := -((p : Sc) * evalPoly (rnd k).coefs (p : Sc) + ∑ j ∈ (Finset.Ioc (n v) (n p)).erase k,
    shareFor (rnd j) p) with hc
  have := chance_mem (Ω := {z : Sc // z ≠ 0}) (f := Subtype.val) Subtype.val_injective [c] (n := 1) le_rfl
  rw [hsc, Nat.cast_one] at this
  refine le_trans ?_ this
  unfold chance
  refine div_le_div_of_nonneg_right (Nat.cast_le.2 ?_) (Nat.cast_nonneg _)
  refine Nat.card_mono (Set.toFinite {u : {z : Sc // z ≠ 0} | u.1 ∈ [c]}) ?_
  rintro u ⟨s, ops, h, hkey⟩
  have h0 := C131_shares h hv hvN hkey hp hpn
  rw [← Finset.add_sum_erase _ _ (Finset.mem_Ioc.2 ⟨hk, hkn⟩), Function.update_self, Finset.sum_congr rfl
    (fun j hj => by rw [Function.update_of_ne (Finset.ne_of_mem_erase hj)])] at h0
  refine List.mem_singleton.2 ?_
  rw [hc, eq_neg_iff_add_eq_zero]
  refine Eq.trans ?_ h0
  simp only [shareFor, evalPoly_cons]
  ring

/-! ### The hypotheses above are met -/

/-- The calls of a driver that delivers what the others say and picks the key. -/
def plainCalls (i n : ℕ) (b1 : ℕ → KeyGenBroadcastMessage1) (b2 : ℕ → KeyGenDecommitMessage1) (b3 : ℕ → Vss × Sc)
    (b4 : ℕ → DLogProof) : List (Op M) :=
  (peers i n).flatMap fun p => [.deliver ⟨p, none, .Round1 (b1 p)⟩, .deliver ⟨p, none, .Round2 (b2 p)⟩,
    .deliver ⟨p, some i, .Round3 (b3 p)⟩, .deliver ⟨p, none, .Round4 (b4 p)⟩]

theorem plainCalls_schedule (i n : ℕ) (b1 : ℕ → KeyGenBroadcastMessage1) (b2 : ℕ → KeyGenDecommitMessage1)
    (b3 : ℕ → Vss × Sc) (b4 : ℕ → DLogProof) : KeygenSchedule i n b1 b2 b3 b4 (plainCalls i n b1 b2 b3 b4) where
  noPick := by simp [plainCalls]
  genuine := by
    intro m hm _
    simp only [plainCalls, List.mem_flatMap, List.mem_cons, Op.deliver.injEq, List.not_mem_nil, or_false] at hm
    obtain ⟨p, -, rfl | rfl | rfl | rfl⟩ := hm <;> exact rfl
  complete := by
    intro p hp
    simp only [plainCalls, List.mem_flatMap]
    exact ⟨⟨p, hp, by simp⟩, ⟨p, hp, by simp⟩, ⟨p, hp, by simp⟩, ⟨p, hp, by simp⟩⟩

theorem picked_key {rnd : KeygenRandomness} {s : Keygen.State} {ops : List (Op M)} {key : LocalKey}
    (h1 : ((machine rnd).run s ops).outputs = []) (h2 : ((machine rnd).run s ops).panicked = false)
    (h4 : (machine rnd).is_finished ((machine rnd).run s ops).st = true)
    (h5 : ((machine rnd).pick_output ((machine rnd).run s ops).st).2 = some (.ok key)) :
    ((machine rnd).run s (ops ++ [.pick])).outputs = [key] ∧
    (machine rnd).sent ((machine rnd).run s (ops ++ [.pick])) = (machine rnd).sent ((machine rnd).run s ops) := by
  simp only [StateMachine.run, List.foldl_append] at *
  generalize List.foldl _ _ ops = h at *
  obtain ⟨st, dr, ac, er, ou, pa⟩ := h
  obtain ⟨rd, m1, m2, m3, m4, qu, pi, pn⟩ := st
  dsimp only at h1 h2 h4 h5
  subst h1 h2
  cases rd with
  | Final k =>
    have : k = key := by
      simpa [machine, pick_output] using h5
    subst this
    exact ⟨rfl, rfl⟩
  | _ => exact absurd h4 (by simp [machine, is_finished])

/-- The calls of the driver of party `k` when all parties draw what `rnd` says: it delivers what the others send and
picks the key. -/
def worldCalls (T N : ℕ) (rnd : ℕ → KeygenRandomness) (k : ℕ) : List (Op M) :=
  (plainCalls k N (fun p => rBc (fun k => rnd (k + 1)) (p - 1)) (fun p => rDec (fun k => rnd (k + 1)) (p - 1))
    (fun p => (rVss T N (fun k => rnd (k + 1)) (p - 1), rShare (fun k => rnd (k + 1)) (p - 1) (k - 1)))
    (fun p => rPf N (fun k => rnd (k + 1)) (p - 1)) ++ [.proceed]) ++ [.pick]

theorem worldCalls_deliver {T N : ℕ} {k : ℕ} {m : Msg M} (h : .deliver m ∈ worldCalls T N rnd k) :
    ∃ p ∈ peers k N, m = ⟨p, none, .Round1 (rBc (fun k => rnd (k + 1)) (p - 1))⟩ ∨
      m = ⟨p, none, .Round2 (rDec (fun k => rnd (k + 1)) (p - 1))⟩ ∨
      m = ⟨p, some k, .Round3 (rVss T N (fun k => rnd (k + 1)) (p - 1),
        rShare (fun k => rnd (k + 1)) (p - 1) (k - 1))⟩ ∨
      m = ⟨p, none, .Round4 (rPf N (fun k => rnd (k + 1)) (p - 1))⟩ := by
  simpa only [worldCalls, plainCalls, List.append_assoc, List.mem_append, List.mem_flatMap, List.mem_cons,
    Op.deliver.injEq, List.not_mem_nil, or_false, reduceCtorEq] using h

/-- What party `k` sends then, and that it gets its key. -/
theorem world_party {N T : ℕ} (hTN : T < N) (hon : ∀ k, 1 ≤ k → k ≤ N → HonestRandomness T (rnd k)) {k : ℕ}
    (h1 : 1 ≤ k) (h2 : k ≤ N) {s : Keygen.State} (hs : Keygen.new (rnd k) k T N = .ok (s, .ok ())) :
    ((machine (rnd k)).run s (worldCalls T N rnd k)).outputs ≠ [] ∧
    ⟨k, none, .Round1 (rBc (fun k => rnd (k + 1)) (k - 1))⟩ ∈
      (machine (rnd k)).sent ((machine (rnd k)).run s (worldCalls T N rnd k)) ∧
    ⟨k, none, .Round2 (rDec (fun k => rnd (k + 1)) (k - 1))⟩ ∈
      (machine (rnd k)).sent ((machine (rnd k)).run s (worldCalls T N rnd k)) ∧
    (∀ p, 1 ≤ p → p ≤ N → p ≠ k → ⟨k, some p, .Round3 (rVss T N (fun k => rnd (k + 1)) (k - 1),
        rShare (fun k => rnd (k + 1)) (k - 1) (p - 1))⟩ ∈
      (machine (rnd k)).sent ((machine (rnd k)).run s (worldCalls T N rnd k))) ∧
    ⟨k, none, .Round4 (rPf N (fun k => rnd (k + 1)) (k - 1))⟩ ∈
      (machine (rnd k)).sent ((machine (rnd k)).run s (worldCalls T N rnd k)) := by
  unfold worldCalls
  let R : ℕ → KeygenRandomness := fun k => rnd (k + 1)
  have hR : ∀ k < N, HonestRandomness T (R k) := fun k hk => hon (k + 1) (by omega) (by omega)
  obtain ⟨j, rfl⟩ : ∃ j, k = j + 1 := ⟨k - 1, by omega⟩
  have hline := dealers_line (t := T) (n := N) hTN (rnd := R) (fun k hk => ⟨T, hR k hk⟩)
    (fun k hk => by rw [(hR k hk).coefs_len, (hR 0 (by omega)).coefs_len]) (k := j) (by omega)
  have ho := C20_any_schedule hs (plainCalls_schedule (j + 1) N (fun p => rBc R (p - 1))
    (fun p => rDec R (p - 1)) (fun p => (rVss T N R (p - 1), rShare R (p - 1) j)) (fun p => rPf N R (p - 1)))
  rw [show rnd (j + 1) = R j from rfl, hline] at ho
  obtain ⟨o0, o1, -, o2, o3, o4, o5⟩ := ho
  obtain ⟨p1, p2⟩ := picked_key o1 o2 o4 o5
  have o := p2.trans o0
  refine ⟨(by rw [show rnd (j + 1) = R j from rfl]; exact p1 ▸ List.cons_ne_nil _ _), ?_⟩
  rw [show rnd (j + 1) = R j from rfl]
  simp only [Nat.add_sub_cancel]
  refine ⟨o ▸ List.mem_append_left _ (List.mem_append_left _ List.mem_cons_self),
    o ▸ List.mem_append_left _ (List.mem_append_left _ (List.mem_cons_of_mem _ List.mem_cons_self)),
    fun p p1 p2 p3 => o ▸ ?_, o ▸ List.mem_append_right _ List.mem_cons_self⟩
  refine List.mem_append_left _ (List.mem_append_right _ (List.mem_map.2
    ⟨⟨j + 1, some p, (rVss T N R j, rShare R j (p - 1))⟩, ?_, rfl⟩))
  refine List.mem_map.2 ⟨p - 1, ?_, ?_⟩
  · simp only [List.mem_filter, List.mem_range, decide_eq_true_eq]
    omega
  · simp only [Nat.sub_add_cancel p1]

theorem world_new {N T : ℕ} (hN : 2 ≤ N) (hT : 1 ≤ T) (hTN : T < N) (rnd : ℕ → KeygenRandomness) :
    ∃ s : ℕ → Keygen.State, ∀ k, 1 ≤ k → k ≤ N → Keygen.new (rnd k) k T N = .ok (s k, .ok ()) := by
  have hnew : ∀ k, ∃ s, 1 ≤ k → k ≤ N → Keygen.new (rnd k) k T N = .ok (s, .ok ()) := fun k => by
    by_cases hk : 1 ≤ k ∧ k ≤ N
    · obtain ⟨s, hs⟩ := (C19_new_accepts (rnd k) k T N).2 ⟨hN, ⟨hT, hTN⟩, hk⟩
      exact ⟨s, fun _ _ => hs⟩
    · obtain ⟨s, -⟩ := (C19_new_accepts (rnd k) 1 T N).2 ⟨hN, ⟨hT, hTN⟩, by omega, by omega⟩
      exact ⟨s, fun h1 h2 => absurd ⟨h1, h2⟩ hk⟩
  choose s hs using hnew
  exact ⟨s, hs⟩

/-- **C131** (converse). Parties that were started for the same number of parties, and with the same threshold, can all
get a key. -/
theorem C131_same_number {N T : ℕ} (hN : 2 ≤ N) (hT : 1 ≤ T) (hTN : T < N)
    (hon : ∀ k, 1 ≤ k → k ≤ N → HonestRandomness T (rnd k)) :
    ∃ s ops, MixedKeygens N (fun _ => T) (fun _ => N) rnd s ops ∧ ∀ k, 1 ≤ k → k ≤ N → GotKey rnd s ops k := by
  obtain ⟨s, hs⟩ := world_new hN hT hTN rnd
  refine ⟨s, worldCalls T N rnd, ⟨fun k h1 h2 => ⟨_, hs k h1 h2⟩, fun _ _ _ => le_rfl, ?_⟩, ?_⟩
  · intro k p k1 k2 p1 p2 hne m hm hsend
    obtain ⟨-, w1, w2, w3, w4⟩ := world_party hTN hon p1 p2 (hs p p1 p2)
    obtain ⟨j, hj, rfl | rfl | rfl | rfl⟩ := worldCalls_deliver (accepted_delivered _ _ _ _ hm) <;>
      obtain rfl : j = p := hsend
    · exact w1
    · exact w2
    · exact w3 k k1 k2 (Ne.symm hne)
    · exact w4
  · intro k h1 h2
    exact List.exists_mem_of_ne_nil _ (world_party hTN hon h1 h2 (hs k h1 h2)).1

end

/-! ### Examples: the 31-point group -/

section
attribute [local instance] Toy.crypto

/-- Three parties with the same number all get a key. -/
example : ∃ (rnd : ℕ → KeygenRandomness) (s : ℕ → Keygen.State) (ops : ℕ → List (Op M)),
    MixedKeygens 3 (fun _ => 1) (fun _ => 3) rnd s ops ∧ GotKey rnd s ops 2 := by
  obtain ⟨r, hr, -, -⟩ := honestRandomness_exists 1 (5 : ZMod 31) [(7 : ZMod 31)] rfl
  obtain ⟨s, ops, h, hk⟩ := C131_same_number (N := 3) (T := 1) (rnd := fun _ => r) (by decide) (by decide) (by decide)
    (fun _ _ _ => hr)
  exact ⟨_, s, ops, h, hk 2 (by decide) (by decide)⟩

/-- Party 1 was started for two parties, the others for three: party 2 and party 3 get no key, and party 1 only if
party 3's share for party 2 is zero. -/
example (rnd : ℕ → KeygenRandomness) (s : ℕ → Keygen.State) (ops : ℕ → List (Op M))
    (h : MixedKeygens 3 (fun _ => 1) (fun k => if k = 1 then 2 else 3) rnd s ops) :
    ¬ GotKey rnd s ops 2 ∧ ¬ GotKey rnd s ops 3 ∧ (GotKey rnd s ops 1 → shareFor (rnd 3) 2 = 0) := by
  refine ⟨fun hk => ?_, fun hk => ?_, fun hk => ?_⟩
  · exact absurd (C131_largest h (v := 2) (k := 1) (by decide) (by decide) hk (by decide) (by decide)) (by decide)
  · exact absurd (C131_largest h (v := 3) (k := 1) (by decide) (by decide) hk (by decide) (by decide)) (by decide)
  · have := C131_shares h (v := 1) (p := 2) (by decide) (by decide) hk (by decide) (by decide)
    simpa [show Finset.Ioc 2 3 = {3} from rfl] using this

/-- Parties with such numbers exist, of which nobody has heard of another one yet. -/
example (rnd : ℕ → KeygenRandomness) : ∃ s ops,
    MixedKeygens 3 (fun _ => 1) (fun k => if k = 1 then 2 else 3) rnd s ops := by
  have hnew : ∀ k, ∃ s, 1 ≤ k → k ≤ 3 → Keygen.new (rnd k) k 1 (if k = 1 then 2 else 3) = .ok (s, .ok ()) := fun k => by
    by_cases hk : 1 ≤ k ∧ k ≤ 3
    · obtain ⟨s, hs⟩ := (C19_new_accepts (rnd k) k 1 (if k = 1 then 2 else 3)).2
        ⟨by split <;> omega, by split <;> omega, by omega, by split <;> omega⟩
      exact ⟨s, fun _ _ => hs⟩
    · obtain ⟨s, -⟩ := new_213 (rnd k)
      exact ⟨s, fun h1 h2 => absurd ⟨h1, h2⟩ hk⟩
  choose s hs using hnew
  exact ⟨s, fun _ => [.proceed], fun k h1 h2 => ⟨_, hs k h1 h2⟩, fun k _ _ => by split <;> omega,
    fun k p _ _ _ _ _ m hm => absurd (accepted_delivered _ _ _ _ hm) (by simp)⟩

/-- The chance is at most 1 in 30 there. -/
example (rnd : ℕ → KeygenRandomness) : (chance fun u : {z : ZMod 31 // z ≠ 0} =>
    ∃ s ops, MixedKeygens 3 (fun _ => 1) (fun k => if k = 1 then 2 else 3)
      (Function.update rnd 3 { rnd 3 with u := u }) s ops ∧
      GotKey (Function.update rnd 3 { rnd 3 with u := u }) s ops 1) ≤ 1 / 30 := by
  have := C131_chance (N := 3) (t := fun _ => 1) (n := fun k => if k = 1 then 2 else 3) (rnd := rnd) (v := 1) (p := 2)
    (k := 3) (by decide) (by decide) (by decide) (by decide) (by decide) (by decide)
  refine this.trans_eq ?_
  rw [show (EC.q : ℕ) = 31 from rfl]
  norm_num

end

end Verif.Props
