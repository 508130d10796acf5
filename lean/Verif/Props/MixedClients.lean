import Verif.Lemmas.GG18Malicious
import Verif.Lemmas.Message
import Verif.Props.GG18
import Verif.Spec.MixedClients

/-! # C131 for the GG18 demo clients -/

namespace Verif.Props

open EC Crypto Spec Spec.GG18

section

variable [Crypto] {A : Aead} {N : ℕ} {t n s : ℕ → ℕ} {rnd : ℕ → Demo.Keygen.Rand} {b : ℕ → Demo.Keygen.Posted A}

/-- Shares are posted for the parties that the client knows of only. -/
theorem round3_receivers {params : GG18.Parameters} {i : ℕ} {st2 : Demo.Keygen.St2} {ans} {st3 o3}
    (h : Demo.Keygen.round3 A params rnd i st2 ans = .ok (st3, o3)) :
    ∀ m ∈ o3, ∀ k, m.receiver = some k → k ≤ params.share_count := by
  unfold Demo.Keygen.round3 at h
  obtain ⟨dv, -, h⟩ := Res.bind_eq_ok.1 h
  obtain ⟨ek, -, h⟩ := Res.bind_eq_ok.1 h
  simp only at h
  split at h
  · cases h
  · obtain ⟨⟨v, sh, z⟩, hv, h⟩ := Res.bind_eq_ok.1 h
    obtain ⟨out, ho, h⟩ := Res.bind_eq_ok.1 h
    have h := Res.ok.inj h
    obtain ⟨h1, h2⟩ := Prod.mk.inj h
    subst h1 h2
    intro m hm k hk
    have := (Demo.Keygen.encShares_ok ho).1
    have h3 : some k ∈ out.map (·.receiver) := hk ▸ List.mem_map_of_mem hm
    rw [this] at h3
    simp only [List.mem_map, List.mem_filter, List.mem_range'_1] at h3
    obtain ⟨a, ⟨ha, -⟩, e⟩ := h3
    cases e
    omega

/-- A client that gets through round 3 is one of the parties it knows of: otherwise it has one commitment too
many. -/
theorem round3_known {params : GG18.Parameters} {i : ℕ} {st1 : Demo.Keygen.St1} {b1} {st2 o2} {ans} {st3 o3}
    (h2 : Demo.Keygen.round2 i st1 (Demo.poll i params.share_count b1) = .ok (st2, o2))
    (h : Demo.Keygen.round3 A params rnd i st2 ans = .ok (st3, o3)) : i ≤ params.share_count := by
  unfold Demo.Keygen.round2 at h2
  obtain ⟨_, ha, h2⟩ := Res.bind_eq_ok.1 h2
  have ha' : i - 1 ≤ (Demo.poll i params.share_count b1).length := by
    by_contra hc
    simp [Res.assert, hc] at ha
  obtain ⟨h2, -⟩ := Prod.mk.inj (Res.ok.inj h2)
  subst h2
  unfold Demo.Keygen.round3 at h
  obtain ⟨dv, -, h⟩ := Res.bind_eq_ok.1 h
  obtain ⟨ek, -, h⟩ := Res.bind_eq_ok.1 h
  simp only at h
  split at h
  · cases h
  · obtain ⟨⟨v, sh, z⟩, hv, h⟩ := Res.bind_eq_ok.1 h
    rw [Res.unwrap_eq_ok] at hv
    unfold GG18.Keys.phase1_verify_distribute at hv
    obtain ⟨-, -, hv⟩ := Res.bind_eq_ok.1 hv
    obtain ⟨_, hl, -⟩ := Res.bind_eq_ok.1 hv
    have hl' : ((Demo.poll i params.share_count b1).insertIdx (i - 1) st1.bc).length = params.share_count := by
      by_contra hc
      simp [Res.assert, hc] at hl
    rw [List.length_insertIdx_of_le_length ha'] at hl'
    by_contra hlt
    have : (Demo.poll i params.share_count b1).length = params.share_count := by
      unfold Demo.poll
      rw [List.length_map, List.filter_eq_self.2, List.length_range']
      intro k hk
      simp only [List.mem_range'_1] at hk
      simp only [decide_eq_true_eq]
      omega
    omega

/-- What follows from the posts of a client. -/
theorem keygenPosts_facts {t n i s : ℕ} {b : Demo.Keygen.Posted A} :
    (∀ m ∈ (keygenPosts A t n rnd i b s).2.2.1, ∀ k, m.receiver = some k → k ≤ n) ∧
    ((keygenPosts A t n rnd i b s).2.2.2.1 ≠ [] → 3 ≤ s ∧ i ≤ n) ∧
    ((keygenPosts A t n rnd i b s).2.2.2.2 ≠ [] → 4 ≤ s ∧ i ≤ n) := by
  unfold keygenPosts
  simp only
  split
  · simp
  split
  · simp
  · simp
  rename_i h2
  split
  · simp
  split
  · simp
  · simp
  rename_i h3
  have f3 := round3_receivers h3
  have f4 : i ≤ n := round3_known (params := ⟨t, n⟩) h2 h3
  split
  · exact ⟨f3, by simp, by simp⟩
  split
  · exact ⟨f3, by simp, by simp⟩
  · exact ⟨f3, by simp, by simp⟩
  split
  · exact ⟨f3, fun _ => ⟨by omega, f4⟩, by simp⟩
  split
  · exact ⟨f3, fun _ => ⟨by omega, f4⟩, by simp⟩
  · exact ⟨f3, fun _ => ⟨by omega, f4⟩, by simp⟩
  · exact ⟨f3, fun _ => ⟨by omega, f4⟩, fun _ => ⟨by omega, f4⟩⟩

/-- C131: a GG18 demo client writes a key file only if every client it takes part with was started for the same
number of parties. -/
theorem C131_gg18 (h : MixedClients A N t n rnd b s) {v : ℕ} (hv : 1 ≤ v) (hvN : v ≤ N)
    (hf : GotFile A t n rnd b s v) : v ≤ n v ∧ ∀ p, 1 ≤ p → p ≤ n v → n p = n v := by
  obtain ⟨h5, file, hc⟩ := hf
  have pe : ∀ {i m p : ℕ}, p ∈ peers i m ↔ (1 ≤ p ∧ p ≤ m) ∧ p ≠ i := by
    intro i m p
    simp only [peers, List.mem_filter, List.mem_range'_1, decide_eq_true_eq]
    omega
  have read3 : ∀ i p, 1 ≤ i → i ≤ N → 3 ≤ s i → 1 ≤ p → p ≤ n i → p ≠ i → i ≤ n p := by
    intro i p hi hiN hs hp hpn hne
    exact keygenPosts_facts.1 _ ((h.genuine i hi hiN p (pe.2 ⟨⟨hp, hpn⟩, hne⟩)).2.2.1 hs) i rfl
  have read4 : ∀ i p, 1 ≤ i → i ≤ N → 4 ≤ s i → 1 ≤ p → p ≤ n i → p ≠ i → 3 ≤ s p ∧ p ≤ n p := by
    intro i p hi hiN hs hp hpn hne
    exact keygenPosts_facts.2.1
      (List.ne_nil_of_mem ((h.genuine i hi hiN p (pe.2 ⟨⟨hp, hpn⟩, hne⟩)).2.2.2.1 hs))
  have read5 : ∀ i p, 1 ≤ i → i ≤ N → 5 ≤ s i → 1 ≤ p → p ≤ n i → p ≠ i → 4 ≤ s p ∧ p ≤ n p := by
    intro i p hi hiN hs hp hpn hne
    exact keygenPosts_facts.2.2
      (List.ne_nil_of_mem ((h.genuine i hi hiN p (pe.2 ⟨⟨hp, hpn⟩, hne⟩)).2.2.2.2 hs))
  have own : v ≤ n v := by
    unfold Demo.Keygen.client at hc
    simp only at hc
    obtain ⟨⟨st2, o2⟩, h2, hc⟩ := Res.bind_eq_ok.1 hc
    obtain ⟨⟨st3, o3⟩, h3, -⟩ := Res.bind_eq_ok.1 hc
    exact round3_known (params := ⟨t v, n v⟩) h2 h3
  refine ⟨own, fun p hp hpn => ?_⟩
  have hvn := h.count v hv hvN
  by_cases hpv : p = v
  · rw [hpv]
  obtain ⟨hp4, hpp⟩ := read5 v p hv hvN h5 hp hpn hpv
  have hpc := h.count p hp (by omega)
  refine le_antisymm ?_ ?_
  · by_contra hlt
    have hm := read4 p (n p) hp (by omega) hp4 (by omega) le_rfl (by omega)
    have := read3 (n p) v (by omega) (by omega) hm.1 hv (by omega) (by omega)
    omega
  · by_cases hm : n v = p
    · omega
    by_cases hm' : n v = v
    · rw [hm']
      exact read3 v p hv hvN (by omega) hp hpn hpv
    · obtain ⟨hm4, hmm⟩ := read5 v (n v) hv hvN h5 (by omega) le_rfl hm'
      exact read3 (n v) p (by omega) hvn (by omega) hp (by omega) (by omega)

/-- What a client that finishes has posted. -/
theorem keygenPosts_eq {t n i s : ℕ} {b : Demo.Keygen.Posted A} {o1 o2 o3 o4 o5 file} (hs : 4 ≤ s)
    (h : KeygenRun A t n rnd i b o1 o2 o3 o4 o5 file) : keygenPosts A t n rnd i b s = (o1, o2, o3, o4, o5) := by
  obtain ⟨st1, st2, st3, st4, st5, e1, e2, e3, e4, e5, -⟩ := h
  unfold keygenPosts
  simp only [e1, e2, e3, e4, e5, show ¬ s < 1 by omega, show ¬ s < 2 by omega, show ¬ s < 3 by omega,
    show ¬ s < 4 by omega, if_false]

/-- C131: started for the same number of parties and with the same threshold, all GG18 demo clients can write a key
file. -/
theorem C131_gg18_same_number (A : Aead) {t n : ℕ} (ht : t < n) (rnd : ℕ → Demo.Keygen.Rand)
    (hon : ∀ i, 1 ≤ i → i ≤ n → HonestKeygenRand t (rnd i)) :
    ∃ b, MixedClients A n (fun _ => t) (fun _ => n) rnd b (fun _ => 5) ∧
      ∀ i, 1 ≤ i → i ≤ n → GotFile A (fun _ => t) (fun _ => n) rnd b (fun _ => 5) i := by
  have hon' : ∀ k < n, ∃ t', HonestKeygenRand t' (rnd (k + 1)) :=
    fun k hk => ⟨t, hon _ (by omega) (by omega)⟩
  have pv : ∀ (k : ℕ), ∀ j ∈ peers k n, (Demo.Keygen.kPf n rnd (j - 1)).verify = true := by
    intro k j _
    exact DLogProof.verify_prove _ _
  have run : ∀ k < n, _ := fun k hk =>
    Demo.Keygen.run_in_world A (k := k) ht hon' hk (rnd0 := rnd) rfl (pv (k + 1))
  refine ⟨fun i => ⟨fun j => Demo.Keygen.kBc rnd (j - 1), fun j => Demo.Keygen.kDec rnd (j - 1),
    fun j => Demo.Keygen.kCt A rnd (j - 1) (i - 1), fun j => Demo.Keygen.kVss t n rnd (j - 1),
    fun j => Demo.Keygen.kPf n rnd (j - 1)⟩, ⟨fun i _ _ => le_rfl, ?_⟩, ?_⟩
  · intro i hi hin p hp
    obtain ⟨l, hl, hne, rfl⟩ : ∃ l < n, l + 1 ≠ i ∧ p = l + 1 := by
      simp only [peers, List.mem_filter, List.mem_range'_1, decide_eq_true_eq] at hp
      exact ⟨p - 1, by omega, by omega, by omega⟩
    simp only [Nat.add_sub_cancel]
    rw [keygenPosts_eq (by decide) (run l hl)]
    refine ⟨fun _ => by simp, fun _ => by simp, fun _ => ?_, fun _ => by simp, fun _ => by simp⟩
    refine List.mem_map.2 ⟨i - 1, GG20.Sign.mem_others.2 ⟨by omega, by omega⟩, ?_⟩
    rw [Nat.sub_add_cancel hi]
  · intro i hi hin
    refine ⟨le_rfl, Demo.Keygen.kFile t n rnd (i - 1), ?_⟩
    obtain ⟨k, rfl⟩ : ∃ k, i = k + 1 := ⟨i - 1, by omega⟩
    exact Demo.Keygen.keygenRun_client (run k (by omega))

end

section examples

attribute [local instance] Toy.crypto

/-- Three clients that were started for three parties meet the hypotheses of `C131_gg18`. -/
example : ∃ b, MixedClients toyAead 3 (fun _ => 1) (fun _ => 3) toyKg b (fun _ => 5) ∧
    ∀ i, 1 ≤ i → i ≤ 3 → GotFile toyAead (fun _ => 1) (fun _ => 3) toyKg b (fun _ => 5) i :=
  C131_gg18_same_number toyAead (by decide) toyKg (fun _ h1 h2 => toyKg_honest h1 h2)

end examples

end Verif.Props
