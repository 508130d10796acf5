import Verif.Spec.KeygenAgreement
import Verif.Lemmas.KeygenRun
import Verif.Lemmas.KeygenNet

/-! # Key generation in which party 1 tells every party something else -/

namespace Verif.GG20.Keygen

open EC Crypto Spec

variable [Crypto]

/-- All of party `k + 1`'s run, when every party acts according to `rnd`, possibly with a polynomial of
too high a degree. -/
theorem dealers_line {t n : ℕ} (ht : t < n) {rnd : ℕ → KeygenRandomness}
    (hon : ∀ k < n, ∃ t', HonestRandomness t' (rnd k))
    (hlen : ∀ k < n, (rnd k).coefs.length ≤ (rnd 0).coefs.length) {k : ℕ} (hk : k < n) :
    keygenLine (rnd k) (k + 1) t n (fun p => rBc rnd (p - 1)) (fun p => rDec rnd (p - 1))
      (fun p => (rVss t n rnd (p - 1), rShare rnd (p - 1) k)) (fun p => rPf n rnd (p - 1)) =
    ([⟨k + 1, none, .Round1 (rBc rnd k)⟩, ⟨k + 1, none, .Round2 (rDec rnd k)⟩] ++
      (rOut3 t n rnd k).map (Msg.mapBody .Round3) ++ [⟨k + 1, none, .Round4 (rPf n rnd k)⟩],
      .ok (rKey t n rnd k)) := by
  have hr1 := honest_round1 (t := t) (rnd := rnd) hk
  have hr2 := dealers_round2 ht hon hk
  have hr3 := honest_round3 (t := t) (rnd := rnd) (by omega) hk
  have hr4 := dealers_round4 (t := t) (by omega) hlen hk
  rw [← peers_map] at hr1 hr2 hr3 hr4
  simp only [keygenLine, Script.step, honest_round0 t n rnd k, hr1, hr2, hr3, hr4, sending,
    Res.bind_ok, List.append_nil, List.nil_append]
  rfl

/-- Party 1 acts towards party `i` as if its random values were `V i 0`; the other parties have the
values `R`.  If its polynomials agree at the indices of the others, nobody notices. -/
theorem equivocation {t n : ℕ} (ht : t < n) {R : ℕ → KeygenRandomness} {V : ℕ → ℕ → KeygenRandomness}
    (hV : ∀ i k, 1 ≤ k → V i k = R k)
    (hR : ∀ k, 1 ≤ k → k < n → HonestRandomness t (R k))
    (h0 : ∀ i, ∃ t', t ≤ t' ∧ HonestRandomness t' (V i 0))
    (hsh : ∀ i j, 1 ≤ j → j < n → rShare (V i) 0 j = rShare (V (j + 1)) 0 j) :
    HonestKeygens t n (Finset.Icc 2 n) (fun i => R (i - 1)) (fun i p => rBc (V i) (p - 1))
      (fun i p => rDec (V i) (p - 1)) (fun i p => (rVss t n (V i) (p - 1), rShare (V i) (p - 1) (i - 1)))
      (fun i p => rPf n (V i) (p - 1)) (fun i => rKey t n (V i) (i - 1)) := by
  have hline : ∀ i ∈ Finset.Icc 2 n, keygenLine (R (i - 1)) i t n (fun p => rBc (V i) (p - 1))
      (fun p => rDec (V i) (p - 1))
      (fun p => (rVss t n (V i) (p - 1), rShare (V i) (p - 1) (i - 1))) (fun p => rPf n (V i) (p - 1)) =
      ([⟨i, none, .Round1 (rBc (V i) (i - 1))⟩, ⟨i, none, .Round2 (rDec (V i) (i - 1))⟩] ++
        (rOut3 t n (V i) (i - 1)).map (Msg.mapBody .Round3) ++
        [⟨i, none, .Round4 (rPf n (V i) (i - 1))⟩], .ok (rKey t n (V i) (i - 1))) := by
    intro i hi
    have hi := Finset.mem_Icc.1 hi
    obtain ⟨k, rfl⟩ : ∃ k, i = k + 1 := ⟨i - 1, by omega⟩
    simp only [Nat.add_sub_cancel]
    rw [← hV (k + 1) k (by omega)]
    refine dealers_line ht (fun j hj => ?_) (fun j hj => ?_) (by omega)
    · rcases Nat.eq_zero_or_pos j with rfl | hj0
      · obtain ⟨t', -, h⟩ := h0 (k + 1)
        exact ⟨t', h⟩
      · rw [hV _ _ hj0]; exact ⟨t, hR j hj0 hj⟩
    · rcases Nat.eq_zero_or_pos j with rfl | hj0
      · exact le_refl _
      · obtain ⟨t', hle, h⟩ := h0 (k + 1)
        rw [hV _ _ hj0, (hR j hj0 hj).coefs_len, h.coefs_len]
        exact hle
  refine ⟨fun i hi => ?_, fun i hi => ?_, fun i hi => ?_, fun i hi p hp hne => ?_⟩
  · have := Finset.mem_Icc.1 hi; omega
  · have := Finset.mem_Icc.1 hi
    exact (hR (i - 1) (by omega) (by omega)).coefs_len
  · show (keygenLine _ _ _ _ _ _ _ _).2 = _
    rw [hline i hi]
  · dsimp only
    rw [hline p hp]
    have hi := Finset.mem_Icc.1 hi
    have hp := Finset.mem_Icc.1 hp
    obtain ⟨k, rfl⟩ : ∃ k, p = k + 1 := ⟨p - 1, by omega⟩
    obtain ⟨l, rfl⟩ : ∃ l, i = l + 1 := ⟨i - 1, by omega⟩
    simp only [Nat.add_sub_cancel]
    have hk : 1 ≤ k := by omega
    have eR : V (l + 1) k = V (k + 1) k := by rw [hV _ _ hk, hV _ _ hk]
    have e1 : rBc (V (l + 1)) k = rBc (V (k + 1)) k := by unfold rBc rKeys; rw [eR]
    have e2 : rDec (V (l + 1)) k = rDec (V (k + 1)) k := by unfold rDec rKeys; rw [eR]
    have e3 : rVss t n (V (l + 1)) k = rVss t n (V (k + 1)) k := by unfold rVss; rw [eR]
    have e4 : rShare (V (l + 1)) k l = rShare (V (k + 1)) k l := by unfold rShare; rw [eR]
    have e5 : rX n (V (l + 1)) k = rX n (V (k + 1)) k := by
      unfold rX
      congr 1
      refine List.map_congr_left fun j _ => ?_
      rcases Nat.eq_zero_or_pos j with rfl | hj0
      · exact hsh (l + 1) k hk (by omega)
      · unfold rShare; rw [hV _ _ hj0, hV _ _ hj0]
    have e6 : rPf n (V (l + 1)) k = rPf n (V (k + 1)) k := by unfold rPf; rw [e5, eR]
    rw [e1, e2, e3, e4, e6]
    refine ⟨by simp, by simp, ?_, by simp⟩
    simp only [List.mem_append, List.mem_map]
    refine Or.inl (Or.inr ⟨⟨k + 1, some (l + 1), (rVss t n (V (k + 1)) k, rShare (V (k + 1)) k l)⟩,
      ?_, rfl⟩)
    refine List.mem_map.2 ⟨l, List.mem_filter.2 ⟨by simp; omega, by simp; omega⟩, rfl⟩

/-- Everybody acts according to `R`. -/
theorem all_honest {t n : ℕ} (ht : t < n) {R : ℕ → KeygenRandomness}
    (hR : ∀ k < n, HonestRandomness t (R k)) :
    HonestKeygens t n (Finset.Icc 1 n) (fun i => R (i - 1)) (fun _ p => rBc R (p - 1))
      (fun _ p => rDec R (p - 1)) (fun i p => (rVss t n R (p - 1), rShare R (p - 1) (i - 1)))
      (fun _ p => rPf n R (p - 1)) (fun i => rKey t n R (i - 1)) := by
  have hline : ∀ i ∈ Finset.Icc 1 n, keygenLine (R (i - 1)) i t n (fun p => rBc R (p - 1))
      (fun p => rDec R (p - 1)) (fun p => (rVss t n R (p - 1), rShare R (p - 1) (i - 1)))
      (fun p => rPf n R (p - 1)) =
      ([⟨i, none, .Round1 (rBc R (i - 1))⟩, ⟨i, none, .Round2 (rDec R (i - 1))⟩] ++
        (rOut3 t n R (i - 1)).map (Msg.mapBody .Round3) ++
        [⟨i, none, .Round4 (rPf n R (i - 1))⟩], .ok (rKey t n R (i - 1))) := by
    intro i hi
    have hi := Finset.mem_Icc.1 hi
    obtain ⟨k, rfl⟩ : ∃ k, i = k + 1 := ⟨i - 1, by omega⟩
    exact dealers_line ht (fun j hj => ⟨t, hR j hj⟩)
      (fun j hj => by rw [(hR j hj).coefs_len, (hR 0 (by omega)).coefs_len]) (by omega)
  refine ⟨fun i hi => ?_, fun i hi => ?_, fun i hi => ?_, fun i hi p hp hne => ?_⟩
  · have := Finset.mem_Icc.1 hi; omega
  · have := Finset.mem_Icc.1 hi
    exact (hR (i - 1) (by omega)).coefs_len
  · show (keygenLine _ _ _ _ _ _ _ _).2 = _
    rw [hline i hi]
  · dsimp only
    rw [hline p hp]
    have hi := Finset.mem_Icc.1 hi
    have hp := Finset.mem_Icc.1 hp
    obtain ⟨k, rfl⟩ : ∃ k, p = k + 1 := ⟨p - 1, by omega⟩
    obtain ⟨l, rfl⟩ : ∃ l, i = l + 1 := ⟨i - 1, by omega⟩
    simp only [Nat.add_sub_cancel]
    refine ⟨by simp, by simp, ?_, by simp⟩
    simp only [List.mem_append, List.mem_map]
    refine Or.inl (Or.inr ⟨⟨k + 1, some (l + 1), (rVss t n R k, rShare R k l)⟩, ?_, rfl⟩)
    refine List.mem_map.2 ⟨l, List.mem_filter.2 ⟨by simp; omega, by simp; omega⟩, rfl⟩

end Verif.GG20.Keygen
