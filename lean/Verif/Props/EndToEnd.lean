import Verif.Props.Network

/-!
# C85: from two networks of machines to a signature

Key generation and offline signing, each executed by one state machine per party over a network that may
delay, reorder and duplicate messages, followed by the online stage.
-/

namespace Verif.Props

open EC Crypto Spec GG20 GG20.Sign

section
variable [Crypto]

/-- The signing half, for the keys of the round-by-round execution. -/
theorem network_then_sign {t n : ℕ} (ht : t < n) (hn : n < q) (hu : n < 65536)
    {krnd : ℕ → KeygenRandomness} (hon : ∀ k < n, Keygen.HonestRandomness t (krnd k))
    {s_l : List ℕ} (hnd : s_l.Nodup) (hmem : ∀ i ∈ s_l, 1 ≤ i ∧ i ≤ n) (hlen : t + 1 ≤ s_l.length)
    {rnd : ℕ → SignRandomness}
    (hs : ∀ k < s_l.length, HonestSample s_l.length
      (fun j => (Keygen.rKey t n krnd (s_l.getD j 0 - 1)).paillier_dk.n) (fun j => (rnd j).k)
      (signShare (fun i => (Keygen.rKey t n krnd (i - 1)).keys_linear.x_i) s_l)
      (Keygen.rKey t n krnd 0).h1_h2_n_tilde_vec k (rnd k))
    (hk0 : ∑ j ∈ Finset.range s_l.length, (rnd j).k ≠ 0)
    (hg0 : ∑ j ∈ Finset.range s_l.length, (rnd j).gamma ≠ 0)
    {start : ℕ → Sign.State} (hnew : ∀ i, 1 ≤ i → i ≤ s_l.length →
      Sign.new i s_l (Keygen.rKey t n krnd (s_l.getD (i - 1) 0 - 1)) = .ok (start i))
    {evs : List (ℕ × Op Sign.M)} (ha : (Sign.network s_l.length rnd start).Authentic evs) :
    (∃ more, (Sign.network s_l.length rnd start).Authentic (evs ++ more) ∧
      (Sign.network s_l.length rnd start).Quiescent (evs ++ more) ∧ .pick ∉ more.map Prod.snd) ∧
    ((Sign.network s_l.length rnd start).Quiescent evs →
      ∃ cs : List CompletedOfflineStage, cs.length = s_l.length ∧
        (∀ i c, 1 ≤ i → cs[i - 1]? = some c → (Sign.network s_l.length rnd start).Done evs i c) ∧
        ∀ message : ℤ,
          (∀ xr y, coords ((∑ j ∈ Finset.range s_l.length, (rnd j).k)⁻¹ • (G : Pt)) = some (xr, y) →
            (message : Sc) + (xr : Sc) * Keygen.rSecret n krnd ≠ 0) →
          ∃ sig, online message cs = .ok (List.replicate s_l.length sig) ∧
            EcdsaEq (Keygen.rSecret n krnd • G) message sig.r sig.s ∧ LowS sig.s) := by
  have hrun := Keygen.run_eq ht hon
  have hget : ∀ i, 1 ≤ i → i ≤ n → ((List.range n).map (Keygen.rKey t n krnd))[i - 1]? =
      some (Keygen.rKey t n krnd (i - 1)) := by
    intro i h1 h2
    simp [show i - 1 < n by omega]
  obtain ⟨d, hd, hrec, hH⟩ := keygen_honestSigners ht hn hu hon hrun hnd hmem
    (key := fun k => Keygen.rKey t n krnd (s_l.getD k 0 - 1))
    (fun k i hi => by
      have hm := hmem i (List.mem_of_getElem? hi)
      have : s_l.getD k 0 = i := by rw [List.getD_eq_getElem?_getD, hi]; rfl
      rw [this]
      exact hget i hm.1 hm.2)
    (x := fun i => Keygen.rX n krnd (i - 1))
    (fun i k hk => by
      rw [List.getElem?_map] at hk
      obtain ⟨j, hj, rfl⟩ := Option.map_eq_some_iff.1 hk
      obtain ⟨h1, rfl⟩ := List.getElem?_eq_some_iff.1 hj
      simp only [List.getElem_range]
      rfl)
    (sts := (List.range n).map (fun j => (Keygen.rBc krnd j).dlog_statement))
    (fun k hk => by
      obtain ⟨i, -, rfl⟩ := List.mem_map.1 hk
      rfl) hs hk0 hg0
  have hde : d = Keygen.rSecret n krnd := by
    have h1 := hd (Keygen.rKey t n krnd 0) (List.mem_map.2 ⟨0, by simp; omega, rfl⟩)
    have h2 := (keyOf_rKey (t := t) (rnd := krnd) (le_refl 1) (by omega : 1 ≤ n)).public_key
    exact smul_G_inj.1 (h1.symm.trans h2)
  subst hde
  exact ⟨C65_offline_completes hH hrec hlen hnew ha, C65_offline_then_sign hH hrec hlen hnew ha⟩

/-- **C85.** `evs` is any execution of the `n` key generation machines in which every message sent was
delivered and nobody wants to proceed.  Then every party holds a key, all for one public key `d • G`; and
whatever set `s_l` of at least `t + 1` parties then runs the offline stage with these keys: any execution
`evs'` can be completed, and when it is complete every signer holds a presignature; and with these the online stage gives, for every
message with `m + r d ≠ 0`, one and the same valid low-`s` signature at every signer. -/
theorem C85_machines_make_signatures {t n : ℕ} (ht : t < n) (hn : n < q) (hu : n < 65536)
    {krnd : ℕ → KeygenRandomness} (hon : ∀ k < n, Keygen.HonestRandomness t (krnd k))
    {start : ℕ → Keygen.State}
    (hnew : ∀ i, 1 ≤ i → i ≤ n → ∃ r, Keygen.new (krnd (i - 1)) i t n = .ok (start i, r))
    {evs : List (ℕ × Op Keygen.M)} (ha : (Keygen.network n krnd start).Authentic evs)
    (hq : (Keygen.network n krnd start).Quiescent evs) :
    ∃ (d : Sc) (key : ℕ → LocalKey),
      (∀ i, 1 ≤ i → i ≤ n →
        (Keygen.network n krnd start).Done evs i (key i) ∧ (key i).public_key = d • G) ∧
      ∀ s_l : List ℕ, s_l.Nodup → (∀ i ∈ s_l, 1 ≤ i ∧ i ≤ n) → t + 1 ≤ s_l.length →
      ∀ rnd : ℕ → SignRandomness,
        (∀ k < s_l.length, HonestSample s_l.length (fun j => (key (s_l.getD j 0)).paillier_dk.n)
          (fun j => (rnd j).k) (signShare (fun i => (key i).keys_linear.x_i) s_l)
          (key 1).h1_h2_n_tilde_vec k (rnd k)) →
        ∑ j ∈ Finset.range s_l.length, (rnd j).k ≠ 0 →
        ∑ j ∈ Finset.range s_l.length, (rnd j).gamma ≠ 0 →
      ∀ start' : ℕ → Sign.State,
        (∀ i, 1 ≤ i → i ≤ s_l.length →
          Sign.new i s_l (key (s_l.getD (i - 1) 0)) = .ok (start' i)) →
      ∀ evs' : List (ℕ × Op Sign.M), (Sign.network s_l.length rnd start').Authentic evs' →
        (∃ more, (Sign.network s_l.length rnd start').Authentic (evs' ++ more) ∧
          (Sign.network s_l.length rnd start').Quiescent (evs' ++ more) ∧ .pick ∉ more.map Prod.snd) ∧
        ((Sign.network s_l.length rnd start').Quiescent evs' →
          ∃ cs : List CompletedOfflineStage, cs.length = s_l.length ∧
            (∀ i c, 1 ≤ i → cs[i - 1]? = some c →
              (Sign.network s_l.length rnd start').Done evs' i c) ∧
            ∀ message : ℤ,
              (∀ xr y, coords ((∑ j ∈ Finset.range s_l.length, (rnd j).k)⁻¹ • (G : Pt)) =
                some (xr, y) → (message : Sc) + (xr : Sc) * d ≠ 0) →
              ∃ sig, online message cs = .ok (List.replicate s_l.length sig) ∧
                EcdsaEq (d • G) message sig.r sig.s ∧ LowS sig.s) := by
  have hrun := Keygen.run_eq ht hon
  have hget : ∀ i, 1 ≤ i → i ≤ n → ((List.range n).map (Keygen.rKey t n krnd))[i - 1]? =
      some (Keygen.rKey t n krnd (i - 1)) := by
    intro i h1 h2
    simp [show i - 1 < n by omega]
  refine ⟨Keygen.rSecret n krnd, fun i => Keygen.rKey t n krnd (i - 1), fun i h1 h2 => ⟨?_, ?_⟩, ?_⟩
  · exact C65_keygen_no_deadlock hon hnew hrun ha hq h1 (hget i h1 h2)
  · exact (keyOf_rKey (t := t) (rnd := krnd) h1 h2).public_key
  · intro s_l hnd hmem hlen rnd hs hk0 hg0 start' hstart evs' ha'
    exact network_then_sign ht hn hu hon hnd hmem hlen hs hk0 hg0 hstart ha'

end

section
attribute [local instance] Toy.crypto

/-- Three machines generate a key with threshold 1; the machines of parties 3 and 1 run the offline stage with
their keys; the presignatures sign the message 10. -/
example : ∃ (krnd : ℕ → KeygenRandomness) (start : ℕ → Keygen.State) (evs : List (ℕ × Op Keygen.M))
    (key : ℕ → LocalKey) (d : ZMod 31) (start' : ℕ → Sign.State) (evs' : List (ℕ × Op Sign.M))
    (cs : List CompletedOfflineStage) (sig : SignatureRecid),
    (Keygen.network 3 krnd start).Authentic evs ∧ (Keygen.network 3 krnd start).Quiescent evs ∧
    (∀ i, 1 ≤ i → i ≤ 3 →
      (Keygen.network 3 krnd start).Done evs i (key i) ∧ (key i).public_key = d • G) ∧
    (∀ i, 1 ≤ i → i ≤ 2 → Sign.new i [3, 1] (key ([3, 1].getD (i - 1) 0)) = .ok (start' i)) ∧
    (Sign.network 2 toySign start').Authentic evs' ∧ (Sign.network 2 toySign start').Quiescent evs' ∧
    (∀ i c, 1 ≤ i → cs[i - 1]? = some c → (Sign.network 2 toySign start').Done evs' i c) ∧
    online 10 cs = .ok [sig, sig] ∧ EcdsaEq (d • (G : Pt)) 10 sig.r sig.s ∧ LowS sig.s := by
  have hex := fun k : ℕ => honestRandomness_exists 1 ((k + 2 : ℕ) : ZMod 31) [(7 : ZMod 31)] rfl
  choose krnd hon hu _ using hex
  have hn : ∀ i, ∃ s, 1 ≤ i → i ≤ 3 → Keygen.new (krnd (i - 1)) i 1 3 = .ok (s, .ok ()) := by
    intro i
    by_cases h : 1 ≤ i ∧ i ≤ 3
    · obtain ⟨s, hs⟩ := (C19_new_accepts (krnd (i - 1)) i 1 3).2 ⟨by omega, by omega, h⟩
      exact ⟨s, fun _ _ => hs⟩
    · obtain ⟨s, -⟩ := (C19_new_accepts (krnd 0) 1 1 3).2 (by omega)
      exact ⟨s, fun h1 h2 => absurd ⟨h1, h2⟩ h⟩
  choose start hstart using hn
  have hnew : ∀ i, 1 ≤ i → i ≤ 3 → ∃ r, Keygen.new (krnd (i - 1)) i 1 3 = .ok (start i, r) :=
    fun i h1 h2 => ⟨_, hstart i h1 h2⟩
  have hrun := Keygen.run_eq (t := 1) (n := 3) (by decide) (fun k _ => hon k)
  obtain ⟨evs, ha, hq, -⟩ := C65_keygen_completes (fun k _ => hon k) hnew (toyNetNil _)
  have hkn : ∀ i, ∃ s, 1 ≤ i → i ≤ 2 →
      Sign.new i [3, 1] (Keygen.rKey 1 3 krnd ([3, 1].getD (i - 1) 0 - 1)) = .ok s := by
    intro i
    by_cases h : 1 ≤ i ∧ i ≤ 2
    · obtain ⟨s, hs⟩ := (C37_new_accepts_partial i [3, 1]
        (Keygen.rKey 1 3 krnd ([3, 1].getD (i - 1) 0 - 1))).2
        ⟨by decide, h, by
          have : (Keygen.rKey 1 3 krnd ([3, 1].getD (i - 1) 0 - 1)).n = 3 := rfl
          rw [this]
          decide, by decide⟩
      exact ⟨s, fun _ _ => hs⟩
    · obtain ⟨s, -⟩ := (C37_new_accepts_partial 1 [3, 1] (toyLocal 3)).2 (by decide)
      exact ⟨s, fun h1 h2 => absurd ⟨h1, h2⟩ h⟩
  choose start' hstart' using hkn
  have hs : ∀ k < 2, HonestSample 2
      (fun j => (Keygen.rKey 1 3 krnd ([3, 1].getD j 0 - 1)).paillier_dk.n) (fun j => (toySign j).k)
      (signShare (fun i => (Keygen.rKey 1 3 krnd (i - 1)).keys_linear.x_i) [3, 1])
      (Keygen.rKey 1 3 krnd 0).h1_h2_n_tilde_vec k (toySign k) := by
    intro k hk
    refine toySample ?_ (auxOk_rBc (fun k _ => hon k)).usable _ hk
    intro j _
    by_contra hlt
    have h1 : Nat.size (krnd ([3, 1].getD j 0 - 1)).dk.n ≤ 11 := Nat.size_le.2 (by
      have : (Keygen.rKey 1 3 krnd ([3, 1].getD j 0 - 1)).paillier_dk.n =
        (krnd ([3, 1].getD j 0 - 1)).dk.n := rfl
      omega)
    have h2 := (hon ([3, 1].getD j 0 - 1)).dk_size
    rw [bitLength, Int.natAbs_natCast] at h2
    omega
  have main := @network_then_sign _ 1 3 (by decide) (by decide) (by decide) krnd (fun k _ => hon k) [3, 1]
    (by decide) (by decide) (by decide) toySign hs (by decide +kernel) (by decide +kernel) start' hstart'
  obtain ⟨evs', ha', hq', -⟩ := (main (toyNetNil _)).1
  obtain ⟨cs, -, h2, h3⟩ := (main ha').2 hq'
  obtain ⟨sig, h4, h5, h6⟩ := h3 10 (by
    intro xr y h
    have hd : Keygen.rSecret 3 krnd = (9 : ZMod 31) := by
      simp only [Keygen.rSecret, hu]
      decide +kernel
    rw [hd]
    have : ∀ xy ∈ coords ((∑ j ∈ Finset.range [3, 1].length, (toySign j).k)⁻¹ • (G : Pt)),
      ((10 : ℤ) : ZMod 31) + (xy.1 : ZMod 31) * 9 ≠ 0 := by decide +kernel
    exact this (xr, y) h)
  refine ⟨krnd, start, _, fun i => Keygen.rKey 1 3 krnd (i - 1), Keygen.rSecret 3 krnd, start', _, cs, sig,
    ha, hq, fun i h1 h2 => ⟨?_, (keyOf_rKey (t := 1) (rnd := krnd) h1 h2).public_key⟩, hstart', ha', hq', h2,
    h4, h5, h6⟩
  refine C65_keygen_no_deadlock (fun k _ => hon k) hnew hrun ha hq h1 ?_
  simp [show i - 1 < 3 by omega]

end
end Verif.Props
