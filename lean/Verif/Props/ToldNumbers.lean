import Verif.Spec.ToldNumbers
import Verif.Props.MixedFiles
import Verif.Props.MixedLists

/-!
# C129 for GG18: clients that are told different party numbers
-/

namespace Verif.Props

open EC Crypto Spec Spec.GG18 GG18 Demo.Sign
open GG20.Sign (zeroBased getD_mem coeff_eq)

section
variable [Crypto]

variable {t n v p : ℕ} {filev filep : Demo.Keygen.KeyFile} {toldv toldp : ℕ → ℕ}

/-- The coefficient of a party on a list of different parties, as the client computes it. -/
theorem coefficient_of_mem {l : List ℕ} (hl : l.Nodup) (hm : ∀ i ∈ l, 1 ≤ i ∧ i ≤ n) (hn : n < q) {i : ℕ} (hi : i ∈ l) :
    mapShareToNewParams (i - 1) (l.map (· - 1)) = some (lagrangeCoeff l.toFinset i) := by
  obtain ⟨k, hk, rfl⟩ := List.getElem_of_mem hi
  have := coeff_eq hm hl hn hk
  rwa [List.getD_eq_getElem?_getD, List.getElem?_eq_getElem hk] at this

/-- The coefficient of a party that is listed twice cannot be computed. -/
theorem coefficient_none {i : ℕ} {l : List ℕ} {c : Sc} (h : mapShareToNewParams i l = some c) : l.count i ≤ 1 := by
  unfold mapShareToNewParams at h
  split at h
  · cases h
  rename_i j hj
  obtain ⟨hlt, hi, -⟩ := List.findIdx?_eq_some_iff_getElem.1 hj
  have hi : l[j] = i := of_decide_eq_true hi
  unfold lagrangeBasisAtZero at h
  obtain ⟨xj, hxj, h⟩ := Option.bind_eq_some_iff.1 h
  rw [List.getElem?_map, List.getElem?_eq_getElem hlt, hi, Option.map_some] at hxj
  obtain rfl := Option.some.inj hxj
  simp only at h
  split at h
  · cases h
  rename_i hne
  by_contra hc
  have hperm := List.getElem_cons_eraseIdx_perm hlt
  have hmem : i ∈ l.eraseIdx j := by
    have := hperm.count_eq i
    rw [hi, List.count_cons_self] at this
    exact List.count_pos_iff.1 (by omega)
  refine hne (List.prod_eq_zero ?_)
  refine List.mem_map.2 ⟨((i + 1 : ℕ) : Sc), ?_, sub_self _⟩
  rw [List.eraseIdx_map]
  exact List.mem_map.2 ⟨i, hmem, rfl⟩

/-- **C129** (GG18, one party twice). A client that was told that two of the clients in the room are the same party, or
that another one is the same party as itself, does not release its partial signature. -/
theorem C129_gg18_distinct (hv1 : 1 ≤ v) (hv2 : v ≤ t + 1)
    {message : ℤ} {rnd : ℕ → Demo.Sign.Rand} {b : Demo.Sign.Posted} {st : Demo.Sign.St9} {out : List (Msg Sc)}
    (hb : b.b0 = toldv) (h : Demo.Sign.release t message rnd v filev b = .ok (st, out)) :
    (toldList (t + 1) v filev toldv).Nodup := by
  subst hb
  obtain ⟨own6, own8, R, hc, -⟩ := C76_release hv1 hv2 h
  refine (List.nodup_map_iff_inj_on List.nodup_range').2 ?_
  have key : ∀ j ∈ List.range' 1 (t + 1), j ≠ v → ∀ k ∈ List.range' 1 (t + 1),
      (if j = v then filev.party_id else b.b0 j) = (if k = v then filev.party_id else b.b0 k) → j = k := by
    intro j hj hjv k hk e
    by_contra hjk
    have hj' := List.mem_range'_1.1 hj
    have hs := hc.share j (mem_peers.2 ⟨hj'.1, by omega, hjv⟩)
    unfold shareCommitment at hs
    obtain ⟨c, hcc, -⟩ := Option.map_eq_some_iff.1 hs
    have hcount := coefficient_none hcc
    rw [List.map_map] at hcount
    have : List.count (b.b0 j - 1) ((List.range' 1 (t + 1)).map
        ((· - 1) ∘ fun p => if p = v then filev.party_id else b.b0 p)) ≥ 2 := by
      have hp := (List.perm_cons_erase hj).trans ((List.perm_cons_erase
        ((List.mem_erase_of_ne (Ne.symm hjk)).2 hk)).cons j)
      rw [(hp.map _).count_eq, List.map_cons, List.map_cons]
      simp only [Function.comp, ← e, if_neg hjv, List.count_cons_self]
      omega
    omega
  intro j hj k hk e
  by_cases hjv : j = v
  · by_cases hkv : k = v
    · rw [hjv, hkv]
    · exact (key k hk hkv j hj e.symm).symm
  · exact key j hj hjv k hk e

/-- **C129** (GG18, one key file twice). If two clients `p` and `p'` of a room have the key file of the same party, no
client `v` of the room that reads what these two announce releases its partial signature. -/
theorem C129_gg18_same_file {p' : ℕ} {file : ℕ → Demo.Keygen.KeyFile} (hv1 : 1 ≤ v) (hv2 : v ≤ t + 1) (hp1 : 1 ≤ p)
    (hp2 : p ≤ t + 1) (hp1' : 1 ≤ p') (hp2' : p' ≤ t + 1) (hne : p ≠ p') (same : (file p).party_id = (file p').party_id)
    {message : ℤ} {rnd : ℕ → Demo.Sign.Rand} {b : Demo.Sign.Posted}
    (genuine : ∀ k, k = p ∨ k = p' → k ≠ v → ⟨k, none, b.b0 k⟩ ∈ (Demo.Sign.start k (file k)).2)
    (st : Demo.Sign.St9) (out : List (Msg Sc)) : Demo.Sign.release t message rnd v (file v) b ≠ .ok (st, out) := by
  intro h
  have hb : ∀ k, k = p ∨ k = p' → (if k = v then (file v).party_id else b.b0 k) = (file k).party_id := by
    intro k hk
    split_ifs with e
    · rw [e]
    · have := List.mem_singleton.1 (genuine k hk e)
      injection this
  have := (List.nodup_map_iff_inj_on List.nodup_range').1 (C129_gg18_distinct hv1 hv2 rfl h) p
    (List.mem_range'_1.2 ⟨hp1, by omega⟩) p' (List.mem_range'_1.2 ⟨hp1', by omega⟩)
  rw [hb p (.inl rfl), hb p' (.inr rfl)] at this
  exact hne (this same)

/-- **C129** (GG18). Two clients of a signing room run the program, each with its own key file and with what it was
told about the others' numbers; the others do anything.  If client `v` releases its partial signature, then the share
with which client `p` signs belongs to the public share of the party that `v` was told `p` to be, among the parties
that `v` was told of. -/
theorem C129_gg18_share (hn : n < q) (hv1 : 1 ≤ v) (hv2 : v ≤ t + 1) (hp1 : 1 ≤ p) (hp2 : p ≤ t + 1) (hne : p ≠ v)
    (dp : (toldList (t + 1) p filep toldp).Nodup)
    (mv : ∀ i ∈ toldList (t + 1) v filev toldv, 1 ≤ i ∧ i ≤ n) (mp : ∀ i ∈ toldList (t + 1) p filep toldp, 1 ≤ i ∧ i ≤ n)
    (h : ReleasesTold t v p filev filep toldv toldp) :
    (lagrangeCoeff (toldList (t + 1) p filep toldp).toFinset filep.party_id * filep.shared_keys.x_i) • G =
      lagrangeCoeff (toldList (t + 1) v filev toldv).toFinset (toldv p) •
        (filev.vss_scheme_vec.map (fun w => feldmanEval w.commitments (toldv p : Sc))).sum := by
  obtain ⟨message, rv, rp, bv, bp, st, out, ctx, o1, st2, o2, rfl, rfl, hrel, hr1, hr2, g2⟩ := h
  have dv := C129_gg18_distinct hv1 hv2 (toldv := bv.b0) rfl hrel
  obtain ⟨own6, own8, R, hc, -⟩ := C76_release hv1 hv2 hrel
  obtain ⟨k, rfl⟩ : ∃ k, p = k + 1 := ⟨p - 1, by omega⟩
  obtain ⟨li, hli, hw⟩ := round1_share (by omega) hr1
  have hs := hc.share (k + 1) (mem_peers.2 ⟨by omega, by omega, hne⟩)
  have hfill : Demo.fill (t + 1) k filep.party_id bp.b0 = toldList (t + 1) (k + 1) filep bp.b0 := by
    unfold toldList Demo.fill
    rw [Demo.range'_one, List.map_map]
    refine List.map_congr_left fun j hj => ?_
    simp only [Function.comp, Nat.add_right_cancel_iff]
  have ip : filep.party_id ∈ toldList (t + 1) (k + 1) filep bp.b0 :=
    List.mem_map.2 ⟨k + 1, List.mem_range'_1.2 ⟨by omega, by omega⟩, if_pos rfl⟩
  have iv : bv.b0 (k + 1) ∈ toldList (t + 1) v filev bv.b0 :=
    List.mem_map.2 ⟨k + 1, List.mem_range'_1.2 ⟨by omega, by omega⟩, if_neg hne⟩
  rw [hfill, coefficient_of_mem dp mp hn ip] at hli
  obtain rfl := Option.some.inj hli
  unfold shareCommitment at hs
  change Option.map _ (mapShareToNewParams _ ((toldList (t + 1) v filev bv.b0).map (· - 1))) = _ at hs
  rw [coefficient_of_mem dv mv hn iv, Option.map_some, round2_answer hr2 g2, hw] at hs
  exact (Option.some.inj hs).symm

/-- **C129** (GG18, all clients). Every client of the room runs the program, client `k` with its key file `file k` and
with what it was told, `told k`.  If client `v`, whose key file is right, releases its partial signature, then the
shares with which they all sign add up to the secret key `d`, provided that the room is large enough. -/
theorem C129_gg18_sum {s : ℕ} {d : Sc} {x : ℕ → Sc} {file : ℕ → Demo.Keygen.KeyFile} {told : ℕ → ℕ → ℕ} (hn : n < q)
    (hx : Reconstructs s n x d) (hs : s ≤ t) (hv1 : 1 ≤ v) (hv2 : v ≤ t + 1)
    (pub : ∀ i, 1 ≤ i → i ≤ n →
      ((file v).vss_scheme_vec.map (fun w => feldmanEval w.commitments (i : Sc))).sum = x i • (G : Pt))
    (own : (file v).shared_keys.x_i = x (file v).party_id)
    (nodup : ∀ k, 1 ≤ k → k ≤ t + 1 → k ≠ v → (toldList (t + 1) k (file k) (told k)).Nodup)
    (members : ∀ k, 1 ≤ k → k ≤ t + 1 → ∀ i ∈ toldList (t + 1) k (file k) (told k), 1 ≤ i ∧ i ≤ n)
    (ht : 1 ≤ t) (h : ∀ k, 1 ≤ k → k ≤ t + 1 → k ≠ v → ReleasesTold t v k (file v) (file k) (told v) (told k)) :
    ∑ k ∈ Finset.Icc 1 (t + 1), lagrangeCoeff (toldList (t + 1) k (file k) (told k)).toFinset (file k).party_id *
      (file k).shared_keys.x_i = d := by
  have dv : (toldList (t + 1) v (file v) (told v)).Nodup := by
    obtain ⟨k, h1, h2, h3⟩ : ∃ k, 1 ≤ k ∧ k ≤ t + 1 ∧ k ≠ v := by
      by_cases e : v = 1
      · exact ⟨2, by omega, by omega, by omega⟩
      · exact ⟨1, by omega, by omega, by omega⟩
    obtain ⟨message, rv, rp, bv, bp, st, out, ctx, o1, st2, o2, hb, -, hrel, -⟩ := h k h1 h2 h3
    exact C129_gg18_distinct hv1 hv2 hb hrel
  set L := toldList (t + 1) v (file v) (told v) with hL
  have hlen : L.length = t + 1 := by simp [hL, toldList]
  rw [← hx L.toFinset (fun i hi => members v hv1 hv2 i (List.mem_toFinset.1 hi))
    (by rw [List.toFinset_card_of_nodup dv, hlen]; omega),
    List.sum_toFinset _ dv, hL, toldList, List.map_map]
  have e : Finset.Icc 1 (t + 1) = (List.range' 1 (t + 1)).toFinset := by
    ext k
    simp only [Finset.mem_Icc, List.mem_toFinset, List.mem_range'_1]
    omega
  rw [e, List.sum_toFinset _ (List.nodup_range' (step := 1))]
  congr 1
  refine List.map_congr_left fun k hk => ?_
  have hk := List.mem_range'_1.1 hk
  simp only [Function.comp]
  split_ifs with hkv
  · subst hkv
    rw [own]
    rfl
  · have hi := members v hv1 hv2 (told v k) (List.mem_map.2 ⟨k, List.mem_range'_1.2 hk, if_neg hkv⟩)
    have := C129_gg18_share hn hv1 hv2 hk.1 (by omega) hkv (nodup k hk.1 (by omega) hkv)
      (members v hv1 hv2) (members k hk.1 (by omega)) (h k hk.1 (by omega) hkv)
    rw [pub _ hi.1 hi.2, ← mul_smul] at this
    exact smul_G_inj.1 this

/-- **C129** (GG18, two clients). If one of two clients, which was told the other one's right number, releases its
partial signature, and the other one has a key share other than zero, then the other one was told its right number. -/
theorem C129_gg18_two {x : ℕ → Sc} (hn : n < q)
    (pub : ∀ i, 1 ≤ i → i ≤ n →
      (filev.vss_scheme_vec.map (fun w => feldmanEval w.commitments (i : Sc))).sum = x i • (G : Pt))
    (own : filep.shared_keys.x_i = x filep.party_id) (hx : x filep.party_id ≠ 0)
    (hv : v = 1 ∧ p = 2 ∨ v = 2 ∧ p = 1) (right : toldv p = filep.party_id)
    (hiv : 1 ≤ filev.party_id ∧ filev.party_id ≤ n) (hip : 1 ≤ filep.party_id ∧ filep.party_id ≤ n)
    (hia : 1 ≤ toldp v ∧ toldp v ≤ n)
    (h : ReleasesTold 1 v p filev filep toldv toldp) : toldp v = filev.party_id := by
  have key : ∀ {a b c : ℕ}, 1 ≤ a → a < q → b < q → c < q → a ≠ b → a ≠ c →
      (c : Sc) / ((c : Sc) - a) = b / (b - a) → b = c := by
    intro a b c h1 ha hb hc hab hac e
    have ha0 : (a : Sc) ≠ 0 := natCast_ne_zero_of (by omega) ha
    have hb0 : (b : Sc) - a ≠ 0 := fun h0 => hab (natCast_inj_of_lt hb ha (sub_eq_zero.1 h0)).symm
    have hc0 : (c : Sc) - a ≠ 0 := fun h0 => hac (natCast_inj_of_lt hc ha (sub_eq_zero.1 h0)).symm
    rw [div_eq_div_iff hc0 hb0] at e
    refine natCast_inj_of_lt hb hc (mul_right_cancel₀ ha0 ?_)
    linear_combination e
  have co : ∀ {l : List ℕ} {a b : ℕ}, a ≠ b → (∀ z, z ∈ l ↔ z = a ∨ z = b) →
      lagrangeCoeff l.toFinset a = (b : Sc) / ((b : Sc) - a) := by
    intro l a b hab hl
    unfold lagrangeCoeff
    rw [show l.toFinset.erase a = {b} by
      ext z
      rw [Finset.mem_erase, List.mem_toFinset, hl, Finset.mem_singleton]
      omega]
    exact Finset.prod_singleton _ _
  have l2 : List.range' 1 2 = [1, 2] := rfl
  have hd : filev.party_id ≠ filep.party_id := by
    obtain ⟨message, rv, rp, bv, bp, st, out, ctx, o1, st2, o2, hb, -, hrel, -⟩ := h
    have := C129_gg18_distinct (by omega) (by omega) hb hrel
    unfold toldList at this
    rw [l2] at this
    intro e
    rcases hv with ⟨rfl, rfl⟩ | ⟨rfl, rfl⟩ <;> simp [right, e] at this
  have hda : toldp v ≠ filep.party_id := by
    obtain ⟨message, rv, rp, bv, bp, st, out, ctx, o1, st2, o2, -, rfl, -, hr1, -⟩ := h
    intro e
    rcases hv with ⟨rfl, rfl⟩ | ⟨rfl, rfl⟩
    · obtain ⟨li, hli, -⟩ := round1_share (k := 1) (by omega) hr1
      have := coefficient_none hli
      simp [Demo.fill, List.range_succ, e] at this
    · obtain ⟨li, hli, -⟩ := round1_share (k := 0) (by omega) hr1
      have := coefficient_none hli
      simp [Demo.fill, List.range_succ, e] at this
  have mv : ∀ z, z ∈ toldList 2 v filev toldv ↔ z = filep.party_id ∨ z = filev.party_id := by
    intro z
    unfold toldList
    rw [l2]
    rcases hv with ⟨rfl, rfl⟩ | ⟨rfl, rfl⟩ <;> simp [right, or_comm]
  have mp : ∀ z, z ∈ toldList 2 p filep toldp ↔ z = filep.party_id ∨ z = toldp v := by
    intro z
    unfold toldList
    rw [l2]
    rcases hv with ⟨rfl, rfl⟩ | ⟨rfl, rfl⟩ <;> simp [or_comm]
  have hs := C129_gg18_share (t := 1) hn (by omega) (by omega) (by omega) (by omega) (by omega)
    (by unfold toldList; rw [l2]; rcases hv with ⟨rfl, rfl⟩ | ⟨rfl, rfl⟩ <;> simp <;> omega)
    (fun z hz => by rcases (mv z).1 hz with rfl | rfl <;> assumption)
    (fun z hz => by rcases (mp z).1 hz with rfl | rfl <;> assumption) h
  rw [right, pub _ hip.1 hip.2, ← mul_smul, own, co hda.symm mp, co hd.symm mv] at hs
  exact (key hip.1 (by omega) (by omega) (by omega) hd.symm hda.symm (mul_right_cancel₀ hx (smul_G_inj.1 hs))).symm

/-- **C129** (GG18, converse). Clients that were told everybody's right number can release their partial signatures. -/
theorem C129_gg18_right_numbers {s : ℕ} {d : Sc} {x : ℕ → Sc} {dk : ℕ → DecKey} {s_l : List ℕ}
    {key : ℕ → Demo.Keygen.KeyFile} {rnd : ℕ → Demo.Sign.Rand} (h : HonestRoom n (d • G) x dk s_l key rnd)
    (hx : Reconstructs s n x d) (hlen : s + 1 ≤ s_l.length) (message : ℤ)
    (hm : ∀ xr y, coords ((∑ j ∈ Finset.range s_l.length, (rnd (j + 1)).k)⁻¹ • (G : Pt)) = some (xr, y) →
      (message : Sc) + (xr : Sc) * d ≠ 0) (hv1 : 1 ≤ v) (hv2 : v ≤ s_l.length) (hp1 : 1 ≤ p) (hp2 : p ≤ s_l.length)
    (hne : p ≠ v) : ∃ toldv toldp, ReleasesTold (s_l.length - 1) v p (key v) (key p) toldv toldp ∧
      toldv p = (key p).party_id ∧ toldp v = (key v).party_id ∧
      ∀ j, 1 ≤ j → j ≤ s_l.length → j ≠ v → j ≠ p → toldp j = toldv j := by
  obtain ⟨message, rv, rp, bv, bp, st, out, ctx, o1, st2, o2, hrel, hr1, hr2, gp, gv, g2, hids⟩ :=
    C133_gg18_fitting_files h hx hlen message hm hv1 hv2 hp1 hp2 hne
  refine ⟨bv.b0, bp.b0, ⟨message, rv, rp, bv, bp, st, out, ctx, o1, st2, o2, rfl, rfl, hrel, hr1, hr2, g2⟩, ?_, ?_,
    fun j h1 h2 h3 h4 => (hids j (mem_peers.2 ⟨h1, by omega, h3⟩) h4).1⟩
  · have := List.mem_singleton.1 gp
    injection this
  · have := List.mem_singleton.1 gv
    injection this

end

/-! ### Examples: the 31-point group -/

section
attribute [local instance] Toy.crypto

/-- Parties 3 and 1 sign with key files of one key generation: the hypotheses of all theorems are met. -/
example : ∃ filev filep toldv toldp, ReleasesTold 1 1 2 filev filep toldv toldp ∧ toldv 2 = 1 ∧ toldp 1 = 3 := by
  obtain ⟨x, dk, h, hx⟩ := toyRoom_room
  obtain ⟨toldv, toldp, hr, h1, h2, -⟩ := C129_gg18_right_numbers h hx (by decide) 10 toyRoom_message (v := 1) (p := 2)
    (by decide) (by decide) (by decide) (by decide) (by decide)
  exact ⟨_, _, toldv, toldp, hr, h1, h2⟩

/-- Party 1 of three with a share other than zero, told to sign with party 2, gets no partial signature from party 3. -/
example (rnd : ℕ → Demo.Keygen.Rand) (toldp : ℕ → ℕ) (h2 : toldp 1 = 2) (h0 : Demo.Keygen.kX 3 rnd 0 ≠ 0) :
    ¬ ReleasesTold 1 1 2 (Demo.Keygen.kFile 1 3 rnd 2) (Demo.Keygen.kFile 1 3 rnd 0) (fun _ => 1) toldp := by
  intro h
  have pv : (Demo.Keygen.kFile 1 3 rnd 2).party_id = 3 := rfl
  have pp : (Demo.Keygen.kFile 1 3 rnd 0).party_id = 1 := rfl
  have := C129_gg18_two (n := 3) (x := fun i => Demo.Keygen.kX 3 rnd (i - 1)) (by decide)
    (fun i h1 _ => by
      obtain ⟨i, rfl⟩ : ∃ k, i = k + 1 := ⟨i - 1, by omega⟩
      exact kFile_public 1 3 rnd 2 i)
    (by rw [pp]; rfl) (by rw [pp]; exact h0) (.inl ⟨rfl, rfl⟩) pp.symm (by omega) (by omega) (by omega) h
  omega

end
end Verif.Props
