import Verif.Spec.GG18Clients
import Verif.Lemmas.DemoRounds
import Verif.Lemmas.GG18Keygen
import Verif.Lemmas.GG18Sign
import Verif.Lemmas.Blame
import Verif.Lemmas.SignChecks
import Verif.Lemmas.DemoKeygen
import Verif.Lemmas.DemoSign

/-! # Inversion of the rounds of one GG18 demo client -/

namespace Verif.Demo

section

variable {ε α β : Type} {n k : ℕ}

theorem poll_eq (n k : ℕ) (b : ℕ → α) :
    poll (k + 1) n b = (GG20.Sign.others n k).map (fun j => b (j + 1)) :=
  filter_range'_others n k b

theorem peers_map (n k : ℕ) (f : ℕ → β) :
    (Spec.peers (k + 1) n).map f = (GG20.Sign.others n k).map (fun j => f (j + 1)) := by
  rw [peers_eq_others, List.map_map]; rfl

theorem mem_peers {j : ℕ} (h : j ∈ Spec.peers (k + 1) n) : ∃ l < n, l ≠ k ∧ j = l + 1 := by
  rw [peers_eq_others] at h
  obtain ⟨l, hl, rfl⟩ := List.mem_map.1 h
  exact ⟨l, (GG20.Sign.mem_others.1 hl).1, (GG20.Sign.mem_others.1 hl).2, rfl⟩

/-- The own value at position `k`, the received ones elsewhere. -/
def fill (n k : ℕ) (own : α) (b : ℕ → α) : List α :=
  (List.range n).map (fun j => if j = k then own else b (j + 1))

theorem reassemble_poll (own : α) (b : ℕ → α) :
    (reassemble n (k + 1) own (poll (k + 1) n b) : Res ε (List α)) = .ok (fill n k own b) := by
  have h := reassemble_others (ε := ε) n k (fun j => if j = k then own else b (j + 1))
  rw [poll_eq, fill, ← h, if_pos rfl]
  congr 1
  refine List.map_congr_left fun j hj => ?_
  rw [if_neg (GG20.Sign.mem_others.1 hj).2]

theorem format_poll (hk : k < n) (own : α) (b : ℕ → α) :
    (format_vec_from_reads (poll (k + 1) n b) (k + 1) own : Res ε (List α)) = .ok (fill n k own b) := by
  have := reassemble_poll (ε := ε) (n := n) (k := k) own b
  unfold format_vec_from_reads
  have hl : (poll (k + 1) n b).length + 1 = n := by
    rw [poll_eq, List.length_map, length_others hk]; omega
  rw [hl]
  exact this

theorem vecRemove_fill (hk : k < n) (own : α) (b : ℕ → α) :
    (vecRemove (fill n k own b) k : Res ε (α × List α)) = .ok (own, poll (k + 1) n b) := by
  unfold fill
  rw [vecRemove_range hk, if_pos rfl, poll_eq]
  congr 2
  refine List.map_congr_left fun j hj => ?_
  rw [if_neg (GG20.Sign.mem_others.1 hj).2]

@[simp] theorem length_fill (own : α) (b : ℕ → α) : (fill n k own b).length = n := by simp [fill]

theorem length_poll (hk : k < n) (b : ℕ → α) : (poll (k + 1) n b).length = n - 1 := by
  rw [poll_eq, List.length_map, length_others hk]

theorem map_fill (own : α) (b : ℕ → α) (f : α → β) :
    (fill n k own b).map f = fill n k (f own) (fun j => f (b j)) := by
  simp only [fill, List.map_map]
  refine List.map_congr_left fun j _ => ?_
  simp only [Function.comp]; split <;> rfl

theorem map_poll (b : ℕ → α) (f : α → β) : (poll (k + 1) n b).map f = poll (k + 1) n (fun j => f (b j)) := by
  simp [poll]

theorem fill_peer {l : ℕ} (hl : l < n) (hne : l ≠ k) (own : α) (b : ℕ → α) :
    (fill n k own b)[l]? = some (b (l + 1)) := by
  simp [fill, hl, hne]

theorem fill_own (hk : k < n) (own : α) (b : ℕ → α) : (fill n k own b)[k]? = some own := by
  simp [fill, hk]

theorem poll_peer {l : ℕ} (hk : k < n) (hl : l < n) (hne : l ≠ k) (b : ℕ → α) :
    (poll (k + 1) n b)[Spec.peerPos k l]? = some (b (l + 1)) := by
  have := get_others (ε := Unit) hk (peerPos_lt hl hk hne) (fun j => b (j + 1))
  rw [otherInd_peerPos hne] at this
  rw [poll_eq]
  exact Res.get_eq_ok.1 this

theorem insertIdx_poll (hk : k < n) (own : α) (b : ℕ → α) :
    (poll (k + 1) n b).insertIdx k own = fill n k own b := by
  have hv := vecRemove_fill (ε := Unit) hk own b
  unfold vecRemove at hv
  obtain ⟨a, ha, h⟩ := Res.bind_eq_ok.1 hv
  simp only [Res.ok.injEq, Prod.mk.injEq] at h
  obtain ⟨rfl, h⟩ := h
  rw [← h]
  have hl : k < (fill n k a b).length := by simpa using hk
  have : (fill n k a b)[k] = a := by simp [fill]
  have h' := List.insertIdx_eraseIdx_getElem hl
  rwa [this] at h'

variable {M : Type} [AddCommMonoid M]

theorem sum_fill (hk : k < n) (own : M) (b : ℕ → M) :
    (fill n k own b).sum = own + ((Spec.peers (k + 1) n).map b).sum := by
  have h := sum_others hk (fun j => if j = k then own else b (j + 1))
  rw [← sum_map_range_eq, if_pos rfl] at h
  rw [peers_map, fill, ← h]
  congr 2
  refine List.map_congr_left fun j hj => ?_
  rw [if_neg (by simpa using (List.mem_filter.1 hj).2)]

omit [AddCommMonoid M] in
theorem sum_poll [AddCommMonoid M] (b : ℕ → M) :
    (poll (k + 1) n b).sum = ((Spec.peers (k + 1) n).map b).sum := rfl

/-- A successful loop over the other parties. -/
theorem mapM_peers_ok [Inhabited β] {F : ℕ → Res ε β} {bs : List β} (hk : k < n)
    (h : Res.mapM F (List.range (n - 1)) = .ok bs) :
    ∃ g : ℕ → β, bs = poll (k + 1) n g ∧
      ∀ l < n, l ≠ k → F (Spec.peerPos k l) = .ok (g (l + 1)) := by
  obtain ⟨hl, h⟩ := mapM_range_get h
  refine ⟨fun j => (bs[Spec.peerPos k (j - 1)]?).getD default, ?_, fun l hl' hne => ?_⟩
  · rw [poll_eq, GG20.Sign.others, ← range_map_otherInd hk, List.map_map]
    refine List.ext_getElem (by simp [hl]) fun i h1 h2 => ?_
    simp only [List.getElem_map, List.getElem_range, Function.comp, Nat.add_sub_cancel,
      peerPos_otherInd, List.getElem?_eq_getElem h1, Option.getD_some]
  · obtain ⟨b, h1, h2⟩ := h _ (peerPos_lt hl' hk hne)
    simp only [Nat.add_sub_cancel, h1, h2, Option.getD_some]

end

theorem _root_.Verif.Res.unwrap_eq_ok {ε ε' α : Type} {x : Res ε α} {a : α} :
    (x.unwrap : Res ε' α) = .ok a ↔ x = .ok a := by cases x <;> simp

theorem mapM_getElem {ε α β : Type} {f : α → Res ε β} {l : List α} {bs : List β}
    (h : Res.mapM f l = .ok bs) {i : ℕ} {a : α} {b : β} (ha : l[i]? = some a) (hb : bs[i]? = some b) :
    f a = .ok b := by
  have h1 := Res.mapM_eq_ok.1 h
  obtain ⟨h2, rfl⟩ := List.getElem?_eq_some_iff.1 ha
  obtain ⟨h3, rfl⟩ := List.getElem?_eq_some_iff.1 hb
  exact (List.forall₂_iff_get.1 h1).2 i h2 h3

theorem foldl_add_eq {M : Type} [AddCommMonoid M] (l : List M) (a : M) :
    l.foldl (· + ·) a = a + l.sum := by
  induction l generalizing a with
  | nil => simp
  | cons b l ih => rw [List.foldl_cons, ih, List.sum_cons, add_assoc]

/-! ### Key generation -/

namespace Keygen

open EC Crypto GG18 Spec

variable [Crypto]

theorem client_ok {A : Aead} {t n k : ℕ} (ht : t < n) (hk : k < n) {rnd : ℕ → Rand} {b : Posted A}
    {file : KeyFile} (h : client A t n rnd (k + 1) b = .ok file) :
    ∃ share, Spec.GG18.KeygenChecks A n (k + 1) (rnd (k + 1)) b share file := by
  unfold client at h
  have hu : (start (k + 1) (rnd (k + 1))).1.keys.u_i = (rnd (k + 1)).u := rfl
  have hd : (start (k + 1) (rnd (k + 1))).1.keys.dk = (rnd (k + 1)).dk := rfl
  have hy : (start (k + 1) (rnd (k + 1))).1.decom.y_i = (rnd (k + 1)).u • G := rfl
  generalize start (k + 1) (rnd (k + 1)) = s1 at h hu hd hy
  obtain ⟨⟨keys, bc, decom⟩, o1⟩ := s1
  dsimp only at h hu hd hy
  obtain ⟨⟨st2, o2⟩, h2, h⟩ := Res.bind_eq_ok.1 h
  obtain ⟨⟨st3, o3⟩, h3, h⟩ := Res.bind_eq_ok.1 h
  obtain ⟨⟨st4, o4⟩, h4, h⟩ := Res.bind_eq_ok.1 h
  obtain ⟨⟨st5, o5⟩, h5, h⟩ := Res.bind_eq_ok.1 h
  -- round 2
  unfold round2 at h2
  obtain ⟨-, -, h2⟩ := Res.bind_eq_ok.1 h2
  simp only [Res.ok.injEq, Prod.mk.injEq, Nat.add_sub_cancel, insertIdx_poll hk] at h2
  obtain ⟨rfl, -⟩ := h2
  -- round 3
  unfold round3 at h3
  simp only [reassemble_poll, Res.bind_ok] at h3
  obtain ⟨eks, hek, h3⟩ := Res.bind_eq_ok.1 h3
  split at h3
  · cases h3
  rename_i head tail hpv
  obtain ⟨⟨vss, shares, _⟩, hp1, h3⟩ := Res.bind_eq_ok.1 h3
  rw [Res.unwrap_eq_ok] at hp1
  rcases phase1_cases keys ht (decoms := fill n k
      decom b.b2) (bcs := fill n k bc b.b1)
      (rnd (k + 1)).coefs (by simp) (by simp) with ⟨hval, he⟩ | ⟨_, _, _, _, ⟨-, he⟩ | ⟨-, he⟩⟩
  rotate_left
  · rw [he] at hp1; cases hp1
  · rw [he] at hp1; cases hp1
  rw [he] at hp1
  simp only [Res.ok.injEq, Prod.mk.injEq] at hp1
  obtain ⟨rfl, rfl, rfl⟩ := hp1
  obtain ⟨_, -, h3⟩ := Res.bind_eq_ok.1 h3
  simp only [Res.ok.injEq, Prod.mk.injEq] at h3
  obtain ⟨rfl, -⟩ := h3
  -- round 4
  unfold round4 at h4
  obtain ⟨received, hrec, h4⟩ := Res.bind_eq_ok.1 h4
  obtain ⟨share, rfl, hshare⟩ := mapM_peers_ok hk hrec
  obtain ⟨own, hown, h4⟩ := Res.bind_eq_ok.1 h4
  simp only [reassemble_poll, Res.bind_ok, Res.ok.injEq, Prod.mk.injEq] at h4
  obtain ⟨rfl, -⟩ := h4
  rw [Nat.add_sub_cancel, GG20.Keygen.get_map_range hk] at hown
  injection hown with hown
  -- round 5
  unfold round5 at h5
  simp only [reassemble_poll, Res.bind_ok] at h5
  obtain ⟨⟨sk, pf⟩, hp2, h5⟩ := Res.bind_eq_ok.1 h5
  rw [Res.unwrap_eq_ok] at hp2
  simp only [Res.ok.injEq, Prod.mk.injEq] at h5
  obtain ⟨rfl, -⟩ := h5
  rw [map_fill] at hpv hp2
  rcases phase2_cases (t := t) (n := n) (ys := fill n k decom.y_i
      (fun j => (b.b2 j).y_i)) (shares := fill n k own share) (vss := fill n k _ b.b4) (k + 1)
      (rnd (k + 1)).dlogNonce (by simp) (by simp) (by simp) with
    ⟨hvs, he⟩ | ⟨_, -, -, -, -, he⟩ | ⟨_, -, -, -, he⟩
  rotate_left
  · rw [he] at hp2; cases hp2
  · rw [he] at hp2; cases hp2
  rw [he] at hp2
  simp only [Res.ok.injEq, Prod.mk.injEq] at hp2
  obtain ⟨rfl, rfl⟩ := hp2
  -- the last proofs
  unfold finish at h
  simp only [reassemble_poll, Res.bind_ok] at h
  obtain ⟨_, hdl, h⟩ := Res.bind_eq_ok.1 h
  rw [Res.unwrap_eq_ok] at hdl
  obtain ⟨pks, hpk, h⟩ := Res.bind_eq_ok.1 h
  injection h with h
  subst h
  rcases dlog_cases (t := t) (n := n) (proofs := fill n k _ b.b5) (ys := (fill n k decom b.b2).map (·.y_i))
      (by simp) (by simp) with ⟨hds, -⟩ | ⟨-, he⟩
  swap
  · rw [he] at hdl; cases hdl
  have hsum : tail.foldl (· + ·) head =
      (rnd (k + 1)).u • G + ((peers (k + 1) n).map (fun j => (b.b2 j).y_i)).sum := by
    rw [← hy, ← sum_fill hk, hpv, List.sum_cons, foldl_add_eq]
  refine ⟨share, ?_, ?_, ?_, ?_, ?_, ?_, ?_, ⟨rfl, hu, hd, ?_⟩, ?_⟩
  · intro j hj
    obtain ⟨l, hl, hne, rfl⟩ := mem_peers hj
    obtain ⟨bc', d, e1, e2, h1, h2⟩ := hval l hl
    rw [fill_peer hl hne] at e1 e2
    cases e1; cases e2
    exact h1
  · intro j hj
    obtain ⟨l, hl, hne, rfl⟩ := mem_peers hj
    obtain ⟨bc', d, e1, e2, h1, h2⟩ := hval l hl
    rw [fill_peer hl hne] at e1 e2
    cases e1; cases e2
    exact h2
  · intro j hj
    obtain ⟨l, hl, hne, rfl⟩ := mem_peers hj
    have hs := hshare l hl hne
    unfold decShare at hs
    obtain ⟨c, e1, hs1⟩ := Res.bind_eq_ok.1 hs
    obtain ⟨key, e2, hs2⟩ := Res.bind_eq_ok.1 hs1
    obtain ⟨z, e3, hs3⟩ := Res.bind_eq_ok.1 hs2
    rw [Res.get_eq_ok, poll_peer hk hl hne] at e1
    injection e1 with e1
    subst e1
    rw [Res.ofOption_eq_ok] at e3
    injection hs3 with hs3
    rw [Res.get_eq_ok] at e2
    have hx := mapM_getElem hek (poll_peer hk hl hne b.b2) e2
    unfold encKey at hx
    obtain ⟨x, e4, hx⟩ := Res.bind_eq_ok.1 hx
    rw [Res.ofOption_eq_ok, hu] at e4
    obtain ⟨hx1, hx2⟩ := pad32_eq_ok hx
    exact ⟨x, key, z, e4, hx1, by rw [hx2, fromBytes_toBytes, Int.natAbs_natCast], e3, hs3.symm⟩
  · intro j hj
    obtain ⟨l, hl, hne, rfl⟩ := mem_peers hj
    obtain ⟨y, s, v, e1, e2, e3, h1, h2⟩ := hvs l hl
    rw [fill_peer hl hne] at e1 e2 e3
    cases e1; cases e2; cases e3
    exact ⟨h1, h2⟩
  · intro j hj
    obtain ⟨l, hl, hne, rfl⟩ := mem_peers hj
    obtain ⟨pf, e1, h1⟩ := hds l hl
    rw [fill_peer hl hne] at e1
    cases e1
    exact h1
  · exact ⟨hsum, by rw [hsum, sum_fill hk, hy]⟩
  · show (fill n k own share).sum = _
    rw [sum_fill hk, ← hown, hu]
  · intro j hj
    obtain ⟨l, hl, hne, rfl⟩ := mem_peers hj
    obtain ⟨e, h1, h2⟩ := (mapM_range_get hpk).2 l hl
    obtain ⟨bc', h2, h3⟩ := Res.bind_eq_ok.1 h2
    rw [Res.get_eq_ok, fill_peer hl hne] at h2
    cases h2
    injection h3 with h3
    subst h3
    exact ⟨h1, fill_peer hl hne _ _⟩
  · refine ⟨length_fill _ _, _, fill_own hk _ _, ?_⟩
    rw [hu]

/-- A client among honest peers finishes. -/
theorem client_honest (A : Aead) {t n k : ℕ} (ht : t < n) {rnd : ℕ → Rand}
    (hon : ∀ k < n, Spec.GG18.HonestKeygenRand t (rnd (k + 1))) (hk : k < n) :
    ∃ b, client A t n rnd (k + 1) b = .ok (kFile t n rnd k) := by
  have hon' : ∀ k < n, ∃ t', Spec.GG18.HonestKeygenRand t' (rnd (k + 1)) := fun k hk => ⟨t, hon k hk⟩
  refine ⟨⟨fun j => kBc rnd (j - 1), fun j => kDec rnd (j - 1), fun j => kCt A rnd (j - 1) k,
    fun j => kVss t n rnd (j - 1), fun j => kPf n rnd (j - 1)⟩, ?_⟩
  unfold client
  simp only [poll_eq, Nat.add_sub_cancel]
  rw [show (start (k + 1) (rnd (k + 1))).1 = ⟨kKeys rnd k, kBc rnd k, kDec rnd k⟩ from rfl,
    round2_ok hk, Res.bind_ok, round3_ok A ht hon' hk, Res.bind_ok, round4_ok A hon' hk, Res.bind_ok,
    round5_ok, Res.bind_ok, finish_ok]

end Keygen

/-! ### Signing -/

namespace Sign

open EC Crypto GG18 Spec Demo.Keygen

variable [Crypto]

theorem xi_com_ok {ε : Type} {vs : List Vss} {xs : List Pt}
    (h : (get_commitments_to_xi vs : Res ε (List Pt)) = .ok xs) {i : ℕ} {P : Pt} (hP : xs[i]? = some P) :
    P = (vs.map (fun v => feldmanEval v.commitments ((i + 1 : ℕ) : Sc))).sum := by
  unfold get_commitments_to_xi at h
  obtain ⟨len, -, h⟩ := Res.bind_eq_ok.1 h
  have hi := (List.getElem?_eq_some_iff.1 hP).1
  obtain ⟨hl, h⟩ := mapM_range_get h
  obtain ⟨P', hP', h⟩ := h i (by omega)
  rw [hP] at hP'
  cases hP'
  obtain ⟨cs, hcs, h⟩ := Res.bind_eq_ok.1 h
  injection h with h
  subst h
  obtain ⟨hl', hcs⟩ := mapM_range_get hcs
  congr 1
  refine List.ext_getElem (by simp [hl']) fun j h1 h2 => ?_
  obtain ⟨c, hc, h⟩ := hcs j (by omega)
  rw [List.getElem?_eq_getElem h1] at hc
  cases hc
  obtain ⟨v, hv, h⟩ := Res.bind_eq_ok.1 h
  rw [Res.get_eq_ok] at hv
  rw [Res.ofOption_eq_ok] at h
  have hne : v.commitments ≠ [] := by
    intro h0; rw [h0, pointCommitment_nil] at h; cases h
  rw [pointCommitment_eq hne] at h
  injection h with h
  obtain ⟨_, rfl⟩ := List.getElem?_eq_some_iff.1 hv
  rw [List.getElem_map, h]

/-- What is fixed after round 1. -/
theorem round1_inv {t k : ℕ} {rnd : ℕ → Rand} {key : KeyFile} {b0 : ℕ → ℕ} {ctx : Ctx}
    {out : List (Msg (SignBroadcastPhase1 × MessageA))}
    (h : round1 t rnd (k + 1) key (poll (k + 1) (t + 1) b0) = .ok (ctx, out)) :
    ctx.key = key ∧ ctx.signers_vec = (fill (t + 1) k key.party_id b0).map (· - 1) ∧
    (∀ l < t + 1, l ≠ k → 1 ≤ b0 (l + 1)) ∧ ctx.sign_keys.k_i = (rnd (k + 1)).k ∧
    ctx.decommit.g_gamma_i = (rnd (k + 1)).gamma • G ∧
    (get_commitments_to_xi key.vss_scheme_vec : Res Empty (List Pt)) = .ok ctx.xi_com_vec := by
  unfold round1 at h
  simp only [reassemble_poll, Res.bind_ok] at h
  obtain ⟨sv, hsv, h⟩ := Res.bind_eq_ok.1 h
  obtain ⟨me, hme, h⟩ := Res.bind_eq_ok.1 h
  obtain ⟨_, -, h⟩ := Res.bind_eq_ok.1 h
  obtain ⟨sk, hsk, h⟩ := Res.bind_eq_ok.1 h
  obtain ⟨xi, hxi, h⟩ := Res.bind_eq_ok.1 h
  obtain ⟨ma, -, h⟩ := Res.bind_eq_ok.1 h
  simp only [Res.ok.injEq, Prod.mk.injEq] at h
  obtain ⟨rfl, -⟩ := h
  unfold SignKeys.create at hsk
  obtain ⟨li, -, hsk⟩ := Res.bind_eq_ok.1 hsk
  injection hsk with hsk
  subst hsk
  have hp : ∀ {x y : ℕ}, pred16 x = .ok y → 1 ≤ x ∧ y = x - 1 := by
    intro x y hxy
    unfold pred16 at hxy
    split at hxy
    · cases hxy
    · injection hxy with hxy
      exact ⟨by omega, hxy.symm⟩
  have hf := List.forall₂_iff_get.1 (Res.mapM_eq_ok.1 hsv)
  refine ⟨rfl, ?_, ?_, rfl, rfl, hxi⟩
  · refine List.ext_getElem (by rw [List.length_map, hf.1]) fun i h1 h2 => ?_
    have := (hp (hf.2 i (by simpa using h2) h1)).2
    simpa using this
  · intro l hl hne
    have := (hp (hf.2 l (by simpa using hl) (by rw [← hf.1]; simpa using hl))).1
    simpa [fill, hne] using this

theorem release_ok {t k : ℕ} (hk : k < t + 1) {message : ℤ} {rnd : ℕ → Rand} {key : KeyFile} {b : Posted}
    {st9 : St9} {out : List (Msg Sc)} (h : release t message rnd (k + 1) key b = .ok (st9, out)) :
    ∃ own6 own8 R, Spec.GG18.ReleaseChecks (t + 1) (k + 1) key message (rnd (k + 1)) b own6 own8 R st9.s_i ∧
      out = [⟨k + 1, none, st9.s_i⟩] ∧ st9.local_sig.R = R ∧ st9.local_sig.y = key.y_sum ∧
      st9.local_sig.m = message ∧ st9.local_sig.s_i = st9.s_i := by
  unfold release at h
  obtain ⟨⟨ctx, o1⟩, h1, h⟩ := Res.bind_eq_ok.1 h
  obtain ⟨⟨st2, o2⟩, h2, h⟩ := Res.bind_eq_ok.1 h
  obtain ⟨⟨st3, o3⟩, h3, h⟩ := Res.bind_eq_ok.1 h
  obtain ⟨⟨st4, o4⟩, h4, h⟩ := Res.bind_eq_ok.1 h
  obtain ⟨⟨st5, o5⟩, h5, h⟩ := Res.bind_eq_ok.1 h
  obtain ⟨⟨st6, o6⟩, h6, h⟩ := Res.bind_eq_ok.1 h
  obtain ⟨⟨st7, o7⟩, h7, h⟩ := Res.bind_eq_ok.1 h
  obtain ⟨⟨st8, o8⟩, h8, h9⟩ := Res.bind_eq_ok.1 h
  dsimp only at h2 h3 h4 h5 h6 h7 h8 h9
  obtain ⟨hkey, hsv, hpos, hki, hga, hxi⟩ := round1_inv h1
  -- round 2
  unfold round2 at h2
  simp only [map_poll, reassemble_poll, Res.bind_ok] at h2
  obtain ⟨_, -, h2⟩ := Res.bind_eq_ok.1 h2
  obtain ⟨as, -, h2⟩ := Res.bind_eq_ok.1 h2
  simp only [Res.ok.injEq, Prod.mk.injEq] at h2
  obtain ⟨rfl, -⟩ := h2
  -- round 3
  unfold round3 at h3
  rw [mapM_get _ (by rw [length_poll hk]; rfl), Res.bind_ok] at h3
  obtain ⟨ab, hab, h3⟩ := Res.bind_eq_ok.1 h3
  obtain ⟨g, rfl, hg⟩ := mapM_peers_ok (n := t + 1) hk hab
  obtain ⟨delta_i, -, h3⟩ := Res.bind_eq_ok.1 h3
  obtain ⟨sigma, -, h3⟩ := Res.bind_eq_ok.1 h3
  simp only [Res.ok.injEq, Prod.mk.injEq] at h3
  obtain ⟨rfl, -⟩ := h3
  -- round 4
  unfold round4 at h4
  simp only [format_poll hk, Res.bind_ok] at h4
  obtain ⟨delta_inv, hdi, h4⟩ := Res.bind_eq_ok.1 h4
  simp only [Res.ok.injEq, Prod.mk.injEq] at h4
  obtain ⟨rfl, -⟩ := h4
  -- round 5
  unfold round5 at h5
  simp only [format_poll hk, Res.bind_ok, Nat.add_sub_cancel, vecRemove_fill hk, map_poll] at h5
  obtain ⟨R0, hR0, h5⟩ := Res.bind_eq_ok.1 h5
  rw [Res.unwrap_eq_ok] at hR0
  rcases phase4_cases delta_inv (b_proofs := poll (k + 1) (t + 1) (fun j => (b.b2 j).1.b_proof))
      (decoms := poll (k + 1) (t + 1) b.b4) (bcs := poll (k + 1) (t + 1) (fun j => (b.b1 j).1))
      (by simp [length_poll hk]) (by simp [length_poll hk]) with ⟨hgam, he⟩ | ⟨-, he⟩
  swap
  · rw [he] at hR0; cases hR0
  rw [he] at hR0
  injection hR0 with hR0
  obtain ⟨ls, hls, h5⟩ := Res.bind_eq_ok.1 h5
  simp only [Res.ok.injEq, Prod.mk.injEq] at h5
  obtain ⟨rfl, -⟩ := h5
  generalize hRR : R0 + delta_inv • ctx.decommit.g_gamma_i = R at *
  unfold LocalSignature.phase5_local_sig at hls
  obtain ⟨x, hx, hls⟩ := Res.bind_eq_ok.1 hls
  rw [Res.ofOption_eq_ok] at hx
  injection hls with hls
  obtain ⟨y, hR⟩ : ∃ y, coords R = some (x, y) := by
    unfold xc at hx
    obtain ⟨⟨x', y⟩, h1, h2⟩ := Option.map_eq_some_iff.1 hx
    exact ⟨y, by rw [h1, ← h2]⟩
  have hlR : ls.R = R := by rw [← hls]
  have hlm : ls.m = message := by rw [← hls]
  have hly : ls.y = key.y_sum := by rw [← hls, hkey]
  have hll : ls.l_i = (rnd (k + 1)).l := by rw [← hls]
  have hlr : ls.rho_i = (rnd (k + 1)).rho := by rw [← hls]
  have hlsi : ls.s_i = (message : Sc) * (rnd (k + 1)).k + (x : Sc) * sigma := by
    rw [← hls, hki, scOfCoord_eq]
  -- round 6
  unfold round6 at h6
  simp only [format_poll hk, Res.bind_ok, Res.ok.injEq, Prod.mk.injEq] at h6
  obtain ⟨rfl, -⟩ := h6
  -- round 7
  unfold round7 at h7
  simp only [format_poll hk, Res.bind_ok, Nat.add_sub_cancel, vecRemove_fill hk] at h7
  rw [mapM_get _ (by rw [length_poll hk]; rfl), Res.bind_ok] at h7
  simp only [map_poll] at h7
  obtain ⟨⟨com2, decom2⟩, hp5, h7⟩ := Res.bind_eq_ok.1 h7
  rw [Res.unwrap_eq_ok] at hp5
  simp only [Res.ok.injEq, Prod.mk.injEq] at h7
  obtain ⟨rfl, -⟩ := h7
  generalize hown6 : (ls.phase5a (rnd (k + 1)).blind5a (rnd (k + 1)).dlogNonce (rnd (k + 1)).heg1
    (rnd (k + 1)).heg2).2.1 = own6 at *
  rcases phase5c_cases ls (hlR ▸ hR) (decoms := poll (k + 1) (t + 1) (fun j => (b.b6 j).1))
      (coms := poll (k + 1) (t + 1) b.b5) (hegs := poll (k + 1) (t + 1) (fun j => (b.b6 j).2.1))
      (dlogs := poll (k + 1) (t + 1) (fun j => (b.b6 j).2.2)) own6.V_i R (rnd (k + 1)).blind5c
      (by simp [length_poll hk]) (by simp [length_poll hk]) (by simp [length_poll hk]) with
    ⟨h5a, he5⟩ | ⟨-, he5⟩
  swap
  · rw [he5] at hp5; cases hp5
  rw [he5] at hp5
  simp only [Res.ok.injEq, Prod.mk.injEq, map_poll] at hp5
  obtain ⟨-, hd2⟩ := hp5
  -- round 8
  unfold round8 at h8
  simp only [format_poll hk, Res.bind_ok, Res.ok.injEq, Prod.mk.injEq] at h8
  obtain ⟨rfl, -⟩ := h8
  -- round 9
  unfold round9 at h9
  simp only [format_poll hk, Res.bind_ok] at h9
  rw [mapM_get _ (by simp), Res.bind_ok] at h9
  simp only [map_fill] at h9
  obtain ⟨s, hs, h9⟩ := Res.bind_eq_ok.1 h9
  rw [Res.unwrap_eq_ok] at hs
  simp only [Res.ok.injEq, Prod.mk.injEq] at h9
  obtain ⟨rfl, rfl⟩ := h9
  rcases phase5d_cases ls (d2 := fill (t + 1) k decom2 b.b8) (c2 := fill (t + 1) k com2 b.b7)
      (d1 := fill (t + 1) k own6 (fun j => (b.b6 j).1)) (by simp) (by simp) with ⟨h5c, he9⟩ | ⟨-, he9⟩
  swap
  · rw [he9] at hs; cases hs
  rw [he9] at hs
  split at hs
  swap
  · cases hs
  rename_i hbal
  injection hs with hs
  subst hs
  have hchk : ∀ l < t + 1, l ≠ k → (∃ x y,
      (b.b2 (l + 1)).1.verify_proofs_get_alpha key.party_keys.dk (rnd (k + 1)).k = .ok x ∧
      (b.b2 (l + 1)).2.verify_proofs_get_alpha key.party_keys.dk (rnd (k + 1)).k = .ok y) ∧
      Spec.GG18.shareCommitment key ((List.range' 1 (t + 1)).map
        (fun p => if p = k + 1 then key.party_id else b.b0 p)) (b.b0 (l + 1)) =
        some (b.b2 (l + 1)).2.b_proof.pk := by
    intro l hl hne
    have hc := hg l hl hne
    unfold checkAnswer at hc
    simp only [Nat.add_sub_cancel, otherInd_peerPos hne, map_poll] at hc
    obtain ⟨m1, hm1, hc1⟩ := Res.bind_eq_ok.1 hc
    obtain ⟨x1, hx1, hc2⟩ := Res.bind_eq_ok.1 hc1
    obtain ⟨m2, hm2, hc3⟩ := Res.bind_eq_ok.1 hc2
    obtain ⟨x2, hx2, hc4⟩ := Res.bind_eq_ok.1 hc3
    obtain ⟨si, hsi, hc5⟩ := Res.bind_eq_ok.1 hc4
    obtain ⟨com, hcom, hc6⟩ := Res.bind_eq_ok.1 hc5
    obtain ⟨_, -, hc7⟩ := Res.bind_eq_ok.1 hc6
    obtain ⟨gw, hgw, hc8⟩ := Res.bind_eq_ok.1 hc7
    obtain ⟨_, has, -⟩ := Res.bind_eq_ok.1 hc8
    rw [Res.assert_eq_ok, decide_eq_true_eq] at has
    rw [Res.get_eq_ok, poll_peer hk hl hne] at hm1 hm2
    cases hm1
    cases hm2
    rw [Res.unwrap_eq_ok, hkey, hki] at hx1 hx2
    refine ⟨⟨x1, x2, hx1, hx2⟩, ?_⟩
    rw [Res.get_eq_ok, hsv, List.getElem?_map, fill_peer hl hne, Option.map_some] at hsi
    injection hsi with hsi
    rw [Res.get_eq_ok] at hcom
    have hP := xi_com_ok hxi hcom
    unfold update_commitments_to_xi at hgw
    obtain ⟨li, hli, hgw⟩ := Res.bind_eq_ok.1 hgw
    rw [Res.ofOption_eq_ok, ← hsi, hsv] at hli
    injection hgw with hgw
    have hids : (List.range' 1 (t + 1)).map (fun p => if p = k + 1 then key.party_id else b.b0 p) =
        fill (t + 1) k key.party_id b.b0 := by
      rw [range'_one, List.map_map]
      refine List.map_congr_left fun j _ => ?_
      simp [Function.comp]
    unfold Spec.GG18.shareCommitment
    rw [hids, hli, Option.map_some, has, ← hgw, hP, ← hsi, Nat.sub_add_cancel (hpos l hl hne)]
  have hlp : ∀ {α : Type} (f : ℕ → α) {l : ℕ}, l < t + 1 → l ≠ k →
      Spec.peerPos k l < (poll (k + 1) (t + 1) f).length := by
    intro α f l hl hne
    rw [length_poll hk]
    exact peerPos_lt hl hk hne
  refine ⟨own6, decom2, R, ⟨?_, ?_, ?_, ?_, ?_, ?_, ?_, ?_⟩, rfl, hlR, hly, hlm, rfl⟩
  · intro j hj
    obtain ⟨l, hl, hne, rfl⟩ := mem_peers hj
    exact (hchk l hl hne).1
  · intro j hj
    obtain ⟨l, hl, hne, rfl⟩ := mem_peers hj
    exact (hchk l hl hne).2
  · intro j hj
    obtain ⟨l, hl, hne, rfl⟩ := mem_peers hj
    obtain ⟨pf, d, bc, e1, e2, e3, h1, h2⟩ := hgam _ (hlp _ hl hne)
    rw [poll_peer hk hl hne] at e1 e2 e3
    cases e1; cases e2; cases e3
    exact ⟨h1, h2⟩
  · refine ⟨delta_i, ?_⟩
    unfold phase3_reconstruct_delta at hdi
    rw [Res.ofOption_eq_ok, sum_fill hk] at hdi
    unfold scInvert at hdi
    split at hdi
    · cases hdi
    rename_i hne
    injection hdi with hdi
    refine ⟨hne, ?_⟩
    rw [← hRR, ← hR0, ← hdi, hga, map_poll, ← smul_add, smul_smul, mul_inv_cancel₀ hne, one_smul, add_comm]
    rfl
  · intro j hj
    obtain ⟨l, hl, hne, rfl⟩ := mem_peers hj
    obtain ⟨d, c, hh, p, e1, e2, e3, e4, h1, h2, h3⟩ := h5a _ (hlp _ hl hne)
    rw [poll_peer hk hl hne] at e1 e2 e3 e4
    cases e1; cases e2; cases e3; cases e4
    exact ⟨h1, h2, h3⟩
  · intro j hj
    obtain ⟨l, hl, hne, rfl⟩ := mem_peers hj
    obtain ⟨d, c, e1, e2, h1⟩ := h5c l (by simpa using hl)
    rw [fill_peer hl hne] at e1 e2
    cases e1; cases e2
    exact h1
  · refine ⟨x, y, sigma, hR, hlsi, ?_, ?_, ?_, ?_, ?_⟩
    · rw [← hown6, ← hlR, ← hll]; rfl
    · rw [← hown6, ← hlr]; rfl
    · rw [← hown6, ← hlr, ← hll]; rfl
    · rw [← hd2, ← hlr, ← hlm, ← hly]; rfl
    · rw [← hd2, ← hll]; rfl
  · simp only [map_fill, sum_fill hk] at hbal
    exact hbal

/-- A client among honest peers finishes. -/
theorem client_honest {t n : ℕ} {d : Sc} {x : ℕ → Sc} {dk : ℕ → DecKey} {s_l : List ℕ}
    {key : ℕ → Demo.Keygen.KeyFile} {rnd : ℕ → Demo.Sign.Rand}
    (h : Spec.GG18.HonestRoom n (d • G) x dk s_l key rnd) (hx : Reconstructs t n x d)
    (hlen : t + 1 ≤ s_l.length) (message : ℤ)
    (hm : ∀ xr y, coords ((∑ j ∈ Finset.range s_l.length, (rnd (j + 1)).k)⁻¹ • (G : Pt)) = some (xr, y) →
      (message : Sc) + (xr : Sc) * d ≠ 0) {k : ℕ} (hk : k < s_l.length) :
    ∃ b sig, client (s_l.length - 1) message rnd (k + 1) (key (k + 1)) b = .ok sig := by
  obtain ⟨xr, y, hc, hse, hs0⟩ := honest_equation h hx hlen message hm
  have he := GG20.Sign.ecdsaEq_of_eq hc hs0 hse
  refine ⟨⟨fun j => (key j).party_id, fun j => (cCom rnd (j - 1), cMA dk s_l rnd (j - 1)),
    fun j => cB x dk s_l rnd (j - 1) k, fun j => GG20.Sign.oDelta s_l (conv rnd) (j - 1),
    fun j => cDec rnd (j - 1), fun j => cC1 x s_l rnd message xr (j - 1),
    fun j => cOpen x s_l rnd message xr (j - 1), fun j => cC2 x (d • G) s_l rnd message xr (j - 1),
    fun j => cD2 x (d • G) s_l rnd message xr (j - 1), fun j => cS x s_l rnd message xr (j - 1)⟩,
    ⟨(xr : Sc), normS (∑ j ∈ Finset.range s_l.length, cS x s_l rnd message xr j),
      recidOf (∑ j ∈ Finset.range s_l.length, cS x s_l rnd message xr j) y⟩, ?_⟩
  unfold client release
  simp only [poll_eq, Nat.sub_add_cancel (Nat.lt_of_le_of_lt (Nat.zero_le k) hk), Nat.add_sub_cancel]
  rw [show (start (k + 1) (key (k + 1))).1 = key (k + 1) from rfl, round1_ok h hk, Res.bind_ok,
    round2_ok h hk, Res.bind_ok, round3_ok h hk, Res.bind_ok, round4_ok h hk, Res.bind_ok,
    round5_ok h message hc hk, Res.bind_ok, round6_ok message hk, Res.bind_ok, round7_ok message hc hk,
    Res.bind_ok, round8_ok message hk, Res.bind_ok, round9_ok message hk hse, Res.bind_ok]
  exact finish_ok message hc hk he


end Sign
end Verif.Demo
