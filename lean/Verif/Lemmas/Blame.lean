import Verif.Spec.Blame
import Verif.Lemmas.SignRun
import Verif.Lemmas.Paillier

/-! # The blame functions: what an answer tells about the collected state -/

namespace Verif

namespace Res

/-- The outcome is not an `Err`. -/
def NoErr {ε α : Type} (r : Res ε α) : Prop := ∀ e, r ≠ .err e

variable {ε α β : Type}

theorem NoErr.ok (a : α) : NoErr (.ok a : Res ε α) := fun _ h => by cases h

theorem NoErr.get (l : List α) (i : ℕ) : NoErr (Res.get l i : Res ε α) := by
  intro e h; unfold Res.get Res.ofOption at h; split at h <;> cases h

theorem NoErr.ofOption (o : Option α) : NoErr (Res.ofOption o : Res ε α) := by
  intro e h; unfold Res.ofOption at h; split at h <;> cases h

theorem NoErr.unwrap {ε' : Type} (r : Res ε' α) : NoErr (Res.unwrap r : Res ε α) := by
  intro e h; cases r <;> cases h

theorem NoErr.bind {r : Res ε α} {f : α → Res ε β} (h : NoErr r) (hf : ∀ a, NoErr (f a)) :
    NoErr (r >>= f) := by
  intro e he
  rcases Res.bind_eq_err.1 he with h1 | ⟨a, -, h2⟩
  · exact h e h1
  · exact hf a e h2

theorem NoErr.mapM {f : α → Res ε β} (hf : ∀ a, NoErr (f a)) (l : List α) : NoErr (Res.mapM f l) := by
  induction l with
  | nil => exact NoErr.ok _
  | cons a l ih => exact (hf a).bind fun b => ih.bind fun _ => NoErr.ok _

theorem NoErr.failing {test : ℕ → Res ε Bool} (h : ∀ i, NoErr (test i)) (l : List ℕ) :
    NoErr (Verif.failing test l) := by
  induction l with
  | nil => exact NoErr.ok _
  | cons a l ih => exact (h a).bind fun b => ih.bind fun _ => NoErr.ok _

theorem NoErr.getCell (mat : List (List α)) (i j : ℕ) : NoErr (Verif.getCell mat i j : Res ε α) :=
  (NoErr.get _ _).bind fun _ => NoErr.get _ _

end Res

open Res

theorem failing_ok {ε : Type} {test : ℕ → Res ε Bool} {l bad : List ℕ} (h : failing test l = .ok bad) :
    (∀ i ∈ l, test i = .ok true ∨ test i = .ok false) ∧ ∀ i, i ∈ bad ↔ i ∈ l ∧ test i = .ok false := by
  induction l generalizing bad with
  | nil => cases h; simp
  | cons a l ih =>
    obtain ⟨b, hb, h⟩ := Res.bind_eq_ok.1 h
    obtain ⟨rest, hr, h⟩ := Res.bind_eq_ok.1 h
    obtain ⟨ih1, ih2⟩ := ih hr
    constructor
    · intro i hi
      rcases List.mem_cons.1 hi with rfl | hi
      · cases b
        · exact Or.inr hb
        · exact Or.inl hb
      · exact ih1 i hi
    · intro i
      cases b with
      | true =>
        cases h
        simp only [if_true, ih2, List.mem_cons]
        constructor
        · rintro ⟨h1, h2⟩; exact ⟨Or.inr h1, h2⟩
        · rintro ⟨rfl | h1, h2⟩
          · rw [hb] at h2; cases h2
          · exact ⟨h1, h2⟩
      | false =>
        cases h
        simp only [Bool.false_eq_true, if_false, List.mem_cons, ih2]
        constructor
        · rintro (rfl | ⟨h1, h2⟩)
          · exact ⟨Or.inl rfl, hb⟩
          · exact ⟨Or.inr h1, h2⟩
        · rintro ⟨rfl | h1, h2⟩
          · exact Or.inl rfl
          · exact Or.inr ⟨h1, h2⟩

theorem failing_of {ε : Type} {test : ℕ → Res ε Bool} {l : List ℕ} {b : ℕ → Bool}
    (h : ∀ i ∈ l, test i = .ok (b i)) : failing test l = .ok (l.filter (fun i => !b i)) := by
  induction l with
  | nil => rfl
  | cons a l ih =>
    simp only [failing, h a (by simp), Res.bind_ok, ih (fun i hi => h i (by simp [hi])),
      List.filter_cons]
    cases b a <;> simp

theorem mem_destutter' (x : ℕ) : ∀ (l : List ℕ) (a : ℕ), x ∈ l.destutter' (· ≠ ·) a ↔ x ∈ a :: l := by
  intro l
  induction l with
  | nil => intro a; simp [List.destutter']
  | cons b l ih =>
    intro a
    unfold List.destutter'
    by_cases h : a ≠ b
    · rw [if_pos h, List.mem_cons, ih b, List.mem_cons (a := x) (b := a)]
    · rw [if_neg h, ih a]
      have : a = b := not_not.1 h
      subst this
      simp

theorem mem_sortDedup {x : ℕ} {l : List ℕ} : x ∈ sortDedup l ↔ x ∈ l := by
  unfold sortDedup
  have hp := (List.mergeSort_perm l (· ≤ ·)).mem_iff (a := x)
  rw [← hp]
  generalize l.mergeSort (fun a b => decide (a ≤ b)) = m
  cases m with
  | nil => simp
  | cons a m => exact mem_destutter' x m a

theorem sortDedup_eq_nil {l : List ℕ} : sortDedup l = [] ↔ l = [] := by
  rw [List.eq_nil_iff_forall_not_mem, List.eq_nil_iff_forall_not_mem]
  simp only [mem_sortDedup]

/-! ### The index arithmetic -/

theorem otherInd_peerPos {b a : ℕ} (h : a ≠ b) : otherInd b (Spec.peerPos b a) = a := by
  unfold otherInd Spec.peerPos; split_ifs <;> omega

theorem peerPos_otherInd (b j : ℕ) : Spec.peerPos b (otherInd b j) = j := by
  unfold otherInd Spec.peerPos; split_ifs <;> omega

theorem backInd_eq (b j : ℕ) : backInd b j = Spec.peerPos (otherInd b j) b := by
  unfold otherInd Spec.peerPos backInd; split_ifs <;> omega

theorem peerPos_lt {m b a : ℕ} (ha : a < m) (hb : b < m) (h : a ≠ b) : Spec.peerPos b a < m - 1 := by
  unfold Spec.peerPos; split_ifs <;> omega

theorem getCell_eq_ok {ε α : Type} {mat : List (List α)} {i j : ℕ} {a : α} :
    (getCell mat i j : Res ε α) = .ok a ↔ ∃ row, mat[i]? = some row ∧ row[j]? = some a := by
  unfold getCell
  simp only [Res.bind_eq_ok, Res.get_eq_ok]

theorem mapM_range_get {ε β : Type} {f : ℕ → Res ε β} {n : ℕ} {bs : List β}
    (h : Res.mapM f (List.range n) = .ok bs) :
    bs.length = n ∧ ∀ i < n, ∃ b, bs[i]? = some b ∧ f i = .ok b := by
  have h1 := Res.mapM_eq_ok.1 h
  have hl := h1.length_eq
  rw [List.length_range] at hl
  refine ⟨hl.symm, fun i hi => ?_⟩
  have h2 := (List.forall₂_iff_get.1 h1).2 i (by simpa using hi) (by omega)
  exact ⟨bs[i], by simp [hl ▸ hi], by simpa using h2⟩

theorem mapM_range_ok {ε β : Type} {f : ℕ → Res ε β} {n : ℕ} {bs : List β} (hl : bs.length = n)
    (h : ∀ i < n, ∀ b, bs[i]? = some b → f i = .ok b) : Res.mapM f (List.range n) = .ok bs := by
  rw [Res.mapM_eq_ok, List.forall₂_iff_get]
  refine ⟨by simp [hl], fun i h1 h2 => ?_⟩
  simp only [List.length_range] at h1
  simp only [List.get_eq_getElem, List.getElem_range]
  exact h i h1 _ (by simp [h2])

/-! ### Collecting the local states -/

namespace GG20

section

variable {ε α β : Type}

theorem transposed_ok {ls : List β} {field : β → List α} {mat : List (List α)}
    (h : (transposed ls field : Res ε (List (List α))) = .ok mat) :
    mat.length = ls.length ∧ (∀ b < ls.length, ∃ row, mat[b]? = some row ∧ row.length = ls.length - 1) ∧
    ∀ a < ls.length, ∀ b < ls.length, a ≠ b → ∃ l v row, ls[a]? = some l ∧
      (field l)[Spec.peerPos a b]? = some v ∧ mat[b]? = some row ∧ row[Spec.peerPos b a]? = some v := by
  obtain ⟨hl, h⟩ := mapM_range_get h
  refine ⟨hl, fun b hb => ?_, fun a ha b hb hab => ?_⟩
  · obtain ⟨row, h1, h2⟩ := h b hb
    exact ⟨row, h1, (mapM_range_get h2).1⟩
  · obtain ⟨row, h1, h2⟩ := h b hb
    obtain ⟨-, h2⟩ := mapM_range_get h2
    obtain ⟨v, h3, h4⟩ := h2 _ (peerPos_lt ha hb hab)
    rw [backInd_eq, otherInd_peerPos hab] at h4
    obtain ⟨l, h5, h6⟩ := Res.bind_eq_ok.1 h4
    exact ⟨l, v, row, Res.get_eq_ok.1 h5, Res.get_eq_ok.1 h6, h1, h3⟩

theorem transposed_defined {ls : List β} {field : β → List α}
    (h : ∀ l ∈ ls, ls.length - 1 ≤ (field l).length) :
    ∃ mat, (transposed ls field : Res ε (List (List α))) = .ok mat := by
  classical
  have hex : ∀ i, ∃ row : List α, i < ls.length →
      Res.mapM (fun j => do
        let l ← Res.get ls (otherInd i j)
        Res.get (field l) (backInd i j)) (List.range (ls.length - 1)) = (.ok row : Res ε (List α)) := by
    intro i
    by_cases hi : i < ls.length
    · have hex2 : ∀ j, ∃ v : Option α, j < ls.length - 1 → ∃ a, v = some a ∧
          (Res.get ls (otherInd i j) >>= fun l => Res.get (field l) (backInd i j)) = (.ok a : Res ε α) := by
        intro j
        by_cases hj : j < ls.length - 1
        · have h1 := otherInd_lt (k := i) hj
          have h2 := h _ (List.getElem_mem h1)
          have h3 : backInd i j < (field ls[otherInd i j]).length := by
            refine lt_of_lt_of_le ?_ h2
            rw [backInd_eq]; exact peerPos_lt hi h1 otherInd_ne.symm
          refine ⟨some (field ls[otherInd i j])[backInd i j], fun _ => ⟨_, rfl, ?_⟩⟩
          rw [Res.get_of_lt h1, Res.bind_ok, Res.get_of_lt h3]
        · exact ⟨none, fun h => absurd h hj⟩
      choose v hv using hex2
      by_cases hm : ls.length - 1 = 0
      · exact ⟨[], fun _ => by rw [hm]; rfl⟩
      · obtain ⟨a0, -⟩ := hv 0 (by omega)
        refine ⟨(List.range (ls.length - 1)).map (fun j => (v j).getD a0), fun _ => ?_⟩
        refine Res.mapM_ok_of_forall fun j hj => ?_
        obtain ⟨a, h1, h2⟩ := hv j (by simpa using hj)
        rw [h1]; exact h2
    · exact ⟨[], fun h => absurd h hi⟩
  choose row hrow using hex
  exact ⟨_, Res.mapM_ok_of_forall (g := row) fun i hi => hrow i (by simpa using hi)⟩

theorem untransposed_ok {ls : List β} {field : β → List α} {mat : List (List α)}
    (h : (untransposed ls field : Res ε (List (List α))) = .ok mat) :
    mat.length = ls.length ∧
    ∀ a < ls.length, ∃ l row, ls[a]? = some l ∧ mat[a]? = some row ∧ row.length = ls.length - 1 ∧
      ∀ j < ls.length - 1, ∃ v, (field l)[j]? = some v ∧ row[j]? = some v := by
  obtain ⟨hl, h⟩ := mapM_range_get h
  refine ⟨hl, fun a ha => ?_⟩
  obtain ⟨row, h1, h2⟩ := h a ha
  obtain ⟨h3, h4⟩ := mapM_range_get h2
  refine ⟨ls[a], row, by simp [ha], h1, h3, fun j hj => ?_⟩
  obtain ⟨v, h5, h6⟩ := h4 j hj
  rw [Res.get_of_lt ha, Res.bind_ok, Res.get_eq_ok] at h6
  exact ⟨v, h6, h5⟩

theorem untransposed_defined {ls : List β} {field : β → List α}
    (h : ∀ l ∈ ls, ls.length - 1 ≤ (field l).length) :
    (untransposed ls field : Res ε (List (List α))) =
      .ok (ls.map (fun l => (field l).take (ls.length - 1))) := by
  refine mapM_range_ok (by simp) fun i hi row hrow => ?_
  simp only [List.getElem?_map, List.getElem?_eq_getElem hi, Option.map_some, Option.some.injEq] at hrow
  subst hrow
  have h2 := h _ (List.getElem_mem hi)
  refine mapM_range_ok (by simp [h2]) fun j hj v hv => ?_
  rw [Res.get_of_lt hi, Res.bind_ok, Res.get_eq_ok]
  rw [List.getElem?_take_of_lt hj] at hv
  exact hv

end

/-! ### The nonce phase -/

open EC Crypto

variable [Crypto]

theorem messageA_eq {ε : Type} (k : Sc) (ek : ℕ) (r : ℤ) :
    (messageA k ek r : Res ε MessageA) = .ok ⟨Paillier.encrypt ek k.val r, []⟩ := rfl

theorem messageB_nil (b : Sc) (N : ℕ) (c r bt : ℤ) : MessageB.b b N ⟨c, []⟩ r bt [] 0 0 =
    .ok (⟨Paillier.add N (Paillier.mul N c b.val) (Paillier.encrypt N bt r), DLogProof.prove b 0,
      DLogProof.prove (bt : Sc) 0⟩, 0 - (bt : Sc)) := rfl

theorem messageA_c {a : Sc} {N : ℕ} {r : ℤ} {sts : List DLogStatement} {rs : ℕ → AliceRand} {ma : MessageA}
    (h : MessageA.a a N r sts rs = some ma) : ma.c = Paillier.encrypt N a.val r := by
  simp only [MessageA.a, Option.bind_eq_bind, Option.bind_eq_some_iff] at h
  obtain ⟨x, -, h⟩ := h
  cases h; rfl

theorem messageB_c {b : Sc} {N : ℕ} {ma : MessageA} {r bt : ℤ} {sts : List DLogStatement} {t1 t2 : Sc}
    {mb : MessageB} {beta : Sc} (h : MessageB.b b N ma r bt sts t1 t2 = .ok (mb, beta)) :
    mb.c = Paillier.add N (Paillier.mul N ma.c b.val) (Paillier.encrypt N bt r) ∧
      mb.b_proof.pk = b • G ∧ mb.beta_tag_proof.pk = (bt : Sc) • G := by
  unfold MessageB.b at h
  split_ifs at h
  split at h
  · cases h
  · cases h
  · cases h; exact ⟨rfl, rfl, rfl⟩

/-- The opened `k` of signer `i` re-encrypts to its first message. -/
def GlobalStatePhase5.KOpen (g : GlobalStatePhase5) (i : ℕ) : Prop :=
  ∃ k ek r, ∃ sent : MessageA, g.k_vec[i]? = some k ∧ g.encryption_key_vec[i]? = some ek ∧
    g.k_randomness_vec[i]? = some r ∧ g.m_a_vec[i]? = some sent ∧ Paillier.encrypt ek k.val r = sent.c

/-- It does not. -/
def GlobalStatePhase5.KWrong (g : GlobalStatePhase5) (i : ℕ) : Prop :=
  ∃ k ek r, ∃ sent : MessageA, g.k_vec[i]? = some k ∧ g.encryption_key_vec[i]? = some ek ∧
    g.k_randomness_vec[i]? = some r ∧ g.m_a_vec[i]? = some sent ∧ Paillier.encrypt ek k.val r ≠ sent.c

/-- The values behind a cell of the matrix: whether the ciphertext is reproduced, and the two shares. -/
def GlobalStatePhase5.CellIs (g : GlobalStatePhase5) (i j : ℕ) (b : Bool) (alpha beta : Sc) : Prop :=
  ∃ k ek r gamma rowR rowT rowM, ∃ br bt : ℤ, ∃ sent : MessageB, g.k_vec[i]? = some k ∧
    g.encryption_key_vec[i]? = some ek ∧ g.k_randomness_vec[i]? = some r ∧
    g.gamma_vec[otherInd i j]? = some gamma ∧
    g.beta_randomness_vec[i]? = some rowR ∧ rowR[j]? = some br ∧
    g.beta_tag_vec[i]? = some rowT ∧ rowT[j]? = some bt ∧
    g.m_b_mat[i]? = some rowM ∧ rowM[j]? = some sent ∧
    b = decide (Paillier.add ek (Paillier.mul ek (Paillier.encrypt ek k.val r) gamma.val)
      (Paillier.encrypt ek bt br) = sent.c) ∧
    alpha = k * gamma + (bt : Sc) ∧ beta = 0 - (bt : Sc)

variable {g : GlobalStatePhase5}

theorem cell_ok {k : Sc} {ek : ℕ} {r : ℤ} {i j : ℕ} {b : Bool} {alpha beta : Sc}
    (h1 : g.k_vec[i]? = some k) (h2 : g.encryption_key_vec[i]? = some ek)
    (h3 : g.k_randomness_vec[i]? = some r)
    (h : g.cell ⟨Paillier.encrypt ek k.val r, []⟩ i j = .ok (b, alpha, beta)) :
    g.CellIs i j b alpha beta := by
  unfold GlobalStatePhase5.cell at h
  simp only [Res.bind_eq_ok, Res.get_eq_ok, getCell_eq_ok] at h
  obtain ⟨gamma, hg, ek', hek, br, ⟨rowR, hR, hr⟩, bt, ⟨rowT, hT, ht⟩, mb, hmb, sent, ⟨rowM, hM, hm⟩,
    k', hk, h⟩ := h
  rw [h2] at hek; cases hek
  rw [h1] at hk; cases hk
  rw [messageB_nil] at hmb
  cases hmb
  cases h
  refine ⟨k, ek, r, gamma, rowR, rowT, rowM, br, bt, sent, h1, h2, h3, hg, hR, hr, hT, ht, hM, hm, rfl,
    by ring, rfl⟩

theorem row_ok {bad bad' : List ℕ} {i : ℕ} {r : List (Sc × Sc)} (h : g.row bad i = .ok (bad', r)) :
    (g.KWrong i ∧ bad' = bad ++ [i]) ∨
    (g.KOpen i ∧ bad ≠ [] ∧ bad' = bad) ∨
    (g.KOpen i ∧ bad = [] ∧ r.length = g.delta_vec.length - 1 ∧
      (∀ x ∈ bad', ∃ j < g.delta_vec.length - 1, otherInd i j = x ∧ ∃ a b, g.CellIs i j false a b) ∧
      (bad' = [] → ∀ j < g.delta_vec.length - 1, ∃ ab, r[j]? = some ab ∧ g.CellIs i j true ab.1 ab.2)) := by
  unfold GlobalStatePhase5.row at h
  simp only [Res.bind_eq_ok, Res.get_eq_ok, messageA_eq, Res.ok.injEq, exists_eq_left'] at h
  obtain ⟨k, hk, ek, hek, kr, hkr, sent, hs, h⟩ := h
  by_cases hc : Paillier.encrypt ek k.val kr = sent.c
  · rw [if_neg (not_not.2 hc)] at h
    have hopen : g.KOpen i := ⟨k, ek, kr, sent, hk, hek, hkr, hs, hc⟩
    by_cases hb : bad = []
    · rw [if_pos hb] at h
      obtain ⟨cells, h1, h2⟩ := Res.bind_eq_ok.1 h
      obtain ⟨hl, h1⟩ := mapM_range_get h1
      have hcell : ∀ j < g.delta_vec.length - 1, ∃ b al be, cells[j]? = some (j, b, al, be) ∧
          g.CellIs i j b al be := by
        intro j hj
        obtain ⟨c, h3, h4⟩ := h1 j hj
        obtain ⟨⟨b, al, be⟩, h5, h6⟩ := Res.bind_eq_ok.1 h4
        cases h6
        exact ⟨b, al, be, h3, cell_ok hk hek hkr h5⟩
      cases h2
      refine Or.inr (Or.inr ⟨hopen, hb, by simp [hl], ?_, ?_⟩)
      · intro x hx
        obtain ⟨c, hc1, rfl⟩ := List.mem_map.1 hx
        obtain ⟨hc2, hc3⟩ := List.mem_filter.1 hc1
        obtain ⟨j, hj, hj2⟩ := List.mem_iff_getElem.1 hc2
        obtain ⟨b, al, be, h3, h4⟩ := hcell j (hl ▸ hj)
        rw [List.getElem?_eq_getElem hj, Option.some.injEq, hj2] at h3
        subst h3
        refine ⟨j, hl ▸ hj, rfl, al, be, ?_⟩
        simp only [Bool.not_eq_true'] at hc3
        rw [hc3] at h4
        exact h4
      · intro hnil j hj
        obtain ⟨b, al, be, h3, h4⟩ := hcell j hj
        refine ⟨(al, be), by simp [h3], ?_⟩
        cases b with
        | true => exact h4
        | false =>
          have : (j, false, al, be) ∈ cells.filter (fun c => !c.2.1) := by
            rw [List.mem_filter]
            exact ⟨List.mem_of_getElem? h3, rfl⟩
          rw [List.map_eq_nil_iff.1 hnil] at this
          cases this
    · rw [if_neg hb] at h
      cases h
      exact Or.inr (Or.inl ⟨hopen, hb, rfl⟩)
  · rw [if_pos hc, if_neg (by simp)] at h
    cases h
    exact Or.inl ⟨⟨k, ek, kr, sent, hk, hek, hkr, hs, hc⟩, rfl⟩

theorem rows_mem {is bad bad' : List ℕ} {mat : List (List (Sc × Sc))} (h : g.rows bad is = .ok (bad', mat))
    {x : ℕ} (hx : x ∈ bad') : x ∈ bad ∨ (x ∈ is ∧ g.KWrong x) ∨
      ∃ i ∈ is, g.KOpen i ∧ ∃ j < g.delta_vec.length - 1, otherInd i j = x ∧ ∃ a b, g.CellIs i j false a b := by
  induction is generalizing bad mat with
  | nil => cases h; exact Or.inl hx
  | cons i is ih =>
    unfold GlobalStatePhase5.rows at h
    obtain ⟨⟨b1, r⟩, h1, h⟩ := Res.bind_eq_ok.1 h
    obtain ⟨⟨b2, rs⟩, h2, h⟩ := Res.bind_eq_ok.1 h
    cases h
    rcases ih h2 with h3 | ⟨h3, h4⟩ | ⟨i', h3, h4⟩
    · rcases row_ok h1 with ⟨h5, rfl⟩ | ⟨-, -, rfl⟩ | ⟨h5, -, -, h6, -⟩
      · rcases List.mem_append.1 h3 with h3 | h3
        · exact Or.inl h3
        · rw [List.mem_singleton] at h3; subst h3
          exact Or.inr (Or.inl ⟨by simp, h5⟩)
      · exact Or.inl h3
      · exact Or.inr (Or.inr ⟨i, by simp, h5, h6 x h3⟩)
    · exact Or.inr (Or.inl ⟨by simp [h3], h4⟩)
    · exact Or.inr (Or.inr ⟨i', by simp [h3], h4⟩)

theorem rows_nil {is bad : List ℕ} {mat : List (List (Sc × Sc))} (h : g.rows bad is = .ok ([], mat)) :
    bad = [] ∧ List.Forall₂ (fun i r => g.KOpen i ∧ r.length = g.delta_vec.length - 1 ∧
      ∀ j < g.delta_vec.length - 1, ∃ ab, r[j]? = some ab ∧ g.CellIs i j true ab.1 ab.2) is mat := by
  induction is generalizing bad mat with
  | nil => cases h; exact ⟨rfl, List.Forall₂.nil⟩
  | cons i is ih =>
    unfold GlobalStatePhase5.rows at h
    obtain ⟨⟨b1, r⟩, h1, h⟩ := Res.bind_eq_ok.1 h
    obtain ⟨⟨b2, rs⟩, h2, h⟩ := Res.bind_eq_ok.1 h
    cases h
    obtain ⟨rfl, h3⟩ := ih h2
    rcases row_ok h1 with ⟨-, h5⟩ | ⟨-, h5, h6⟩ | ⟨h5, h6, h7, -, h8⟩
    · simp at h5
    · exact absurd h6.symm h5
    · exact ⟨h6, List.Forall₂.cons ⟨h5, h7, h8 rfl⟩ h3⟩

/-- The opened values: `k`, `gamma`, and the mask that signer `a` used towards signer `b`. -/
def GlobalStatePhase5.K (g : GlobalStatePhase5) (i : ℕ) : Sc := g.k_vec.getD i 0
def GlobalStatePhase5.Gam (g : GlobalStatePhase5) (i : ℕ) : Sc := g.gamma_vec.getD i 0
def GlobalStatePhase5.Tag (g : GlobalStatePhase5) (a b : ℕ) : Sc :=
  (((g.beta_tag_vec.getD b []).getD (Spec.peerPos b a) 0 : ℤ) : Sc)

theorem rows_matrix {mat : List (List (Sc × Sc))}
    (h : List.Forall₂ (fun i r => g.KOpen i ∧ r.length = g.delta_vec.length - 1 ∧
      ∀ j < g.delta_vec.length - 1, ∃ ab, r[j]? = some ab ∧ g.CellIs i j true ab.1 ab.2)
        (List.range g.delta_vec.length) mat) :
    mat = (List.range g.delta_vec.length).map (fun i => (Sign.others g.delta_vec.length i).map
      (fun a => (g.K i * g.Gam a + g.Tag a i, 0 - g.Tag a i))) := by
  have hl := h.length_eq
  rw [List.length_range] at hl
  refine List.ext_getElem (by simp [← hl]) fun i h1 h2 => ?_
  have hi : i < g.delta_vec.length := hl ▸ h1
  have h3 := (List.forall₂_iff_get.1 h).2 i (by simpa using hi) h1
  simp only [List.get_eq_getElem, List.getElem_range] at h3
  obtain ⟨-, h4, h5⟩ := h3
  simp only [List.getElem_map, List.getElem_range]
  unfold Sign.others
  rw [← range_map_otherInd hi, List.map_map]
  refine List.ext_getElem (by simp [h4]) fun j h6 h7 => ?_
  obtain ⟨ab, h8, k, ek, r, gamma, rowR, rowT, rowM, br, bt, sent, e1, -, -, e4, -, -, e7, e8, -, -, -, e11,
    e12⟩ := h5 j (h4 ▸ h6)
  rw [List.getElem?_eq_getElem h6, Option.some.injEq] at h8
  rw [h8]
  simp only [List.getElem_map, List.getElem_range, Function.comp]
  unfold GlobalStatePhase5.K GlobalStatePhase5.Gam GlobalStatePhase5.Tag
  rw [peerPos_otherInd]
  simp only [List.getD_eq_getElem?_getD, e1, e4, e7, Option.getD_some, e8]
  exact Prod.ext e11 e12

/-- The delta that follows from the openings. -/
noncomputable def GlobalStatePhase5.expected (g : GlobalStatePhase5) (i : ℕ) : Sc :=
  g.K i * g.Gam i + ((Sign.others g.delta_vec.length i).map
    (fun j => (g.K i * g.Gam j + g.Tag j i) + (0 - g.Tag i j))).sum

omit [Crypto] in
theorem get_getD {α : Type} {l : List α} {i : ℕ} {a d : α} (h : l[i]? = some a) : l.getD i d = a := by
  simp [List.getD_eq_getElem?_getD, h]

theorem delta_test_ok {mat : List (List (Sc × Sc))} {i : ℕ} (hi : i < g.delta_vec.length)
    (hmat : mat = (List.range g.delta_vec.length).map (fun i => (Sign.others g.delta_vec.length i).map
      (fun a => (g.K i * g.Gam a + g.Tag a i, 0 - g.Tag a i)))) {b : Bool}
    (h : g.delta_test mat i = .ok b) :
    ∃ d, g.delta_vec[i]? = some d ∧ (b = true ↔ d = g.expected i) := by
  unfold GlobalStatePhase5.delta_test at h
  simp only [Res.bind_eq_ok, Res.get_eq_ok] at h
  obtain ⟨k, hk, gam, hgam, row, hrow, bs, hbs, d, hd, h⟩ := h
  refine ⟨d, hd, ?_⟩
  have hrow' : row = (Sign.others g.delta_vec.length i).map
      (fun a => (g.K i * g.Gam a + g.Tag a i, 0 - g.Tag a i)) := by
    rw [hmat, List.getElem?_map, List.getElem?_range hi] at hrow
    simpa using hrow.symm
  have hbs' : bs = (Sign.others g.delta_vec.length i).map (fun a => 0 - g.Tag i a) := by
    have := mapM_others (ε := ErrorType) hi (F := fun j => do
      let c ← getCell mat (otherInd i j) (backInd i j)
      .ok c.2) (fun a => 0 - g.Tag i a) (by
        intro j hj
        have hlt := otherInd_lt (k := i) hj
        have : (getCell mat (otherInd i j) (backInd i j) : Res ErrorType (Sc × Sc)) =
            .ok (g.K (otherInd i j) * g.Gam i + g.Tag i (otherInd i j), 0 - g.Tag i (otherInd i j)) := by
          unfold getCell
          rw [hmat, Keygen.get_map_range hlt, Res.bind_ok]
          unfold Sign.others
          rw [get_others hlt (by rw [backInd_eq]; exact peerPos_lt hi hlt otherInd_ne.symm)]
          rw [backInd_eq, otherInd_peerPos otherInd_ne.symm]
        simp only [this, Res.bind_ok])
    rw [hbs] at this
    injection this
  simp only [Res.ok.injEq] at h
  rw [← h, decide_eq_true_eq]
  have e1 : row.foldl (fun acc x => acc + x.1) 0 =
      ((Sign.others g.delta_vec.length i).map (fun a => g.K i * g.Gam a + g.Tag a i)).sum := by
    rw [← List.foldl_map (f := Prod.fst) (g := fun (acc x : Sc) => acc + x), foldl_add_eq, zero_add, hrow',
      List.map_map]
    rfl
  rw [e1, foldl_add_eq, zero_add, hbs']
  unfold GlobalStatePhase5.expected
  rw [show k = g.K i from (get_getD hk).symm, show gam = g.Gam i from (get_getD hgam).symm, add_assoc,
    ← List.sum_map_add]

theorem gamma_test_noErr (i : ℕ) : NoErr (g.gamma_test i) :=
  (NoErr.get _ _).bind fun _ => (NoErr.get _ _).bind fun _ => NoErr.ok _

theorem cell_noErr (ma : MessageA) (i j : ℕ) : NoErr (g.cell ma i j) :=
  (NoErr.get _ _).bind fun _ => (NoErr.get _ _).bind fun _ => (NoErr.getCell _ _ _).bind fun _ =>
    (NoErr.getCell _ _ _).bind fun _ => (NoErr.unwrap _).bind fun _ => (NoErr.getCell _ _ _).bind fun _ =>
      (NoErr.get _ _).bind fun _ => NoErr.ok _

theorem row_noErr (bad : List ℕ) (i : ℕ) : NoErr (g.row bad i) := by
  refine (NoErr.get _ _).bind fun _ => (NoErr.get _ _).bind fun _ => (NoErr.get _ _).bind fun _ =>
    (NoErr.ofOption _).bind fun ma => (NoErr.get _ _).bind fun sent => ?_
  dsimp only
  generalize (if ma.c ≠ sent.c then bad ++ [i] else bad) = b
  by_cases hb : b = []
  · rw [if_pos hb]
    exact (NoErr.mapM (fun j => (cell_noErr _ _ _).bind fun _ => NoErr.ok _) _).bind fun _ => NoErr.ok _
  · rw [if_neg hb]; exact NoErr.ok _

theorem rows_noErr (is bad : List ℕ) : NoErr (g.rows bad is) := by
  induction is generalizing bad with
  | nil => exact NoErr.ok _
  | cons i is ih => exact (row_noErr _ _).bind fun _ => (ih _).bind fun _ => NoErr.ok _

theorem delta_test_noErr (mat : List (List (Sc × Sc))) (i : ℕ) : NoErr (g.delta_test mat i) :=
  (NoErr.get _ _).bind fun _ => (NoErr.get _ _).bind fun _ => (NoErr.get _ _).bind fun _ =>
    (NoErr.mapM (fun _ => (NoErr.getCell _ _ _).bind fun _ => NoErr.ok _) _).bind fun _ =>
      (NoErr.get _ _).bind fun _ => NoErr.ok _

/-- The possible ways `phase5_blame` ends with a verdict. -/
theorem phase5_blame_err {e : ErrorType} (h : g.phase5_blame = .err e) :
    ∃ bad0 bad1 mat bad, failing g.gamma_test (List.range g.delta_vec.length) = .ok bad0 ∧
      g.rows bad0 (List.range g.delta_vec.length) = .ok (bad1, mat) ∧
      ((bad1 ≠ [] ∧ bad = bad1) ∨
        (bad1 = [] ∧ failing (g.delta_test mat) (List.range g.delta_vec.length) = .ok bad)) ∧
      e = ⟨"phase6_blame", sortDedup bad⟩ := by
  unfold GlobalStatePhase5.phase5_blame at h
  rcases Res.bind_eq_err.1 h with h | ⟨bad0, h0, h⟩
  · exact absurd h (NoErr.failing gamma_test_noErr _ _)
  rcases Res.bind_eq_err.1 h with h | ⟨⟨bad1, mat⟩, h1, h⟩
  · exact absurd h (rows_noErr _ _ _)
  rcases Res.bind_eq_err.1 h with h | ⟨bad, h2, h⟩
  · unfold GlobalStatePhase5.delta_bad at h
    split_ifs at h
    exact absurd h (NoErr.failing (delta_test_noErr _) _ _)
  · cases h
    unfold GlobalStatePhase5.delta_bad at h2
    refine ⟨bad0, bad1, mat, bad, h0, h1, ?_, rfl⟩
    by_cases hb : bad1 = []
    · rw [if_pos hb] at h2; exact Or.inr ⟨hb, h2⟩
    · rw [if_neg hb] at h2; cases h2; exact Or.inl ⟨hb, rfl⟩

/-- Nobody blamed: everything that was opened is consistent. -/
theorem phase5_blame_nil (h : g.phase5_blame = .err ⟨"phase6_blame", []⟩) :
    (∀ i < g.delta_vec.length, g.g_gamma_vec[i]? = some (g.Gam i • G) ∧ i < g.gamma_vec.length ∧
      g.KOpen i ∧ g.delta_vec[i]? = some (g.expected i)) := by
  obtain ⟨bad0, bad1, mat, bad, h0, h1, h2, h3⟩ := phase5_blame_err h
  have hbad : bad = [] := sortDedup_eq_nil.1 (by injection h3 with _ h3; exact h3.symm)
  subst hbad
  rcases h2 with ⟨h2, h4⟩ | ⟨rfl, h2⟩
  · exact absurd h4.symm h2
  obtain ⟨rfl, hrows⟩ := rows_nil h1
  have hmat := rows_matrix hrows
  intro i hi
  have hi' : i ∈ List.range g.delta_vec.length := by simpa using hi
  have t1 := ((failing_ok h0).1 i hi').resolve_right fun hh => by
    have := ((failing_ok h0).2 i).2 ⟨hi', hh⟩
    cases this
  have t2 := ((failing_ok h2).1 i hi').resolve_right fun hh => by
    have := ((failing_ok h2).2 i).2 ⟨hi', hh⟩
    cases this
  unfold GlobalStatePhase5.gamma_test at t1
  simp only [Res.bind_eq_ok, Res.get_eq_ok, Res.ok.injEq, decide_eq_true_eq] at t1
  obtain ⟨gg, e1, gam, e2, e3⟩ := t1
  obtain ⟨d, hd, hiff⟩ := delta_test_ok hi hmat t2
  have hk := ((List.forall₂_iff_get.1 hrows).2 i (by simpa using hi)
    (by rw [← hrows.length_eq]; simpa using hi)).1
  simp only [List.get_eq_getElem, List.getElem_range] at hk
  refine ⟨?_, (List.getElem?_eq_some_iff.1 e2).1, hk, ?_⟩
  · rw [e1, e3, show g.Gam i = gam from get_getD e2]
  · rw [hd, hiff.1 rfl]

theorem expected_sum : ∑ i ∈ Finset.range g.delta_vec.length, g.expected i =
    (∑ i ∈ Finset.range g.delta_vec.length, g.K i) * ∑ i ∈ Finset.range g.delta_vec.length, g.Gam i :=
  Sign.sum_cross g.delta_vec.length g.K g.Gam g.Tag

omit [Crypto] in
theorem list_sum_range {M : Type} [AddCommMonoid M] {l : List M} {n : ℕ} {f : ℕ → M} (hl : l.length = n)
    (h : ∀ i < n, l[i]? = some (f i)) : l.sum = ∑ i ∈ Finset.range n, f i := by
  rw [← sum_map_range_eq]
  congr 1
  refine List.ext_getElem (by simp [hl]) fun i h1 h2 => ?_
  have := h i (hl ▸ h1)
  rw [List.getElem?_eq_getElem h1, Option.some.injEq] at this
  simp [this]

/-! ### The key phase -/

section phase6

variable {g : GlobalStatePhase6} {R : Pt}

theorem miu_test_noErr (i j : ℕ) : NoErr (g.miu_test i j) :=
  (NoErr.get _ _).bind fun _ => (NoErr.getCell _ _ _).bind fun _ => (NoErr.getCell _ _ _).bind fun _ =>
    (NoErr.getCell _ _ _).bind fun _ => NoErr.ok _

theorem k_test_noErr (i : ℕ) : NoErr (g.k_test i) :=
  (NoErr.get _ _).bind fun _ => (NoErr.get _ _).bind fun _ => (NoErr.get _ _).bind fun _ =>
    (NoErr.ofOption _).bind fun _ => (NoErr.get _ _).bind fun _ => NoErr.ok _

theorem miu_bad_noErr (len : ℕ) (is : List ℕ) : NoErr (g.miu_bad len is) := by
  induction is with
  | nil => exact NoErr.ok _
  | cons i is ih =>
    exact (NoErr.failing (miu_test_noErr i) _).bind fun _ => ih.bind fun _ => NoErr.ok _

theorem miu_bad_mem {len : ℕ} {is bad : List ℕ} (h : g.miu_bad len is = .ok bad) (x : ℕ) :
    x ∈ bad ↔ x ∈ is ∧ ∃ j < len - 1, g.miu_test x j = .ok false := by
  induction is generalizing bad with
  | nil => cases h; simp
  | cons i is ih =>
    unfold GlobalStatePhase6.miu_bad at h
    obtain ⟨b, hb, h⟩ := Res.bind_eq_ok.1 h
    obtain ⟨rest, hr, h⟩ := Res.bind_eq_ok.1 h
    cases h
    rw [List.mem_append, ih hr, List.mem_map, List.mem_cons]
    constructor
    · rintro (⟨j, hj, rfl⟩ | ⟨h1, h2⟩)
      · obtain ⟨h3, h4⟩ := ((failing_ok hb).2 j).1 hj
        exact ⟨Or.inl rfl, j, by simpa using h3, h4⟩
      · exact ⟨Or.inr h1, h2⟩
    · rintro ⟨rfl | h1, j, hj, h2⟩
      · exact Or.inl ⟨j, ((failing_ok hb).2 j).2 ⟨by simpa using hj, h2⟩, rfl⟩
      · exact Or.inr ⟨h1, j, hj, h2⟩

theorem g_ni_noErr (i j : ℕ) : NoErr (g.g_ni i j) :=
  (NoErr.get _ _).bind fun _ => (NoErr.get _ _).bind fun _ => (NoErr.getCell _ _ _).bind fun _ => NoErr.ok _

theorem sigma_bad_noErr (len : ℕ) : NoErr (g.sigma_bad R len) := by
  refine (NoErr.mapM (fun i => NoErr.mapM (fun j => g_ni_noErr i j) _) _).bind fun mat => ?_
  refine (NoErr.mapM (fun i => ?_) _).bind fun gs => NoErr.failing (fun i => ?_) _
  · exact (NoErr.get _ _).bind fun _ => (NoErr.get _ _).bind fun _ => (NoErr.get _ _).bind fun _ =>
      (NoErr.mapM (fun _ => NoErr.getCell _ _ _) _).bind fun _ => NoErr.ok _
  · exact (NoErr.get _ _).bind fun _ => (NoErr.get _ _).bind fun _ => (NoErr.get _ _).bind fun _ =>
      NoErr.ok _

/-- The possible ways `phase6_blame` ends with a verdict. -/
theorem phase6_blame_err {e : ErrorType} (h : g.phase6_blame R = .err e) :
    ∃ bad1 bad2 bad, g.miu_bad g.k_vec.length (List.range g.k_vec.length) = .ok bad1 ∧
      failing g.k_test (List.range g.k_vec.length) = .ok bad2 ∧
      ((bad1 ++ bad2 ≠ [] ∧ bad = bad1 ++ bad2) ∨
        (bad1 = [] ∧ bad2 = [] ∧ g.sigma_bad R g.k_vec.length = .ok bad)) ∧
      e = ⟨"phase6_blame", sortDedup bad⟩ := by
  unfold GlobalStatePhase6.phase6_blame at h
  rcases Res.bind_eq_err.1 h with h | ⟨bad1, h0, h⟩
  · exact absurd h (miu_bad_noErr _ _ _)
  rcases Res.bind_eq_err.1 h with h | ⟨bad2, h1, h⟩
  · exact absurd h (NoErr.failing k_test_noErr _ _)
  rcases Res.bind_eq_err.1 h with h | ⟨bad, h2, h⟩
  · unfold GlobalStatePhase6.sigma_or at h
    split_ifs at h
    exact absurd h (sigma_bad_noErr _ _)
  · cases h
    unfold GlobalStatePhase6.sigma_or at h2
    refine ⟨bad1, bad2, bad, h0, h1, ?_, rfl⟩
    by_cases hb : bad1 ++ bad2 = []
    · rw [if_pos hb] at h2
      obtain ⟨rfl, rfl⟩ := List.append_eq_nil_iff.1 hb
      exact Or.inr ⟨rfl, rfl, h2⟩
    · rw [if_neg hb] at h2; cases h2; exact Or.inl ⟨hb, rfl⟩

/-- The opened values: `k`, the public share, and the value that signer `a` decrypted from the answer of
signer `b`. -/
def GlobalStatePhase6.K (g : GlobalStatePhase6) (i : ℕ) : Sc := g.k_vec.getD i 0
def GlobalStatePhase6.W (g : GlobalStatePhase6) (i : ℕ) : Pt := g.g_w_vec.getD i 0
def GlobalStatePhase6.Miu (g : GlobalStatePhase6) (a b : ℕ) : Sc :=
  (((g.miu_vec.getD a []).getD (Spec.peerPos a b) 0 : ℤ) : Sc)

/-- The point that should be `sigma_i G`, as it follows from the openings. -/
noncomputable def GlobalStatePhase6.expected (g : GlobalStatePhase6) (m i : ℕ) : Pt :=
  g.K i • g.W i + ((Sign.others m i).map (fun a => g.Miu i a • (G : Pt) +
    (g.K a • g.W i - g.Miu a i • (G : Pt)))).sum

theorem foldl_point (f : ℤ → Pt) (l : List ℤ) (a : Pt) :
    l.foldl (fun acc x => acc + f x) a = a + (l.map f).sum := by
  induction l generalizing a with
  | nil => simp
  | cons b l ih => simp only [List.foldl_cons, List.map_cons, List.sum_cons, ih, add_assoc]

theorem foldl_points (l : List Pt) (a : Pt) : l.foldl (fun acc x => acc + x) a = a + l.sum := by
  induction l generalizing a with
  | nil => simp
  | cons b l ih => simp only [List.foldl_cons, List.sum_cons, ih, add_assoc]

theorem sigma_bad_ok {m : ℕ} {bad : List ℕ}
    (hrow : ∀ i < m, ∀ row, g.miu_vec[i]? = some row → row.length = m - 1)
    (h : g.sigma_bad R m = .ok bad) : ∀ i < m, ∃ S, ∃ pf : ECDDHProof, g.S_vec[i]? = some S ∧
      g.proof_vec[i]? = some pf ∧ (i ∈ bad ↔ pf.verify (ddhStatement R (g.expected m i) S) = false) := by
  obtain ⟨mat, h1, h⟩ := Res.bind_eq_ok.1 h
  obtain ⟨gs, h2, h⟩ := Res.bind_eq_ok.1 h
  obtain ⟨l1, h1⟩ := mapM_range_get h1
  obtain ⟨l2, h2⟩ := mapM_range_get h2
  have hni : ∀ a < m, ∀ b < m, b ≠ a → ∃ row, mat[a]? = some row ∧
      row[Spec.peerPos a b]? = some (g.K a • g.W b - g.Miu a b • (G : Pt)) := by
    intro a ha b hb hab
    obtain ⟨row, r1, r2⟩ := h1 a ha
    obtain ⟨-, r2⟩ := mapM_range_get r2
    obtain ⟨P, p1, p2⟩ := r2 _ (peerPos_lt hb ha hab)
    refine ⟨row, r1, ?_⟩
    unfold GlobalStatePhase6.g_ni at p2
    simp only [Res.bind_eq_ok, Res.get_eq_ok, getCell_eq_ok, otherInd_peerPos hab, Res.ok.injEq] at p2
    obtain ⟨k, e1, w, e2, miu, ⟨row', e3, e4⟩, e5⟩ := p2
    rw [p1, ← e5]
    unfold GlobalStatePhase6.K GlobalStatePhase6.W GlobalStatePhase6.Miu
    rw [get_getD e1, get_getD e2, get_getD e3, get_getD e4]
  have hgs : ∀ i < m, gs[i]? = some (g.expected m i) := by
    intro i hi
    obtain ⟨P, p1, p2⟩ := h2 i hi
    rw [p1]
    unfold GlobalStatePhase6.g_sigma at p2
    simp only [Res.bind_eq_ok, Res.get_eq_ok] at p2
    obtain ⟨w, e1, k, e2, mius, e3, nis, e4, e5⟩ := p2
    have hn : nis = (Sign.others m i).map (fun a => g.K a • g.W i - g.Miu a i • (G : Pt)) := by
      have := mapM_others (ε := ErrorType) hi
        (F := fun j => getCell mat (otherInd i j) (backInd i j))
        (fun a => g.K a • g.W i - g.Miu a i • (G : Pt)) (by
          intro j hj
          have hlt := otherInd_lt (k := i) hj
          rw [getCell_eq_ok, backInd_eq]
          exact hni _ hlt i hi otherInd_ne.symm)
      rw [e4] at this
      injection this
    have hmi : mius.map (fun x : ℤ => (x : Sc) • (G : Pt)) =
        (Sign.others m i).map (fun a => g.Miu i a • (G : Pt)) := by
      unfold Sign.others
      rw [← range_map_otherInd hi, List.map_map]
      refine List.ext_getElem (by simp [hrow i hi mius e3]) fun j j1 j2 => ?_
      simp only [List.getElem_map, List.getElem_range, Function.comp]
      unfold GlobalStatePhase6.Miu
      rw [peerPos_otherInd, get_getD e3, get_getD (List.getElem?_eq_getElem (by simpa using j1))]
    simp only [Res.ok.injEq] at e5
    rw [foldl_points, foldl_point (fun x : ℤ => (x : Sc) • (G : Pt)), hn, hmi] at e5
    rw [← e5]
    unfold GlobalStatePhase6.expected
    rw [List.sum_map_add, ← add_assoc, show g.W i = w from get_getD e1, show g.K i = k from get_getD e2]
  obtain ⟨t1, t2⟩ := failing_ok h
  intro i hi
  have hi' : i ∈ List.range m := by simpa using hi
  have ht : ∃ b, g.ddh_test R gs i = .ok b := by
    rcases t1 i hi' with h | h <;> exact ⟨_, h⟩
  obtain ⟨b, hb⟩ := ht
  have hb' := hb
  unfold GlobalStatePhase6.ddh_test at hb'
  simp only [Res.bind_eq_ok, Res.get_eq_ok, hgs i hi, Option.some.injEq, exists_eq_left', Res.ok.injEq] at hb'
  obtain ⟨S, s1, pf, s2, s3⟩ := hb'
  refine ⟨S, pf, s1, s2, ?_⟩
  rw [t2, hb, s3]
  simp [hi']

end phase6

end GG20
end Verif
