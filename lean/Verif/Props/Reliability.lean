import Verif.Lemmas.SignDraws
import Verif.Props.Sign
import Verif.Props.Curve
import Verif.Props.GG18
import Verif.Props.ZeroKnowledge

/-!
# C101: how often honest signing fails
-/

namespace Verif.Props

open EC Crypto Spec GG20 GG20.Sign

section
variable [Crypto] {m L : ℕ}

theorem withDraws_k (base : ℕ → SignRandomness) (f : Draw m L → ℕ) {i : ℕ} (hi : i < m) :
    (withDraws base f i).k = (f (.k ⟨i, hi⟩) : Sc) := by
  unfold withDraws; rw [dif_pos hi]

theorem withDraws_gamma (base : ℕ → SignRandomness) (f : Draw m L → ℕ) {i : ℕ} (hi : i < m) :
    (withDraws base f i).gamma = (f (.gamma ⟨i, hi⟩) : Sc) := by
  unfold withDraws; rw [dif_pos hi]

theorem withDraws_ra (base : ℕ → SignRandomness) (f : Draw m L → ℕ) {i : ℕ} (hi : i < m) :
    (withDraws base f i).ra = f (.ra ⟨i, hi⟩) := by
  unfold withDraws; rw [dif_pos hi]

theorem withDraws_gammaR (base : ℕ → SignRandomness) (f : Draw m L → ℕ) {i j : ℕ} (hi : i < m) (hj : j < m) :
    (withDraws base f i).gammaR j = f (.gammaR ⟨i, hi⟩ ⟨j, hj⟩) := by
  unfold withDraws; rw [dif_pos hi]; dsimp only; rw [dif_pos hj]

theorem withDraws_wR (base : ℕ → SignRandomness) (f : Draw m L → ℕ) {i j : ℕ} (hi : i < m) (hj : j < m) :
    (withDraws base f i).wR j = f (.wR ⟨i, hi⟩ ⟨j, hj⟩) := by
  unfold withDraws; rw [dif_pos hi]; dsimp only; rw [dif_pos hj]

theorem withDraws_gammaBeta (base : ℕ → SignRandomness) (f : Draw m L → ℕ) {i j : ℕ} (hi : i < m) (hj : j < m) :
    (withDraws base f i).gammaBeta j = f (.gammaBeta ⟨i, hi⟩ ⟨j, hj⟩) := by
  unfold withDraws; rw [dif_pos hi]; dsimp only; rw [dif_pos hj]

theorem withDraws_wBeta (base : ℕ → SignRandomness) (f : Draw m L → ℕ) {i j : ℕ} (hi : i < m) (hj : j < m) :
    (withDraws base f i).wBeta j = f (.wBeta ⟨i, hi⟩ ⟨j, hj⟩) := by
  unfold withDraws; rw [dif_pos hi]; dsimp only; rw [dif_pos hj]

theorem withDraws_alpha (base : ℕ → SignRandomness) (f : Draw m L → ℕ) {i : ℕ} (hi : i < m) (l : ℕ) :
    ((withDraws base f i).alice l).alpha =
      if hl : l < L then (f (.alpha ⟨i, hi⟩ ⟨l, hl⟩) : ℤ) else 0 := by
  unfold withDraws; rw [dif_pos hi]

/-- What can go wrong with the numbers drawn. -/
inductive BadDraw (N : ℕ → ℕ) (B : ℕ) (d : Sc) (message : ℤ) (f : Draw m L → ℕ) : Prop
  | k (h : ∑ i, (f (.k i) : Sc) = 0)
  | gamma (h : ∑ i, (f (.gamma i) : Sc) = 0)
  | zero (xr y : ℕ) (h : coords ((∑ i, (f (.k i) : Sc))⁻¹ • (G : Pt)) = some (xr, y))
      (h0 : (message : Sc) + (xr : Sc) * d = 0)
  | ra (i : Fin m) (h : Int.gcd (f (.ra i)) (N i) ≠ 1)
  | gammaR (i : Fin m × Fin m) (h : Int.gcd (f (.gammaR i.1 i.2)) (N i.2) ≠ 1)
  | wR (i : Fin m × Fin m) (h : Int.gcd (f (.wR i.1 i.2)) (N i.2) ≠ 1)
  | gammaBeta (i : Fin m × Fin m) (h : N i.2 ≤ f (.gammaBeta i.1 i.2) + q ^ 2)
  | wBeta (i : Fin m × Fin m) (h : N i.2 ≤ f (.wBeta i.1 i.2) + q ^ 2)
  | alpha (i : Fin m × Fin L) (h : q ^ 3 ≤ f (.alpha i.1 i.2) + B * q)

theorem sum_k_withDraws (base : ℕ → SignRandomness) (f : Draw m L → ℕ) :
    ∑ j ∈ Finset.range m, (withDraws base f j).k = ∑ i, (f (.k i) : Sc) := by
  rw [Finset.sum_range]
  exact Finset.sum_congr rfl fun i _ => withDraws_k base f i.2

theorem sum_gamma_withDraws (base : ℕ → SignRandomness) (f : Draw m L → ℕ) :
    ∑ j ∈ Finset.range m, (withDraws base f j).gamma = ∑ i, (f (.gamma i) : Sc) := by
  rw [Finset.sum_range]
  exact Finset.sum_congr rfl fun i _ => withDraws_gamma base f i.2

theorem val_mul_val_lt (a b : Sc) : a.val * b.val < q ^ 2 := by
  have h1 := ZMod.val_lt a
  have h2 := ZMod.val_lt b
  rw [pow_two]
  exact Nat.mul_lt_mul'' h1 h2

/-- Draws without such an accident are honest samples. -/
theorem honestSigners_of_draws {n : ℕ} {Y : Pt} {x : ℕ → Sc} {dk : ℕ → DecKey} {sts : List DLogStatement}
    {s_l : List ℕ} {key : ℕ → LocalKey} (h : KeyHolders n Y x dk sts s_l key) {B : ℕ}
    (hB : ∀ l, hashInts l ≤ B) (hBq : B ≤ q ^ 2) {d : Sc} {message : ℤ} (base : ℕ → SignRandomness)
    {f : Draw s_l.length n → ℕ} (hf : ¬ BadDraw (fun j => (dk (s_l.getD j 0)).n) B d message f) :
    HonestSigners n Y x dk sts s_l key (withDraws base f) where
  n_lt := h.n_lt
  n_u16 := h.n_u16
  nodup := h.nodup
  members := h.members
  holds := h.holds
  aux := h.aux
  dk_valid := h.dk_valid
  k_sum := fun h0 => hf (.k (by rwa [sum_k_withDraws] at h0))
  gamma_sum := fun h0 => hf (.gamma (by rwa [sum_gamma_withDraws] at h0))
  sample := by
    intro i hi
    have hkq : ∀ j : ℕ, ∀ c : Sc, ((withDraws base f j).k.val * c.val : ℤ) < (q : ℤ) ^ 2 := fun j c => by
      exact_mod_cast val_mul_val_lt _ c
    refine ⟨?_, ?_, ?_, ?_, ?_, ?_, ?_, ?_, ?_⟩
    · rw [withDraws_ra base f hi]; by_contra h0; exact hf (.ra ⟨i, hi⟩ h0)
    · intro l; rw [withDraws_alpha base f hi]; split
      · exact Int.natCast_nonneg _
      · exact le_rfl
    · have hN : 0 < (dk (s_l.getD i 0)).n := by
        have h1 := getD_mem hi
        have h2 := h.dk_valid _ (h.members _ h1).1 (h.members _ h1).2
        exact Nat.mul_pos h2.p_prime.pos h2.q_prime.pos
      refine in_range_of_bound hN h.aux.usable (fun l => ?_) fun l j => ?_
      · rw [withDraws_alpha base f hi]; split
        · exact Int.natCast_nonneg _
        · exact le_rfl
      · have h1 : hashInts l * (withDraws base f i).k.val ≤ B * q :=
          Nat.mul_le_mul (hB l) (ZMod.val_lt _).le
        have h2 : ∃ v : ℕ, ((withDraws base f i).alice j).alpha = v ∧ v + B * q ≤ q ^ 3 := by
          rw [withDraws_alpha base f hi]
          split
          · rename_i hj
            refine ⟨_, rfl, ?_⟩
            by_contra h0
            exact hf (.alpha (⟨i, hi⟩, ⟨j, hj⟩) (by dsimp only; omega))
          · refine ⟨0, rfl, ?_⟩
            have := Nat.mul_le_mul_right q hBq
            rw [Nat.zero_add]
            calc B * q ≤ q ^ 2 * q := this
              _ = q ^ 3 := by ring
        obtain ⟨v, hv, hle⟩ := h2
        rw [hv]
        have : hashInts l * (withDraws base f i).k.val + v ≤ q ^ 3 := by omega
        exact_mod_cast this
    · intro j hj _
      rw [withDraws_gammaR base f hi hj]; by_contra h0; exact hf (.gammaR (⟨i, hi⟩, ⟨j, hj⟩) h0)
    · intro j hj _
      rw [withDraws_wR base f hi hj]; by_contra h0; exact hf (.wR (⟨i, hi⟩, ⟨j, hj⟩) h0)
    · intro j hj _
      rw [withDraws_gammaBeta base f hi hj]; exact Int.natCast_nonneg _
    · intro j hj _
      rw [withDraws_wBeta base f hi hj]; exact Int.natCast_nonneg _
    · intro j hj _
      have h1 := hkq j (withDraws base f i).gamma
      have h2 : (withDraws base f i).gammaBeta j = (f (.gammaBeta ⟨i, hi⟩ ⟨j, hj⟩) : ℤ) :=
        withDraws_gammaBeta base f hi hj
      rw [h2]
      have h3 : f (.gammaBeta ⟨i, hi⟩ ⟨j, hj⟩) + q ^ 2 < (dk (s_l.getD j 0)).n := by
        by_contra h0
        exact hf (.gammaBeta (⟨i, hi⟩, ⟨j, hj⟩) (by dsimp only; omega))
      have h4 : (f (.gammaBeta ⟨i, hi⟩ ⟨j, hj⟩) : ℤ) + (q : ℤ) ^ 2 < (dk (s_l.getD j 0)).n := by
        exact_mod_cast h3
      linarith
    · intro j hj _
      have h1 := hkq j (signShare x s_l i)
      have h2 : (withDraws base f i).wBeta j = (f (.wBeta ⟨i, hi⟩ ⟨j, hj⟩) : ℤ) :=
        withDraws_wBeta base f hi hj
      rw [h2]
      have h3 : f (.wBeta ⟨i, hi⟩ ⟨j, hj⟩) + q ^ 2 < (dk (s_l.getD j 0)).n := by
        by_contra h0
        exact hf (.wBeta (⟨i, hi⟩, ⟨j, hj⟩) (by dsimp only; omega))
      have h4 : (f (.wBeta ⟨i, hi⟩ ⟨j, hj⟩) : ℤ) + (q : ℤ) ^ 2 < (dk (s_l.getD j 0)).n := by
        exact_mod_cast h3
      linarith

/-- Few draws make a sum of scalars zero, or meet another exception of at most `b` values. -/
theorem rare_sum {N : ℕ → ℕ} {c : Fin m → Draw m L} (hc : ∀ i j, c i = c j → i = j)
    (hr : ∀ i, Draw.range N (c i) = Finset.Ico 1 q) (hm : 0 < m) {α : Type} (g : Sc → α)
    (hg : ∀ a b, g a = g b → a = b) (l : List α) {b K : ℕ} (hl : l.length ≤ b) (hb : 0 < b)
    (hK : K * b ≤ q - 1) :
    Rare 1 K (draws m L N) (fun f => g (∑ i, (f (c i) : Sc)) ∈ l) := by
  unfold draws
  refine rare_coordinate (c ⟨0, hm⟩) (b := b) (fun f _ => ?_) hb (by rw [hr, Nat.card_Ico]; exact hK)
  have hs : ∀ v : ℕ, ∑ i, (Function.update f (c ⟨0, hm⟩) v (c i) : Sc) =
      v + ∑ i ∈ Finset.univ.erase (⟨0, hm⟩ : Fin m), (f (c i) : Sc) := by
    intro v
    rw [← Finset.add_sum_erase _ _ (Finset.mem_univ (⟨0, hm⟩ : Fin m)), Function.update_self]
    congr 1
    refine Finset.sum_congr rfl fun i hi => ?_
    rw [Function.update_of_ne]
    exact fun h => (Finset.mem_erase.1 hi).1 (hc _ _ h)
  refine (count_list (fun v : ℕ => g ((v : Sc) + ∑ i ∈ Finset.univ.erase (⟨0, hm⟩ : Fin m), (f (c i) : Sc))) l
    (fun v hv w hw h => ?_) fun v _ h => ?_).trans hl
  · rw [hr, Finset.mem_Ico] at hv hw
    have := add_right_cancel (hg _ _ h)
    rw [ZMod.natCast_eq_natCast_iff'] at this
    rwa [Nat.mod_eq_of_lt hv.2, Nat.mod_eq_of_lt hw.2] at this
  · rwa [hs] at h

/-- The points whose x-coordinate is a given number modulo the group order. -/
theorem points_with_x_mod (hp : p ≤ 2 * q) (r : Sc) :
    ∃ l : List Pt, l.length ≤ 4 ∧ ∀ (P : Pt) (x y : ℕ), coords P = some (x, y) → (x : Sc) = r → P ∈ l := by
  obtain ⟨l1, h1, hl1⟩ := points_with_x r.val
  obtain ⟨l2, h2, hl2⟩ := points_with_x (r.val + q)
  refine ⟨l1 ++ l2, by rw [List.length_append]; omega, fun P x y hc hx => ?_⟩
  have hxc : xc P = some x := by simp [xc, hc]
  have hlt := (coords_lt _ _ _ hc).1
  have hmod : r.val = x % q := by rw [← hx, ZMod.val_natCast]
  rcases Nat.lt_or_ge x q with h | h
  · have : x = r.val := by rw [hmod, Nat.mod_eq_of_lt h]
    exact List.mem_append_left _ (hl1 _ (this ▸ hxc))
  · have : x = r.val + q := by
      rw [hmod, Nat.mod_eq_sub_mod h, Nat.mod_eq_of_lt (by omega)]; omega
    exact List.mem_append_right _ (hl2 _ (this ▸ hxc))

/-- Accidents are rare. -/
theorem rare_badDraw (hp : p ≤ 2 * q) {n : ℕ} {dk : ℕ → DecKey} {s_l : List ℕ} {K B : ℕ}
    (hv : ∀ i ∈ s_l, (dk i).Valid) (hK : LargeFor K B dk s_l) (hm : 0 < s_l.length) {d : Sc} {message : ℤ}
    (hd : d ≠ 0 ∨ (message : Sc) ≠ 0) :
    Rare (3 + s_l.length + 4 * s_l.length ^ 2 + s_l.length * n) K
      (draws s_l.length n (fun j => (dk (s_l.getD j 0)).n))
      (BadDraw (fun j => (dk (s_l.getD j 0)).n) B d message) := by
  set N : ℕ → ℕ := fun j => (dk (s_l.getD j 0)).n with hN
  set m := s_l.length with hml
  have hmem : ∀ i : Fin m, s_l.getD i 0 ∈ s_l := fun i => getD_mem i.2
  have hq : 0 < q ^ 2 := Nat.pow_pos q_pos
  have r1 : Rare 1 K (draws m n N) (fun f => ∑ i, (f (.k i) : Sc) = 0) := by
    refine (rare_sum (N := N) (c := Draw.k) (fun i j h => by cases h; rfl) (fun _ => rfl) hm id
      (fun a b h => h) [0] (b := 1) (by simp) one_pos (by have := hK.order; omega)).mono fun f _ h => ?_
    simpa using h
  have r2 : Rare 1 K (draws m n N) (fun f => ∑ i, (f (.gamma i) : Sc) = 0) := by
    refine (rare_sum (N := N) (c := Draw.gamma) (fun i j h => by cases h; rfl) (fun _ => rfl) hm id
      (fun a b h => h) [0] (b := 1) (by simp) one_pos (by have := hK.order; omega)).mono fun f _ h => ?_
    simpa using h
  have r3 : Rare 1 K (draws m n N) (fun f => ∃ xr y : ℕ,
      coords ((∑ i, (f (.k i) : Sc))⁻¹ • (G : Pt)) = some (xr, y) ∧ (message : Sc) + (xr : Sc) * d = 0) := by
    rcases eq_or_ne d 0 with rfl | hd0
    · refine Rare.false fun f _ ⟨xr, y, _, h⟩ => ?_
      rw [mul_zero, add_zero] at h
      exact hd.elim (fun h0 => h0 rfl) fun h0 => h0 h
    · obtain ⟨l, hl, hall⟩ := points_with_x_mod hp (-(message : Sc) / d)
      refine (rare_sum (N := N) (c := Draw.k) (fun i j h => by cases h; rfl) (fun _ => rfl) hm
        (fun a => a⁻¹ • (G : Pt)) (fun a b h => inv_injective (smul_G_inj.1 h)) l hl (by norm_num)
        (by have := hK.order; omega)).mono fun f _ h => ?_
      obtain ⟨xr, y, h1, h2⟩ := h
      refine hall _ xr y h1 ?_
      rw [eq_div_iff hd0]
      linear_combination h2
  have hunits : ∀ (c : Draw m n) (j : Fin m), Draw.range N c = Finset.Ico 0 (N j) →
      Rare 1 K (draws m n N) (fun f => Int.gcd (f c) (N j) ≠ 1) := by
    intro c j hc
    have hvj := hv _ (hmem j)
    have hbig := hK.primes _ (hmem j)
    refine rare_value (Q := fun v => Int.gcd v (N j) ≠ 1) c (b := (dk (s_l.getD j 0)).p + (dk (s_l.getD j 0)).q)
      ?_ (by have := hvj.p_prime.pos; omega) ?_
    · rw [hc]
      exact count_nonunits hvj.p_prime hvj.q_prime
    · rw [hc, Nat.card_Ico, Nat.sub_zero]
      show K * _ ≤ (dk (s_l.getD j 0)).p * (dk (s_l.getD j 0)).q
      have e1 := Nat.mul_le_mul_right (dk (s_l.getD j 0)).q hbig.1
      have e2 := Nat.mul_le_mul_left (dk (s_l.getD j 0)).p hbig.2
      nlinarith
  have htop : ∀ (c : Draw m n) (T b : ℕ), Draw.range N c = Finset.Ico 0 T → K * b ≤ T →
      Rare 1 K (draws m n N) (fun f => T ≤ f c + b) := by
    intro c T b hc hKb
    rcases Nat.eq_zero_or_pos b with rfl | hb
    · refine Rare.false fun f hf h => ?_
      have := Fintype.mem_piFinset.1 hf c
      rw [hc, Finset.mem_Ico] at this
      omega
    · refine rare_value (Q := fun v => T ≤ v + b) c (b := b) ?_ hb (by rw [hc, Nat.card_Ico]; exact hKb)
      rw [hc]; exact count_top T b
  have r4 := Rare.exists_fintype (fun i : Fin m => hunits (.ra i) i rfl)
  have r5 := Rare.exists_fintype (fun i : Fin m × Fin m => hunits (.gammaR i.1 i.2) i.2 rfl)
  have r6 := Rare.exists_fintype (fun i : Fin m × Fin m => hunits (.wR i.1 i.2) i.2 rfl)
  have r7 := Rare.exists_fintype (fun i : Fin m × Fin m =>
    htop (.gammaBeta i.1 i.2) (N i.2) (q ^ 2) rfl (hK.modulus _ (hmem i.2)))
  have r8 := Rare.exists_fintype (fun i : Fin m × Fin m =>
    htop (.wBeta i.1 i.2) (N i.2) (q ^ 2) rfl (hK.modulus _ (hmem i.2)))
  have r9 := Rare.exists_fintype (fun i : Fin m × Fin n =>
    htop (.alpha i.1 i.2) (q ^ 3) (B * q) rfl (by
      rw [← mul_assoc, pow_succ]; exact Nat.mul_le_mul_right _ hK.order_hash))
  rw [Fintype.card_prod, Fintype.card_fin] at r5 r6 r7 r8
  rw [Fintype.card_prod, Fintype.card_fin, Fintype.card_fin] at r9
  rw [Fintype.card_fin] at r4
  have := ((((((((r1.or r2).or r3).or r4).or r5).or r6).or r7).or r8).or r9)
  have hnum : 1 + 1 + 1 + m + m * m + m * m + m * m + m * m + m * n = 3 + m + 4 * m ^ 2 + m * n := by ring
  rw [hnum] at this
  refine this.mono fun f _ h => ?_
  cases h with
  | k h => exact Or.inl (Or.inl (Or.inl (Or.inl (Or.inl (Or.inl (Or.inl (Or.inl (h))))))))
  | gamma h => exact Or.inl (Or.inl (Or.inl (Or.inl (Or.inl (Or.inl (Or.inl (Or.inr h)))))))
  | zero xr y h1 h2 => exact Or.inl (Or.inl (Or.inl (Or.inl (Or.inl (Or.inl (Or.inr ⟨xr, y, h1, h2⟩))))))
  | ra i h => exact Or.inl (Or.inl (Or.inl (Or.inl (Or.inl (Or.inr ⟨i, h⟩)))))
  | gammaR i h => exact Or.inl (Or.inl (Or.inl (Or.inl (Or.inr ⟨i, h⟩))))
  | wR i h => exact Or.inl (Or.inl (Or.inl (Or.inr ⟨i, h⟩)))
  | gammaBeta i h => exact Or.inl (Or.inl (Or.inr ⟨i, h⟩))
  | wBeta i h => exact Or.inl (Or.inr ⟨i, h⟩)
  | alpha i h => exact Or.inr ⟨i, h⟩

/-- **C101.** At least `t + 1` holders of a key `d G` sign a message, drawing their random numbers as the code
does.  Of all the ways to draw them, at most a fraction `(3 + m + 4 m² + m n) / K` do not end with one and the
same valid low-`s` signature at all `m` signers, where `K` measures the size of the parameters.  (The one
exception is the message 0 for the key 0.) -/
theorem C101_signing_rarely_fails (hp : p ≤ 2 * q) {t n : ℕ} {x : ℕ → Sc} {d : Sc} {dk : ℕ → DecKey}
    {sts : List DLogStatement} {s_l : List ℕ} {key : ℕ → LocalKey}
    (h : KeyHolders n (d • G) x dk sts s_l key) (hx : Reconstructs t n x d) (hlen : t + 1 ≤ s_l.length)
    {K B : ℕ} (hK : LargeFor K B dk s_l) (base : ℕ → SignRandomness) (message : ℤ)
    (hd : d ≠ 0 ∨ (message : Sc) ≠ 0) :
    Rare (3 + s_l.length + 4 * s_l.length ^ 2 + s_l.length * n) K
      (draws s_l.length n (fun j => (dk (s_l.getD j 0)).n))
      (fun f => ¬ ∃ cs sig, offline s_l key (withDraws base f) = .ok cs ∧
        online message cs = .ok (List.replicate s_l.length sig) ∧
        EcdsaEq (d • G) message sig.r sig.s ∧ LowS sig.s) := by
  refine (rare_badDraw hp (fun i hi => h.dk_valid i (h.members i hi).1 (h.members i hi).2) hK (by omega)
    hd).mono fun f _ hno => ?_
  by_contra hf
  apply hno
  have hBq : B ≤ q ^ 2 := (Nat.le_mul_of_pos_left B hK.pos).trans hK.order_hash
  obtain ⟨cs, h1, -, -, h2⟩ := C39_honest_signing
    (honestSigners_of_draws h hK.hash_le hBq base hf) hx hlen
  obtain ⟨sig, h3, h4, h5⟩ := h2 message fun xr y hc h0 =>
    hf (.zero xr y (by rwa [sum_k_withDraws] at hc) h0)
  exact ⟨cs, sig, h1, h3, h4, h5⟩

/-! ### The GG18 demo -/

theorem gg18_withDraws_k (base : ℕ → Demo.Sign.Rand) (f : Draw m 0 → ℕ) {i : ℕ} (hi : i < m) :
    (Spec.GG18.withDraws base f (i + 1)).k = (f (.k ⟨i, hi⟩) : Sc) := by
  unfold Spec.GG18.withDraws; rw [dif_pos (show i + 1 - 1 < m from hi)]; rfl

theorem gg18_withDraws_gamma (base : ℕ → Demo.Sign.Rand) (f : Draw m 0 → ℕ) {i : ℕ} (hi : i < m) :
    (Spec.GG18.withDraws base f (i + 1)).gamma = (f (.gamma ⟨i, hi⟩) : Sc) := by
  unfold Spec.GG18.withDraws; rw [dif_pos (show i + 1 - 1 < m from hi)]; rfl

theorem gg18_withDraws_ra (base : ℕ → Demo.Sign.Rand) (f : Draw m 0 → ℕ) {i : ℕ} (hi : i < m) :
    (Spec.GG18.withDraws base f (i + 1)).ra = f (.ra ⟨i, hi⟩) := by
  unfold Spec.GG18.withDraws; rw [dif_pos (show i + 1 - 1 < m from hi)]; rfl

theorem gg18_withDraws_gammaR (base : ℕ → Demo.Sign.Rand) (f : Draw m 0 → ℕ) {i j : ℕ} (hi : i < m)
    (hj : j < m) : (Spec.GG18.withDraws base f (i + 1)).gammaR (j + 1) = f (.gammaR ⟨i, hi⟩ ⟨j, hj⟩) := by
  unfold Spec.GG18.withDraws; rw [dif_pos (show i + 1 - 1 < m from hi)]; dsimp only
  rw [dif_pos (show j + 1 - 1 < m from hj)]; rfl

theorem gg18_withDraws_wR (base : ℕ → Demo.Sign.Rand) (f : Draw m 0 → ℕ) {i j : ℕ} (hi : i < m)
    (hj : j < m) : (Spec.GG18.withDraws base f (i + 1)).wR (j + 1) = f (.wR ⟨i, hi⟩ ⟨j, hj⟩) := by
  unfold Spec.GG18.withDraws; rw [dif_pos (show i + 1 - 1 < m from hi)]; dsimp only
  rw [dif_pos (show j + 1 - 1 < m from hj)]; rfl

theorem gg18_withDraws_gammaBeta (base : ℕ → Demo.Sign.Rand) (f : Draw m 0 → ℕ) {i j : ℕ} (hi : i < m)
    (hj : j < m) : (Spec.GG18.withDraws base f (i + 1)).gammaBeta (j + 1) = f (.gammaBeta ⟨i, hi⟩ ⟨j, hj⟩) := by
  unfold Spec.GG18.withDraws; rw [dif_pos (show i + 1 - 1 < m from hi)]; dsimp only
  rw [dif_pos (show j + 1 - 1 < m from hj)]; rfl

theorem gg18_withDraws_wBeta (base : ℕ → Demo.Sign.Rand) (f : Draw m 0 → ℕ) {i j : ℕ} (hi : i < m)
    (hj : j < m) : (Spec.GG18.withDraws base f (i + 1)).wBeta (j + 1) = f (.wBeta ⟨i, hi⟩ ⟨j, hj⟩) := by
  unfold Spec.GG18.withDraws; rw [dif_pos (show i + 1 - 1 < m from hi)]; dsimp only
  rw [dif_pos (show j + 1 - 1 < m from hj)]; rfl

theorem gg18_sum_k (base : ℕ → Demo.Sign.Rand) (f : Draw m 0 → ℕ) :
    ∑ j ∈ Finset.range m, (Spec.GG18.withDraws base f (j + 1)).k = ∑ i, (f (.k i) : Sc) := by
  rw [Finset.sum_range]
  exact Finset.sum_congr rfl fun i _ => gg18_withDraws_k base f i.2

theorem gg18_sum_gamma (base : ℕ → Demo.Sign.Rand) (f : Draw m 0 → ℕ) :
    ∑ j ∈ Finset.range m, (Spec.GG18.withDraws base f (j + 1)).gamma = ∑ i, (f (.gamma i) : Sc) := by
  rw [Finset.sum_range]
  exact Finset.sum_congr rfl fun i _ => gg18_withDraws_gamma base f i.2

theorem honestRoom_of_draws {n : ℕ} {Y : Pt} {x : ℕ → Sc} {dk : ℕ → DecKey} {s_l : List ℕ}
    {key : ℕ → Demo.Keygen.KeyFile} (h : Spec.GG18.KeyHolders n Y x dk s_l key) {B : ℕ} {d : Sc} {message : ℤ}
    (base : ℕ → Demo.Sign.Rand) {f : Draw s_l.length 0 → ℕ}
    (hf : ¬ BadDraw (fun j => (dk (s_l.getD j 0)).n) B d message f) :
    Spec.GG18.HonestRoom n Y x dk s_l key (Spec.GG18.withDraws base f) where
  n_lt := h.n_lt
  n_u16 := h.n_u16
  nodup := h.nodup
  members := h.members
  holds := h.holds
  dk_valid := h.dk_valid
  k_sum := fun h0 => hf (.k (by rwa [gg18_sum_k] at h0))
  gamma_sum := fun h0 => hf (.gamma (by rwa [gg18_sum_gamma] at h0))
  sample := by
    intro i hi
    have hkq : ∀ j : ℕ, ∀ c : Sc, ((Spec.GG18.withDraws base f (j + 1)).k.val * c.val : ℤ) < (q : ℤ) ^ 2 :=
      fun j c => by exact_mod_cast val_mul_val_lt _ c
    refine ⟨?_, ?_, ?_, ?_, ?_, ?_, ?_⟩
    · rw [gg18_withDraws_ra base f hi]; by_contra h0; exact hf (.ra ⟨i, hi⟩ h0)
    · intro j hj _
      rw [gg18_withDraws_gammaR base f hi hj]; by_contra h0; exact hf (.gammaR (⟨i, hi⟩, ⟨j, hj⟩) h0)
    · intro j hj _
      rw [gg18_withDraws_wR base f hi hj]; by_contra h0; exact hf (.wR (⟨i, hi⟩, ⟨j, hj⟩) h0)
    · intro j hj _
      rw [gg18_withDraws_gammaBeta base f hi hj]; exact Int.natCast_nonneg _
    · intro j hj _
      rw [gg18_withDraws_wBeta base f hi hj]; exact Int.natCast_nonneg _
    · intro j hj _
      have h1 := hkq j (Spec.GG18.withDraws base f (i + 1)).gamma
      rw [gg18_withDraws_gammaBeta base f hi hj]
      have h3 : f (.gammaBeta ⟨i, hi⟩ ⟨j, hj⟩) + q ^ 2 < (dk (s_l.getD j 0)).n := by
        by_contra h0
        exact hf (.gammaBeta (⟨i, hi⟩, ⟨j, hj⟩) (by dsimp only; omega))
      have h4 : (f (.gammaBeta ⟨i, hi⟩ ⟨j, hj⟩) : ℤ) + (q : ℤ) ^ 2 < (dk (s_l.getD j 0)).n := by
        exact_mod_cast h3
      linarith
    · intro j hj _
      have h1 := hkq j (signShare x s_l i)
      rw [gg18_withDraws_wBeta base f hi hj]
      have h3 : f (.wBeta ⟨i, hi⟩ ⟨j, hj⟩) + q ^ 2 < (dk (s_l.getD j 0)).n := by
        by_contra h0
        exact hf (.wBeta (⟨i, hi⟩, ⟨j, hj⟩) (by dsimp only; omega))
      have h4 : (f (.wBeta ⟨i, hi⟩ ⟨j, hj⟩) : ℤ) + (q : ℤ) ^ 2 < (dk (s_l.getD j 0)).n := by
        exact_mod_cast h3
      linarith

/-- **C101** (GG18 demo): the same for the signing clients. -/
theorem C101_gg18_rarely_fails (hp : p ≤ 2 * q) {t n : ℕ} {x : ℕ → Sc} {d : Sc} {dk : ℕ → DecKey}
    {s_l : List ℕ} {key : ℕ → Demo.Keygen.KeyFile}
    (h : Spec.GG18.KeyHolders n (d • G) x dk s_l key) (hx : Reconstructs t n x d) (hlen : t + 1 ≤ s_l.length)
    {K B : ℕ} (hK : LargeFor K B dk s_l) (base : ℕ → Demo.Sign.Rand) (message : ℤ)
    (hd : d ≠ 0 ∨ (message : Sc) ≠ 0) :
    Rare (3 + s_l.length + 4 * s_l.length ^ 2) K
      (draws s_l.length 0 (fun j => (dk (s_l.getD j 0)).n))
      (fun f => ¬ ∃ sig, Demo.Sign.run (s_l.length - 1) key message (Spec.GG18.withDraws base f) =
          .ok (List.replicate s_l.length sig) ∧
        EcdsaEq (d • G) message sig.r sig.s ∧ LowS sig.s) := by
  refine (rare_badDraw (n := 0) hp (fun i hi => h.dk_valid i (h.members i hi).1 (h.members i hi).2) hK (by omega)
    hd).mono fun f _ hno => ?_
  by_contra hf
  apply hno
  exact C51_honest_signing (honestRoom_of_draws h base hf) hx hlen message fun xr y hc h0 =>
    hf (.zero xr y (by rwa [gg18_sum_k] at hc) h0)

end

/-! ### On the real curve -/

section
attribute [local instance] Secp256k1.crypto

/-- **C101** (the real parameters): with SHA-256 and secp256k1, Paillier primes of 1024 bits make the fraction
at most `(3 + m + 4 m² + m n) / 2^253`. -/
theorem C101_secp256k1 {dk : ℕ → DecKey} {s_l : List ℕ}
    (h : ∀ i ∈ s_l, 2 ^ 1023 ≤ (dk i).p ∧ 2 ^ 1023 ≤ (dk i).q) : p ≤ 2 * q ∧ LargeFor (2 ^ 253) (2 * q) dk s_l := by
  refine ⟨by show Secp256k1.p ≤ 2 * Secp256k1.n; norm_num [Secp256k1.p, Secp256k1.n], ?_⟩
  have hmono : ∀ a b : ℕ, a ≤ b → 2 ^ a ≤ 2 ^ b := fun a b => Nat.pow_le_pow_right Nat.two_pos
  have hq1 : (q : ℕ) = Secp256k1.n := rfl
  have hlo : 2 ^ 255 + 1 ≤ Secp256k1.n := by norm_num [Secp256k1.n]
  have hhi : Secp256k1.n ≤ 2 ^ 256 := by norm_num [Secp256k1.n]
  have hpq : ∀ i ∈ s_l, 2 ^ 1023 * 2 ^ 1023 ≤ (dk i).n := fun i hi => Nat.mul_le_mul (h i hi).1 (h i hi).2
  generalize Secp256k1.n = Q at hq1 hlo hhi
  refine ⟨by positivity, fun l => ?_, ?_, ?_, fun i hi => ?_, fun i hi => ?_⟩
  · exact_mod_cast (C97_challenge_range l).2
  · rw [hq1]
    have : 4 * 2 ^ 253 = 2 ^ 255 := by norm_num
    omega
  · rw [hq1]
    have : 2 ^ 253 * 2 ≤ Q := by
      have : 2 ^ 253 * 2 ≤ 2 ^ 255 := by norm_num
      omega
    calc 2 ^ 253 * (2 * Q) = (2 ^ 253 * 2) * Q := by ring
      _ ≤ Q * Q := Nat.mul_le_mul_right _ this
      _ = Q ^ 2 := by ring
  · rw [hq1]
    calc 2 ^ 253 * Q ^ 2 ≤ 2 ^ 253 * (2 ^ 256) ^ 2 := Nat.mul_le_mul_left _ (Nat.pow_le_pow_left hhi 2)
      _ = 2 ^ (253 + 256 * 2) := by rw [← pow_mul, ← pow_add]
      _ ≤ 2 ^ (1023 + 1023) := hmono _ _ (by norm_num)
      _ = 2 ^ 1023 * 2 ^ 1023 := pow_add _ _ _
      _ ≤ (dk i).n := hpq i hi
  · have h1 : 2 * 2 ^ 253 ≤ 2 ^ 1023 := by
      rw [← pow_succ']; exact hmono _ _ (by norm_num)
    exact ⟨h1.trans (h i hi).1, h1.trans (h i hi).2⟩

end

/-! ### Examples -/

section
attribute [local instance] Toy.crypto

theorem toyLargeFor : LargeFor 2 30 (fun _ => toyKey) [3, 1] :=
  ⟨by decide, toy_hash_le, by decide, by decide, fun _ _ => by decide, fun _ _ => by decide⟩

/-- C101: signers 3 and 1 of the 2-of-3 key of C39. -/
example : Rare (3 + 2 + 4 * 2 ^ 2 + 2 * 3) 2 (draws 2 3 (fun _ => toyKey.n))
    (fun f => ¬ ∃ cs sig, offline [3, 1] (fun k => toyLocal ([3, 1].getD k 0)) (withDraws toySign f) = .ok cs ∧
      online 10 cs = .ok (List.replicate 2 sig) ∧
      EcdsaEq ((5 : ZMod 31) • (G : Pt)) 10 sig.r sig.s ∧ LowS sig.s) := by
  have hrec := toyX_poly.reconstructs (by decide)
  have h0 : (Polynomial.C (5 : ZMod 31) + Polynomial.C (7 : ZMod 31) * Polynomial.X).eval 0 = 5 := by simp
  exact C101_signing_rarely_fails (by decide)
    ⟨toyHonest.n_lt, toyHonest.n_u16, toyHonest.nodup, toyHonest.members, toyHonest.holds, toyHonest.aux,
      toyHonest.dk_valid⟩ (h0 ▸ hrec) (by decide) toyLargeFor toySign 10 (Or.inl (by decide))

/-- C101: the hypotheses for the two clients of the GG18 room of C51. -/
example : ∃ x dk, Spec.GG18.KeyHolders 3 ((6 : ZMod 31) • (G : Pt)) x dk [3, 1]
    (fun k => Demo.Keygen.kFile 1 3 toyKg ([3, 1].getD (k - 1) 0 - 1)) ∧
    Reconstructs 1 3 x (6 : ZMod 31) ∧ LargeFor 7 30 dk [3, 1] := by
  obtain ⟨x, dk, h, hx⟩ := toyRoom_room
  refine ⟨x, dk, ⟨h.n_lt, h.n_u16, h.nodup, h.members, h.holds, h.dk_valid⟩, hx, ?_⟩
  have h3 : dk 3 = toyKey3 := (h.holds 0 (by decide)).dk_own.symm
  have h1 : dk 1 = toyKey3 := (h.holds 1 (by decide)).dk_own.symm
  have hk : ∀ i ∈ [3, 1], dk i = toyKey3 := by
    intro i hi
    rcases List.mem_cons.1 hi with rfl | hi
    · exact h3
    · rw [List.mem_singleton.1 hi]; exact h1
  exact ⟨by decide, toy_hash_le, by decide, by decide, fun i hi => by rw [hk i hi]; decide,
    fun i hi => by rw [hk i hi]; decide⟩

end

end Verif.Props
