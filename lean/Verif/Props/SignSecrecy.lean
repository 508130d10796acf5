import Verif.Lemmas.SignSecrecy
import Verif.Props.Sign

/-!
# Signing secrecy (C102)

What the shares that honest signers publish say about their secrets.
-/

namespace Verif.Props

open EC Crypto GG20 GG20.Sign Spec

section
variable {R : Type} [CommRing R] {m h0 : ℕ} {H : Finset ℕ}

theorem sum_others_eq (f : ℕ → R) (k : ℕ) :
    ((GG20.Sign.others m k).map f).sum = ∑ j ∈ (Finset.range m).erase k, f j := by
  have hn : (GG20.Sign.others m k).Nodup := List.nodup_range.filter _
  rw [← List.sum_toFinset f hn]
  congr 1
  ext j
  rw [List.mem_toFinset, GG20.Sign.mem_others, Finset.mem_erase, Finset.mem_range]
  exact and_comm

/-- The masks, with those towards `h0` given by `e`. -/
def maskOf (H : Finset ℕ) (h0 : ℕ) (b : ℕ → ℕ → R) (e : ℕ → R) (k j : ℕ) : R :=
  if k ∈ H.erase h0 ∧ j = h0 then e k else b k j

/-- The share of signer `k`. -/
def shareSum (m : ℕ) (H : Finset ℕ) (h0 : ℕ) (a : ℕ → R) (c b : ℕ → ℕ → R) (e : ℕ → R) (k : ℕ) : R :=
  a k + ((GG20.Sign.others m k).map (fun j =>
    (if j ∈ H then c k j + maskOf H h0 b e j k else c k j) + (0 - maskOf H h0 b e k j))).sum

variable {a : ℕ → R} {c b : ℕ → ℕ → R}

theorem shareSum_shift (hH : ∀ k ∈ H, k < m) (h0H : h0 ∈ H) (e : ℕ → R) {k : ℕ} (hk : k ∈ H.erase h0) :
    shareSum m H h0 a c b e k = shareSum m H h0 a c b 0 k - e k := by
  obtain ⟨hk0, hkH⟩ := Finset.mem_erase.1 hk
  unfold shareSum
  rw [sum_others_eq, sum_others_eq]
  have hmem : h0 ∈ (Finset.range m).erase k := Finset.mem_erase.2 ⟨hk0.symm, Finset.mem_range.2 (hH _ h0H)⟩
  rw [← Finset.add_sum_erase _ _ hmem, ← Finset.add_sum_erase _ _ hmem]
  have h1 : ∀ j ∈ ((Finset.range m).erase k).erase h0,
      (if j ∈ H then c k j + maskOf H h0 b e j k else c k j) + (0 - maskOf H h0 b e k j) =
      (if j ∈ H then c k j + maskOf H h0 b 0 j k else c k j) + (0 - maskOf H h0 b 0 k j) := by
    intro j hj
    have hj0 := (Finset.mem_erase.1 hj).1
    have e1 : ∀ e : ℕ → R, maskOf H h0 b e j k = b j k := fun e => if_neg fun h => hk0 h.2
    have e2 : ∀ e : ℕ → R, maskOf H h0 b e k j = b k j := fun e => if_neg fun h => hj0 h.2
    rw [e1, e1, e2, e2]
  rw [Finset.sum_congr rfl h1]
  have e1 : ∀ e : ℕ → R, maskOf H h0 b e h0 k = b h0 k := fun e => if_neg fun h => hk0 h.2
  have e2 : ∀ e : ℕ → R, maskOf H h0 b e k h0 = e k := fun e => if_pos ⟨hk, rfl⟩
  rw [if_pos h0H, if_pos h0H, e1, e1, e2, e2]
  simp only [Pi.zero_apply]
  ring

theorem shareSum_center (hH : ∀ k ∈ H, k < m) (e : ℕ → R) :
    shareSum m H h0 a c b e h0 = shareSum m H h0 a c b 0 h0 + ∑ i ∈ H.erase h0, e i := by
  unfold shareSum
  rw [sum_others_eq, sum_others_eq]
  have h1 : ∀ j ∈ (Finset.range m).erase h0,
      (if j ∈ H then c h0 j + maskOf H h0 b e j h0 else c h0 j) + (0 - maskOf H h0 b e h0 j) =
      ((if j ∈ H then c h0 j + maskOf H h0 b 0 j h0 else c h0 j) + (0 - maskOf H h0 b 0 h0 j)) +
        if j ∈ H then e j else 0 := by
    intro j hj
    have hj0 := (Finset.mem_erase.1 hj).1
    have e2 : ∀ e : ℕ → R, maskOf H h0 b e h0 j = b h0 j := fun e => if_neg fun h => hj0 h.2
    rw [e2, e2]
    by_cases hjH : j ∈ H
    · have e1 : ∀ e : ℕ → R, maskOf H h0 b e j h0 = e j :=
        fun e => if_pos ⟨Finset.mem_erase.2 ⟨hj0, hjH⟩, rfl⟩
      rw [if_pos hjH, if_pos hjH, if_pos hjH, e1, e1]
      simp only [Pi.zero_apply]
      ring
    · rw [if_neg hjH, if_neg hjH, if_neg hjH]; ring
  rw [Finset.sum_congr rfl h1, Finset.sum_add_distrib, ← add_assoc]
  congr 1
  rw [← Finset.sum_filter]
  refine Finset.sum_congr ?_ fun _ _ => rfl
  ext j
  simp only [Finset.mem_filter, Finset.mem_erase, Finset.mem_range]
  constructor
  · rintro ⟨⟨h1, -⟩, h2⟩; exact ⟨h1, h2⟩
  · rintro ⟨h1, h2⟩; exact ⟨⟨h1, hH _ h2⟩, h2⟩

theorem shareSum_total (hH : ∀ k ∈ H, k < m) (h0H : h0 ∈ H) (e : ℕ → R) :
    ∑ k ∈ H, shareSum m H h0 a c b e k = ∑ k ∈ H, shareSum m H h0 a c b 0 k := by
  rw [← Finset.add_sum_erase _ _ h0H, ← Finset.add_sum_erase _ _ h0H, shareSum_center hH,
    Finset.sum_congr rfl fun k hk => shareSum_shift hH h0H e hk, Finset.sum_sub_distrib]
  ring

end

section
variable [Crypto] {n : ℕ} {Y : Pt} {x : ℕ → Sc} {dk : ℕ → DecKey} {sts : List DLogStatement}
  {s_l : List ℕ} {H : Finset ℕ} {key : ℕ → LocalKey} {rnd : ℕ → SignRandomness}
  {bad1 : ℕ → ℕ → MessageA × SignBroadcastPhase1} {bad2 : ℕ → ℕ → MessageB × MessageB} {h0 : ℕ}

theorem firstRound_withMasks (f : {k // k ∈ H.erase h0} × Bool → ℕ) :
    firstRound s_l key (withMasks H h0 rnd f) = firstRound s_l key rnd := by
  funext k
  unfold firstRound Round0.proceed withMasks
  split <;> rfl

omit [Crypto] in
theorem sentTo_first {α : Type} {m : Msg α} (h : m.receiver = none) (p : ℕ) : sentTo [m] p = .ok m.body := by
  unfold sentTo
  simp [h]

omit [Crypto] in
theorem sentTo_answers {α : Type} {l : List ℕ} {k : ℕ} (hk : k ∈ l) (i : ℕ) (g : ℕ → α) :
    sentTo (l.map (fun j => (⟨i, some (j + 1), g j⟩ : Msg α))) (k + 1) = .ok (g k) := by
  unfold sentTo
  have : (l.map (fun j => (⟨i, some (j + 1), g j⟩ : Msg α))).find?
      (fun m => decide (m.receiver = none) || decide (m.receiver = some (k + 1))) =
      some ⟨i, some (k + 1), g k⟩ := by
    induction l with
    | nil => simp at hk
    | cons a l ih =>
      rw [List.map_cons, List.find?_cons]
      by_cases ha : a = k
      · subst ha; simp
      · rw [show (decide ((⟨i, some (a + 1), g a⟩ : Msg α).receiver = none) ||
          decide ((⟨i, some (a + 1), g a⟩ : Msg α).receiver = some (k + 1))) = false by simp [ha]]
        exact ih ((List.mem_cons.1 hk).resolve_left (Ne.symm ha))
  rw [this]
  rfl

theorem withMasks_gammaBeta (f : {k // k ∈ H.erase h0} × Bool → ℕ) (k j : ℕ) :
    (((withMasks H h0 rnd f k).gammaBeta j : ℤ) : Sc) = maskOf H h0 (fun k j => (((rnd k).gammaBeta j : ℤ) : Sc))
      (fun k => if hk : k ∈ H.erase h0 then (f (⟨k, hk⟩, false) : Sc) else 0) k j := by
  unfold withMasks maskOf
  by_cases hk : k ∈ H.erase h0
  · rw [dif_pos hk]
    dsimp only
    by_cases hj : j = h0
    · subst hj
      rw [Function.update_self, if_pos ⟨hk, rfl⟩, dif_pos hk]; simp
    · rw [Function.update_of_ne hj, if_neg fun h => hj h.2]
  · rw [dif_neg hk, if_neg fun h => hk h.1]

theorem withMasks_wBeta (f : {k // k ∈ H.erase h0} × Bool → ℕ) (k j : ℕ) :
    (((withMasks H h0 rnd f k).wBeta j : ℤ) : Sc) = maskOf H h0 (fun k j => (((rnd k).wBeta j : ℤ) : Sc))
      (fun k => if hk : k ∈ H.erase h0 then (f (⟨k, hk⟩, true) : Sc) else 0) k j := by
  unfold withMasks maskOf
  by_cases hk : k ∈ H.erase h0
  · rw [dif_pos hk]
    dsimp only
    by_cases hj : j = h0
    · subst hj
      rw [Function.update_self, if_pos ⟨hk, rfl⟩, dif_pos hk]; simp
    · rw [Function.update_of_ne hj, if_neg fun h => hj h.2]
  · rw [dif_neg hk, if_neg fun h => hk h.1]

theorem reply_value {N : ℕ} {c : ℤ} {b : Sc} {r beta : ℤ} {t1 t2 a al : Sc} {z : ℤ} {d : DecKey}
    (h : (reply N c b r beta t1 t2).verify_proofs_get_alpha d a = .ok (al, z)) : al = a * b + beta := by
  obtain ⟨-, -, -, -, h⟩ := MessageB.verify_ok_iff.1 h
  simp only [reply, DLogProof.prove_pk] at h
  rw [← mul_smul, ← add_smul] at h
  exact (smul_G_inj.1 h).symm

theorem reply_accepted {d : DecKey} (hv : d.Valid) {m_a : MessageA} {a b : Sc} {r ra : ℤ} {beta : ℕ} {t1 t2 : Sc}
    {sts : List DLogStatement} (h1 : m_a.range_proofs.length = sts.length)
    (h2 : ∀ y ∈ m_a.range_proofs.zip sts, y.1.verify m_a.c d.n y.2 = some true)
    (hc : m_a.c = Paillier.encrypt d.n a.val ra) (hra : Int.gcd ra d.n = 1) (hr : Int.gcd r d.n = 1)
    (hb : beta < d.n - q ^ 2) :
    ∃ z, (reply d.n m_a.c b r beta t1 t2).verify_proofs_get_alpha d a = .ok (a * b + beta, z) := by
  have hb' : MessageB.b b d.n m_a r beta sts t1 t2 = .ok (reply d.n m_a.c b r beta t1 t2, 0 - ((beta : ℤ) : Sc)) :=
    MessageB.b_ok_reply.2 ⟨⟨h1, h2⟩, rfl⟩
  have h := mta_verify_honest hv hra hr hb' (by rw [hc]; exact Paillier.isEnc_encrypt _ _ _)
  have ha := ZMod.val_lt a
  have hb2 := ZMod.val_lt b
  have hab : a.val * b.val ≤ q * q := Nat.mul_le_mul ha.le hb2.le
  have hlt : a.val * b.val + beta < d.n := by
    rw [← pow_two] at hab
    omega
  have he : ((a.val : ℤ) * b.val + beta) % d.n = a.val * b.val + beta := by
    refine Int.emod_eq_of_lt (by positivity) (by exact_mod_cast hlt)
  dsimp only at h
  rw [he] at h
  have hcast : (((a.val : ℤ) * b.val + beta : ℤ) : Sc) = a * b + beta := by
    push_cast
    rw [ZMod.natCast_zmod_val, ZMod.natCast_zmod_val]
  rw [if_pos (by rw [hcast]; simp), hcast] at h
  exact ⟨_, h⟩

theorem received_first {r1 : ℕ → Round1} {rr : ℕ → SignRandomness}
    (h : ∀ k ∈ H, firstRound s_l key rr k = .ok (r1 k, [⟨k + 1, none, ((r1 k).m_a.1, (r1 k).phase1_com)⟩]))
    (k : ℕ) : received H s_l (firstRound s_l key rr) bad1 k = .ok ((GG20.Sign.others s_l.length k).map
      (fun j => if j ∈ H then ((r1 j).m_a.1, (r1 j).phase1_com) else bad1 j k)) := by
  unfold received
  refine Res.mapM_ok_of_forall fun j _ => ?_
  by_cases hj : j ∈ H
  · rw [if_pos hj, if_pos hj, h j hj, Res.bind_ok]
    exact sentTo_first rfl _
  · rw [if_neg hj, if_neg hj]

theorem received_second {r2 : ℕ → Round2} {g : ℕ → ℕ → MessageB × MessageB} {rr : ℕ → SignRandomness}
    (h : ∀ j ∈ H, secondRound H s_l key bad1 rr j = .ok (r2 j,
      (GG20.Sign.others s_l.length j).map (fun k => ⟨j + 1, some (k + 1), g j k⟩)))
    {k : ℕ} (hk : k < s_l.length) : received H s_l (secondRound H s_l key bad1 rr) bad2 k =
      .ok ((GG20.Sign.others s_l.length k).map (fun j => if j ∈ H then g j k else bad2 j k)) := by
  unfold received
  refine Res.mapM_ok_of_forall fun j hj => ?_
  have hjk := (GG20.Sign.mem_others.1 hj).2
  by_cases hj : j ∈ H
  · rw [if_pos hj, if_pos hj, h j hj, Res.bind_ok]
    exact sentTo_answers (GG20.Sign.mem_others.2 ⟨hk, hjk.symm⟩) _ _
  · rw [if_neg hj, if_neg hj]

/-- **C102.** Signers `H` follow the program; the others send them whatever they like.  `h0` is one of `H`, and
only the masks of the other honest signers towards `h0` are drawn, everything else is fixed.  If for some masks
all honest signers get through the share conversion, then their shares of `k γ` (which they publish) and of
`k x` (which their partial signatures are computed from) say nothing beyond the sums of both: all pairs of
vectors with these sums come out for nearly the same number of draws, no others do. -/
theorem C102_shares_uniform (hH : ∀ k ∈ H, HonestSigner n Y x dk sts s_l k (key k) (rnd k)) (h0H : h0 ∈ H)
    (hunit : ∀ k ∈ H, k ≠ h0 → Int.gcd ((rnd k).gammaR h0) (dk (s_l.getD h0 0)).n = 1 ∧
      Int.gcd ((rnd k).wR h0) (dk (s_l.getD h0 0)).n = 1)
    (hsome : ∃ f : {k // k ∈ H.erase h0} × Bool → ℕ, ∀ k ∈ H, ∃ y, computedShares H s_l key bad1 bad2 (withMasks H h0 rnd f) k = .ok y) :
    ∃ D E : Sc, ∀ v w : ℕ → Sc,
      let outcomes := count
        (Fintype.piFinset fun _ : {k // k ∈ H.erase h0} × Bool => Finset.Ico 0 (dk (s_l.getD h0 0)).n)
        (fun f => ∀ k ∈ H, computedShares H s_l key bad1 bad2 (withMasks H h0 rnd f) k = .ok (v k, w k))
      (∑ k ∈ H, v k = D ∧ ∑ k ∈ H, w k = E →
        (((dk (s_l.getD h0 0)).n - q ^ 2) / q) ^ (2 * (H.card - 1)) ≤ outcomes ∧
        outcomes ≤ ((dk (s_l.getD h0 0)).n / q + 1) ^ (2 * (H.card - 1))) ∧
      (¬ (∑ k ∈ H, v k = D ∧ ∑ k ∈ H, w k = E) → outcomes = 0) := by
  classical
  have hpos : ∀ k ∈ H, k < s_l.length := fun k hk => (hH k hk).pos
  -- the first messages
  have hfirst : ∀ k ∈ H, ∃ r : Round1, firstRound s_l key rnd k =
      .ok (r, [⟨k + 1, none, (r.m_a.1, r.phase1_com)⟩]) ∧ Inv1 dk s_l k (key k) (rnd k) r := by
    intro k hk
    obtain ⟨r, out, h1, h2⟩ := round0_inv (hH k hk)
    obtain ⟨-, -, -, e⟩ := round0_ok h1
    subst e
    exact ⟨r, h1, h2⟩
  have : Nonempty Round1 := ⟨(hfirst h0 h0H).choose⟩
  choose! r1 hr1 hinv using hfirst
  set B1 : ℕ → ℕ → MessageA × SignBroadcastPhase1 :=
    fun k j => if j ∈ H then ((r1 j).m_a.1, (r1 j).phase1_com) else bad1 j k with hB1
  have hsecond : ∀ f : {k // k ∈ H.erase h0} × Bool → ℕ, ∀ k ∈ H, secondRound H s_l key bad1 (withMasks H h0 rnd f) k =
      (r1 k).proceed ((GG20.Sign.others s_l.length k).map (B1 k)) (withMasks H h0 rnd f k) := by
    intro f k hk
    unfold secondRound
    rw [firstRound_withMasks, hr1 k hk, Res.bind_ok, received_first hr1, Res.bind_ok]
  obtain ⟨f0, hf0⟩ := hsome
  have hok : ∀ k ∈ H, ∀ j < s_l.length, j ≠ k → FirstOk dk sts s_l j (B1 k j).1 := by
    intro k hk
    obtain ⟨y, hy⟩ := hf0 k hk
    unfold computedShares at hy
    rw [Res.bind_eq_ok] at hy
    obtain ⟨⟨r2, out⟩, h2, -⟩ := hy
    rw [hsecond f0 k hk] at h2
    exact ((secondRound_iff (hH k hk) (hinv k hk) _).1 h2).1
  -- the answers
  let g : ({k // k ∈ H.erase h0} × Bool → ℕ) → ℕ → ℕ → MessageB × MessageB := fun f j k =>
    (reply (oN dk s_l k) (B1 j k).1.c (r1 j).sign_keys.gamma_i ((withMasks H h0 rnd f j).gammaR k)
        ((withMasks H h0 rnd f j).gammaBeta k) ((withMasks H h0 rnd f j).gammaT1 k)
        ((withMasks H h0 rnd f j).gammaT2 k),
      reply (oN dk s_l k) (B1 j k).1.c (r1 j).sign_keys.w_i ((withMasks H h0 rnd f j).wR k)
        ((withMasks H h0 rnd f j).wBeta k) ((withMasks H h0 rnd f j).wT1 k)
        ((withMasks H h0 rnd f j).wT2 k))
  have hcomp : ∀ (f : {k // k ∈ H.erase h0} × Bool → ℕ), ∀ k ∈ H, ∀ d s : Sc,
      computedShares H s_l key bad1 bad2 (withMasks H h0 rnd f) k = .ok (d, s) ↔
      ∃ al mi : ℕ → Sc, (∀ j < s_l.length, j ≠ k →
        (∃ z, (if j ∈ H then g f j k else bad2 j k).1.verify_proofs_get_alpha (dk (s_l.getD k 0))
          (r1 k).sign_keys.k_i = .ok (al j, z)) ∧
        (∃ z, (if j ∈ H then g f j k else bad2 j k).2.verify_proofs_get_alpha (dk (s_l.getD k 0))
          (r1 k).sign_keys.k_i = .ok (mi j, z)) ∧
        (if j ∈ H then g f j k else bad2 j k).2.b_proof.pk = signShare x s_l j • G) ∧
      d = (r1 k).sign_keys.k_i * (r1 k).sign_keys.gamma_i + ((GG20.Sign.others s_l.length k).map
        (fun j => al j + (0 - (((withMasks H h0 rnd f k).gammaBeta j : ℤ) : Sc)))).sum ∧
      s = (r1 k).sign_keys.k_i * (r1 k).sign_keys.w_i + ((GG20.Sign.others s_l.length k).map
        (fun j => mi j + (0 - (((withMasks H h0 rnd f k).wBeta j : ℤ) : Sc)))).sum := by
    intro f k hk d s
    have hsec := fun j (hj : j ∈ H) => (hsecond f j hj).trans
      ((secondRound_iff (hH j hj) (rr := withMasks H h0 rnd f j) (hinv j hj) (B1 j)).2 ⟨hok j hj, rfl, rfl⟩)
    unfold computedShares
    rw [received_second (g := g f) hsec (hpos k hk), hsec k hk, Res.bind_ok, Res.bind_ok]
    rw [← shares_iff (hH k hk) (rr := withMasks H h0 rnd f k) (r := {
      i := k + 1, s_l := s_l, local_key := key k, sign_keys := (r1 k).sign_keys, m_a := (r1 k).m_a,
      beta_vec := (GG20.Sign.others s_l.length k).map
        (fun j => 0 - (((withMasks H h0 rnd f k).gammaBeta j : ℤ) : Sc)),
      ni_vec := (GG20.Sign.others s_l.length k).map
        (fun j => 0 - (((withMasks H h0 rnd f k).wBeta j : ℤ) : Sc)),
      bc_vec := (List.range s_l.length).map (fun j => if j = k then (r1 k).phase1_com else (B1 k j).2),
      m_a_vec := (List.range s_l.length).map (fun j => if j = k then (r1 k).m_a.1 else (B1 k j).1),
      phase1_decom := (r1 k).phase1_decom }) rfl rfl rfl rfl rfl]
    rw [Res.bind_eq_ok]
    simp only [Res.ok.injEq, Prod.mk.injEq]
  have hbase : ∀ k ∈ H, ∃ al mi : ℕ → Sc, ∀ j < s_l.length, j ≠ k →
        (∃ z, (if j ∈ H then g f0 j k else bad2 j k).1.verify_proofs_get_alpha (dk (s_l.getD k 0))
          (r1 k).sign_keys.k_i = .ok (al j, z)) ∧
        (∃ z, (if j ∈ H then g f0 j k else bad2 j k).2.verify_proofs_get_alpha (dk (s_l.getD k 0))
          (r1 k).sign_keys.k_i = .ok (mi j, z)) ∧
        (if j ∈ H then g f0 j k else bad2 j k).2.b_proof.pk = signShare x s_l j • G := by
    intro k hk
    obtain ⟨⟨d, s⟩, hy⟩ := hf0 k hk
    obtain ⟨al, mi, h1, -⟩ := (hcomp f0 k hk d s).1 hy
    exact ⟨al, mi, h1⟩
  choose! al0 mi0 h00 using hbase
  -- the shares in terms of the masks
  let aG : ℕ → Sc := fun k => (r1 k).sign_keys.k_i * (r1 k).sign_keys.gamma_i
  let aW : ℕ → Sc := fun k => (r1 k).sign_keys.k_i * (r1 k).sign_keys.w_i
  let cG : ℕ → ℕ → Sc := fun k j =>
    if j ∈ H then (r1 k).sign_keys.k_i * (r1 j).sign_keys.gamma_i else al0 k j
  let cW : ℕ → ℕ → Sc := fun k j =>
    if j ∈ H then (r1 k).sign_keys.k_i * (r1 j).sign_keys.w_i else mi0 k j
  let bG : ℕ → ℕ → Sc := fun k j => (((rnd k).gammaBeta j : ℤ) : Sc)
  let bW : ℕ → ℕ → Sc := fun k j => (((rnd k).wBeta j : ℤ) : Sc)
  let eG : ({k // k ∈ H.erase h0} × Bool → ℕ) → ℕ → Sc := fun f k =>
    if hk : k ∈ H.erase h0 then (f (⟨k, hk⟩, false) : Sc) else 0
  let eW : ({k // k ∈ H.erase h0} × Bool → ℕ) → ℕ → Sc := fun f k =>
    if hk : k ∈ H.erase h0 then (f (⟨k, hk⟩, true) : Sc) else 0
  have hvalG : ∀ f, ∀ k ∈ H, ∀ j < s_l.length, j ≠ k → ∀ (al : Sc) (z : ℤ),
      (if j ∈ H then g f j k else bad2 j k).1.verify_proofs_get_alpha (dk (s_l.getD k 0))
        (r1 k).sign_keys.k_i = .ok (al, z) →
      al = if j ∈ H then cG k j + maskOf H h0 bG (eG f) j k else cG k j := by
    intro f k hk j hj hjk al z h
    by_cases hjH : j ∈ H
    · rw [if_pos hjH] at h ⊢
      rw [reply_value h, withMasks_gammaBeta]
      simp only [cG, if_pos hjH]
      rfl
    · rw [if_neg hjH] at h ⊢
      obtain ⟨⟨z', h'⟩, -⟩ := h00 k hk j hj hjk
      rw [if_neg hjH, h] at h'
      simp only [cG, if_neg hjH]
      exact (Prod.mk.inj (Res.ok.inj h')).1
  have hvalW : ∀ f, ∀ k ∈ H, ∀ j < s_l.length, j ≠ k → ∀ (al : Sc) (z : ℤ),
      (if j ∈ H then g f j k else bad2 j k).2.verify_proofs_get_alpha (dk (s_l.getD k 0))
        (r1 k).sign_keys.k_i = .ok (al, z) →
      al = if j ∈ H then cW k j + maskOf H h0 bW (eW f) j k else cW k j := by
    intro f k hk j hj hjk al z h
    by_cases hjH : j ∈ H
    · rw [if_pos hjH] at h ⊢
      rw [reply_value h, withMasks_wBeta]
      simp only [cW, if_pos hjH]
      rfl
    · rw [if_neg hjH] at h ⊢
      obtain ⟨-, ⟨z', h'⟩, -⟩ := h00 k hk j hj hjk
      rw [if_neg hjH, h] at h'
      simp only [cW, if_neg hjH]
      exact (Prod.mk.inj (Res.ok.inj h')).1
  have hfwd : ∀ f, ∀ k ∈ H, ∀ d s : Sc,
      computedShares H s_l key bad1 bad2 (withMasks H h0 rnd f) k = .ok (d, s) →
      d = shareSum s_l.length H h0 aG cG bG (eG f) k ∧ s = shareSum s_l.length H h0 aW cW bW (eW f) k := by
    intro f k hk d s h
    obtain ⟨al, mi, h1, rfl, rfl⟩ := (hcomp f k hk d s).1 h
    constructor
    · unfold shareSum
      congr 2
      refine List.map_congr_left fun j hj => ?_
      obtain ⟨m1, m2⟩ := GG20.Sign.mem_others.1 hj
      obtain ⟨⟨z, hz⟩, -⟩ := h1 j m1 m2
      rw [hvalG f k hk j m1 m2 _ z hz, withMasks_gammaBeta]
    · unfold shareSum
      congr 2
      refine List.map_congr_left fun j hj => ?_
      obtain ⟨m1, m2⟩ := GG20.Sign.mem_others.1 hj
      obtain ⟨-, ⟨z, hz⟩, -⟩ := h1 j m1 m2
      rw [hvalW f k hk j m1 m2 _ z hz, withMasks_wBeta]
  have hbwd : ∀ f, (∀ i, f i < (dk (s_l.getD h0 0)).n - q ^ 2) → ∀ k ∈ H,
      computedShares H s_l key bad1 bad2 (withMasks H h0 rnd f) k =
      .ok (shareSum s_l.length H h0 aG cG bG (eG f) k, shareSum s_l.length H h0 aW cW bW (eW f) k) := by
    intro f hf k hk
    refine (hcomp f k hk _ _).2 ⟨fun j => if j ∈ H then cG k j + maskOf H h0 bG (eG f) j k else cG k j,
      fun j => if j ∈ H then cW k j + maskOf H h0 bW (eW f) j k else cW k j, fun j hj hjk => ?_, ?_, ?_⟩
    · obtain ⟨⟨z1, hz1⟩, ⟨z2, hz2⟩, hpk⟩ := h00 k hk j hj hjk
      have v1 := hvalG f0 k hk j hj hjk _ _ hz1
      have v2 := hvalW f0 k hk j hj hjk _ _ hz2
      by_cases hjH : j ∈ H
      · rw [if_pos hjH] at hz1 hz2 hpk v1 v2
        dsimp only
        simp only [if_pos hjH]
        have hpk' : (g f j k).2.b_proof.pk = signShare x s_l j • G := by
          rw [← hpk]
          simp only [g, reply, DLogProof.prove_pk]
        by_cases hk0 : k = h0
        · subst hk0
          have hje : j ∈ H.erase k := Finset.mem_erase.2 ⟨hjk, hjH⟩
          have hB : (B1 j k).1 = (r1 k).m_a.1 := by simp only [B1, if_pos hk]
          have hfo := hok j hjH k (hpos k hk) (Ne.symm hjk)
          have hc : (B1 j k).1.c = Paillier.encrypt (dk (s_l.getD k 0)).n (r1 k).sign_keys.k_i.val (rnd k).ra := by
            rw [hB, (hinv k hk).c, (hinv k hk).k_i]; rfl
          have hw : withMasks H k rnd f j = { rnd j with
              gammaBeta := Function.update (rnd j).gammaBeta k (f (⟨j, hje⟩, false))
              wBeta := Function.update (rnd j).wBeta k (f (⟨j, hje⟩, true)) } := dif_pos hje
          have hm1 : maskOf H k bG (eG f) j k = (f (⟨j, hje⟩, false) : Sc) := by
            unfold maskOf
            rw [if_pos ⟨hje, rfl⟩]
            exact dif_pos hje
          have hm2 : maskOf H k bW (eW f) j k = (f (⟨j, hje⟩, true) : Sc) := by
            unfold maskOf
            rw [if_pos ⟨hje, rfl⟩]
            exact dif_pos hje
          refine ⟨?_, ?_, hpk'⟩
          · rw [hm1]
            simp only [g, hw, Function.update_self, cG, if_pos hjH]
            exact reply_accepted (hH k hk).dk_valid hfo.1 hfo.2 hc (hH k hk).ra_unit (hunit j hjH hjk).1 (hf _)
          · rw [hm2]
            simp only [g, hw, Function.update_self, cW, if_pos hjH]
            exact reply_accepted (hH k hk).dk_valid hfo.1 hfo.2 hc (hH k hk).ra_unit (hunit j hjH hjk).2 (hf _)
        · have hg : g f j k = g f0 j k := by
            simp only [g, withMasks]
            split
            · simp only [Function.update_of_ne hk0]
            · rfl
          have hm1 : ∀ (b : ℕ → ℕ → Sc) (e : ℕ → Sc), maskOf H h0 b e j k = b j k :=
            fun b e => if_neg fun h => hk0 h.2
          rw [hm1] at v1 v2
          rw [hm1, hm1, hg, ← v1, ← v2]
          exact ⟨⟨z1, hz1⟩, ⟨z2, hz2⟩, hpk⟩
      · rw [if_neg hjH] at hz1 hz2 hpk v1 v2
        dsimp only
        simp only [if_neg hjH]
        rw [← v1, ← v2]
        exact ⟨⟨z1, hz1⟩, ⟨z2, hz2⟩, hpk⟩
    · unfold shareSum
      congr 2
      refine List.map_congr_left fun j hj => ?_
      rw [withMasks_gammaBeta]
    · unfold shareSum
      congr 2
      refine List.map_congr_left fun j hj => ?_
      rw [withMasks_wBeta]
  -- counting
  refine ⟨∑ k ∈ H, shareSum s_l.length H h0 aG cG bG 0 k, ∑ k ∈ H, shareSum s_l.length H h0 aW cW bW 0 k,
    fun v w => ?_⟩
  dsimp only
  constructor
  · rintro ⟨hD, hE⟩
    have hcard : Fintype.card ({k // k ∈ H.erase h0} × Bool) = 2 * (H.card - 1) := by
      rw [Fintype.card_prod, Fintype.card_coe, Finset.card_erase_of_mem h0H, Fintype.card_bool, Nat.mul_comm]
    rw [← hcard]
    let u : {k // k ∈ H.erase h0} × Bool → Sc := fun i =>
      if i.2 then shareSum s_l.length H h0 aW cW bW 0 i.1 - w i.1
      else shareSum s_l.length H h0 aG cG bG 0 i.1 - v i.1
    refine count_residues u ?_ ?_
    · rintro f hf ⟨⟨k, hk⟩, c⟩
      have hkH := (Finset.mem_erase.1 hk).2
      obtain ⟨e1, e2⟩ := hfwd f k hkH _ _ (hf k hkH)
      rw [shareSum_shift hpos h0H _ hk] at e1 e2
      simp only [eG, eW, dif_pos hk] at e1 e2
      cases c
      · simp only [u, e1]; simp
      · simp only [u, e2]; simp
    · intro f hf k hk
      rw [hbwd f (fun i => (hf i).1) k hk]
      have hres1 : ∀ i (hi : i ∈ H.erase h0), eG f i = shareSum s_l.length H h0 aG cG bG 0 i - v i := by
        intro i hi
        have := (hf (⟨i, hi⟩, false)).2
        simp only [eG, dif_pos hi]
        rw [this]; simp [u]
      have hres2 : ∀ i (hi : i ∈ H.erase h0), eW f i = shareSum s_l.length H h0 aW cW bW 0 i - w i := by
        intro i hi
        have := (hf (⟨i, hi⟩, true)).2
        simp only [eW, dif_pos hi]
        rw [this]; simp [u]
      by_cases hk0 : k = h0
      · subst hk0
        rw [shareSum_center hpos (eG f), shareSum_center hpos (eW f), Finset.sum_congr rfl hres1, Finset.sum_congr rfl hres2,
          Finset.sum_sub_distrib, Finset.sum_sub_distrib]
        rw [← Finset.add_sum_erase _ _ hk, ← Finset.add_sum_erase _ _ hk] at hD hE
        congr 2
        · linear_combination -hD
        · linear_combination -hE
      · have hke : k ∈ H.erase h0 := Finset.mem_erase.2 ⟨hk0, hk⟩
        rw [shareSum_shift hpos h0H (eG f) hke, shareSum_shift hpos h0H (eW f) hke, hres1 k hke, hres2 k hke,
          sub_sub_cancel, sub_sub_cancel]
  · intro hno
    rw [count_eq, Finset.card_eq_zero, Finset.eq_empty_iff_forall_notMem]
    intro f hf
    have hf := (mem_sel.1 hf).2
    apply hno
    rw [← shareSum_total hpos h0H (eG f), ← shareSum_total hpos h0H (eW f)]
    exact ⟨Finset.sum_congr rfl fun k hk => (hfwd f k hk _ _ (hf k hk)).1,
      Finset.sum_congr rfl fun k hk => (hfwd f k hk _ _ (hf k hk)).2⟩

end

/-! ### Example -/

section
attribute [local instance] Toy.crypto

/-- Three holders of the 2-of-3 key of C39 sign; those at positions 0 and 2 follow the program. -/
def toyKeys3 (k : ℕ) : LocalKey := toyLocal (k + 1)

theorem toySigner3 {k : ℕ} (hk : k ∈ ({0, 2} : Finset ℕ)) :
    HonestSigner 3 ((5 : ZMod 31) • (G : Pt)) toyX (fun _ => toyKey) [toySt, toySt, toySt] [1, 2, 3] k
      (toyKeys3 k) (toySign k) := by
  have hb : ∀ k ∈ ({0, 2} : Finset ℕ), k < [1, 2, 3].length ∧ [1, 2, 3].getD k 0 = k + 1 ∧ k + 1 ≤ 3 := by decide
  obtain ⟨h1, h2, h3⟩ := hb k hk
  refine ⟨by decide, by decide, by decide, by decide, h1, ?_, ⟨rfl, by decide⟩, toyKey_valid,
    fun _ _ _ => by decide, ?_, fun _ => ?_⟩
  · rw [h2]
    exact ⟨by omega, h3, rfl, rfl, rfl, rfl, rfl, rfl, rfl⟩
  · simp [toySign]
  · simp [toySign]

/-- What the signer at position 1 sends: here, what an honest one would. -/
def toyFirst (j : ℕ) : MessageA × SignBroadcastPhase1 :=
  match firstRound [1, 2, 3] toyKeys3 toySign j with
  | .ok (_, ⟨_, _, b⟩ :: _) => b
  | _ => (⟨0, []⟩, ⟨0⟩)

def toyAnswer (j k : ℕ) : MessageB × MessageB :=
  match (do sentTo (← secondRound {0, 1, 2} [1, 2, 3] toyKeys3 (fun j _ => toyFirst j) toySign j).2 (k + 1) :
    Res SignError (MessageB × MessageB)) with
  | .ok b => b
  | _ =>
    let pf := DLogProof.prove (0 : ZMod 31) (0 : ZMod 31)
    (⟨0, pf, pf⟩, ⟨0, pf, pf⟩)

theorem toyRun3 : ∀ k ∈ ({0, 2} : Finset ℕ), (match computedShares {0, 2} [1, 2, 3] toyKeys3
    (fun j _ => toyFirst j) toyAnswer (withMasks {0, 2} 0 toySign fun _ => 1000) k with
    | .ok _ => true
    | _ => false) = true := by decide +kernel

/-- C102's hypotheses hold for this run: each of the 31² possible outcomes has between 34² = 1156 and 66² = 4356 of
the 2021² draws. -/
example : (∀ k ∈ ({0, 2} : Finset ℕ), HonestSigner 3 ((5 : ZMod 31) • (G : Pt)) toyX (fun _ => toyKey)
      [toySt, toySt, toySt] [1, 2, 3] k (toyKeys3 k) (toySign k)) ∧
    (∀ k ∈ ({0, 2} : Finset ℕ), k ≠ 0 → Int.gcd ((toySign k).gammaR 0) toyKey.n = 1 ∧
      Int.gcd ((toySign k).wR 0) toyKey.n = 1) ∧
    (∃ f : {k // k ∈ ({0, 2} : Finset ℕ).erase 0} × Bool → ℕ, ∀ k ∈ ({0, 2} : Finset ℕ),
      ∃ y, computedShares {0, 2} [1, 2, 3] toyKeys3 (fun j _ => toyFirst j) toyAnswer
        (withMasks {0, 2} 0 toySign f) k = .ok y) ∧
    ((toyKey.n - 31 ^ 2) / 31) ^ (2 * (({0, 2} : Finset ℕ).card - 1)) = 1156 ∧
    (toyKey.n / 31 + 1) ^ (2 * (({0, 2} : Finset ℕ).card - 1)) = 4356 := by
  refine ⟨fun k hk => toySigner3 hk, fun k hk hk0 => by constructor <;> simp [toySign],
    ⟨fun _ => 1000, fun k hk => ?_⟩, by decide, by decide⟩
  have := toyRun3 k hk
  revert this
  cases computedShares {0, 2} [1, 2, 3] toyKeys3 (fun j _ => toyFirst j) toyAnswer
    (withMasks {0, 2} 0 toySign fun _ => 1000) k with
  | ok y => exact fun _ => ⟨y, rfl⟩
  | err e => exact fun h => by cases h
  | panic => exact fun h => by cases h

end
end Verif.Props
