import Verif.Spec.KeygenAgreement
import Verif.Spec.Keygen
import Verif.Lemmas.SignPanic
import Verif.Lemmas.KeygenRun
import Verif.Lemmas.Blame

/-! # One party's key generation, whatever the others send -/

namespace Verif

theorem Script.step_snd_ok {μ ε α β : Type} {x : List μ × Res ε α} {f : α → Res ε (β × List μ)} {b : β}
    (h : (Script.step x f).2 = .ok b) :
    ∃ a out, x.2 = .ok a ∧ f a = .ok (b, out) ∧ Script.step x f = (x.1 ++ out, .ok b) := by
  unfold Script.step at h ⊢
  cases h1 : x.2 with
  | ok a =>
    rw [h1] at h
    dsimp only at h ⊢
    cases h2 : f a with
    | ok c =>
      obtain ⟨c, out⟩ := c
      rw [h2] at h
      dsimp only at h ⊢
      cases h
      exact ⟨a, out, rfl, h2, rfl⟩
    | err e => rw [h2] at h; cases h
    | panic => rw [h2] at h; cases h
  | err e => rw [h1] at h; cases h
  | panic => rw [h1] at h; cases h

namespace GG20.Keygen

open EC Crypto Spec

/-- What party `k + 1` assembles from its own value and those of the others. -/
def assemble {β : Type} (n k : ℕ) (own : β) (b : ℕ → β) : List β :=
  (List.range n).map (fun j => if j = k then own else b (j + 1))

theorem assemble_length {β : Type} (n k : ℕ) (own : β) (b : ℕ → β) :
    (assemble n k own b).length = n := by simp [assemble]

theorem assemble_get {β : Type} {n k j : ℕ} (own : β) (b : ℕ → β) (hj : j < n) :
    (assemble n k own b)[j]? = some (if j = k then own else b (j + 1)) := by
  simp [assemble, hj]

theorem intoVec_peers {β : Type} {n k : ℕ} (hk : k < n) (own : β) (b : ℕ → β) :
    intoVecIncludingMe ((peers (k + 1) n).map b) (k + 1) own = assemble n k own b := by
  rw [peers_eq_others, List.map_map, intoVec_others hk]
  rfl

variable [Crypto]

/-- The values of party `k + 1` in a run in which the others send `b1`, ..., `b4`. -/
structure Seen (rnd : KeygenRandomness) (k t n : ℕ) (b1 : ℕ → KeyGenBroadcastMessage1)
    (b2 : ℕ → KeyGenDecommitMessage1) (b3 : ℕ → Vss × Sc) (b4 : ℕ → DLogProof)
    (sent : List (Msg M)) (key : LocalKey) (bcs : List KeyGenBroadcastMessage1)
    (ys : List Pt) (all : List (Vss × Sc)) (pfs : List DLogProof) : Prop where
  bcs_eq : bcs = assemble n k ((Keys.create (k + 1) rnd.u rnd.dk rnd.aux).phase1_broadcast rnd.blind
    rnd.cd1 rnd.cd2).1 b1
  ys_eq : ys = assemble n k (rnd.u • G) (fun p => (b2 p).y_i)
  all_eq : all = assemble n k (⟨t, n, (rnd.u :: rnd.coefs).map (fun c => c • G)⟩,
    evalPoly (rnd.u :: rnd.coefs) ((k + 1 : ℕ) : Sc)) b3
  pfs_eq : pfs = assemble n k (DLogProof.prove (all.map Prod.snd).sum rnd.dlogNonce) b4
  shares : ∀ j < n, ValidShareAt ys (all.map Prod.snd) (all.map Prod.fst) (k + 1) j
  lens : get_commitments_to_xi (all.map Prod.fst) ≠ none
  proofs : ∀ j < n, ValidKeyProofAt pfs (all.map Prod.fst) j
  public_key : key.public_key = ys.sum
  x_i : key.keys_linear.x_i = (all.map Prod.snd).sum
  pk_vec : key.pk_vec = pfs.map (·.pk)
  paillier_key_vec : key.paillier_key_vec = bcs.map (·.e)
  dk : key.paillier_dk = rnd.dk
  sent_eq : sent = [⟨k + 1, none, .Round1 ((Keys.create (k + 1) rnd.u rnd.dk rnd.aux).phase1_broadcast
      rnd.blind rnd.cd1 rnd.cd2).1⟩,
    ⟨k + 1, none, .Round2 ((Keys.create (k + 1) rnd.u rnd.dk rnd.aux).phase1_broadcast
      rnd.blind rnd.cd1 rnd.cd2).2⟩] ++
    ((List.range n).filter (fun i => decide (i ≠ k))).map (fun i => ⟨k + 1, some (i + 1),
      .Round3 (⟨t, n, (rnd.u :: rnd.coefs).map (fun c => c • G)⟩,
        evalPoly (rnd.u :: rnd.coefs) ((i + 1 : ℕ) : Sc))⟩) ++
    [⟨k + 1, none, .Round4 (DLogProof.prove (all.map Prod.snd).sum rnd.dlogNonce)⟩]

omit [Crypto] in
theorem sending_eq_ok {β μ ε α : Type} {f : β → μ} {x : Res ε (α × List (Msg β))} {a : α}
    {out : List (Msg μ)} (h : sending f x = .ok (a, out)) :
    ∃ o, x = .ok (a, o) ∧ out = o.map (Msg.mapBody f) := by
  unfold sending at h
  simp only [Res.bind_eq_ok, Res.ok.injEq, Prod.mk.injEq] at h
  obtain ⟨⟨a', o⟩, h1, h2, h3⟩ := h
  exact ⟨o, by rw [h1]; exact congrArg _ (Prod.ext h2 rfl), h3.symm⟩

omit [Crypto] in
theorem mapM_get_map {ε α β : Type} {f : α → β} {l : List α} {n : ℕ} {bs : List β} (hl : l.length = n)
    (h : Res.mapM (fun i => do let a ← (Res.get l i : Res ε α); .ok (f a)) (List.range n) = .ok bs) :
    bs = l.map f := by
  obtain ⟨h1, h2⟩ := mapM_range_get h
  refine List.ext_getElem (by simp [h1, hl]) fun i hi hi' => ?_
  obtain ⟨b, hb, hf⟩ := h2 i (by omega)
  rw [List.getElem?_eq_getElem hi, Option.some.injEq] at hb
  rw [Res.get_of_lt (by omega), Res.bind_ok, Res.ok.injEq] at hf
  rw [hb, List.getElem_map, hf]

omit [Crypto] in
theorem deal_messages {β γ : Type} (n k : ℕ) (v : γ) (f : ℕ → β) :
    (((List.range n).map f).zipIdx.filter (fun si => si.2 + 1 ≠ k + 1)).map
      (fun si => (⟨k + 1, some (si.2 + 1), (v, si.1)⟩ : Msg (γ × β))) =
    ((List.range n).filter (fun i => decide (i ≠ k))).map
      (fun i => ⟨k + 1, some (i + 1), (v, f i)⟩) := by
  rw [show ((List.range n).map f).zipIdx = (List.range n).map (fun i => (f i, i)) from by
    refine List.ext_getElem (by simp) fun i h1 h2 => ?_
    simp]
  rw [List.filter_map, List.map_map]
  have e : ((fun si : β × ℕ => decide (si.2 + 1 ≠ k + 1)) ∘ fun i => (f i, i)) =
      fun i => decide (i ≠ k) := by
    funext i; simp
  rw [e]
  rfl

theorem keygenLine_seen {rnd : KeygenRandomness} {k t n : ℕ} (ht : t < n) (hk : k < n)
    {b1 : ℕ → KeyGenBroadcastMessage1} {b2 : ℕ → KeyGenDecommitMessage1} {b3 : ℕ → Vss × Sc}
    {b4 : ℕ → DLogProof} {key : LocalKey}
    (h : (keygenLine rnd (k + 1) t n b1 b2 b3 b4).2 = .ok key) :
    ∃ bcs ys all pfs, Seen rnd k t n b1 b2 b3 b4 (keygenLine rnd (k + 1) t n b1 b2 b3 b4).1 key
      bcs ys all pfs := by
  have hn : 0 < n := by omega
  unfold keygenLine at h ⊢
  dsimp only at h ⊢
  obtain ⟨r4, o5, e4, f5, g5⟩ := Script.step_snd_ok h
  obtain ⟨r3, o4, e3, f4, g4⟩ := Script.step_snd_ok e4
  obtain ⟨r2, o3, e2, f3, g3⟩ := Script.step_snd_ok e3
  obtain ⟨r1, o2, e1, f2, g2⟩ := Script.step_snd_ok e2
  obtain ⟨r0, o1, e0, f1, g1⟩ := Script.step_snd_ok e1
  simp only [Res.ok.injEq] at e0
  subst e0
  obtain ⟨p1, c1, rfl⟩ := sending_eq_ok f1
  obtain ⟨p2, c2, rfl⟩ := sending_eq_ok f2
  obtain ⟨p3, c3, rfl⟩ := sending_eq_ok f3
  obtain ⟨p4, c4, rfl⟩ := sending_eq_ok f4
  simp only [Res.bind_eq_ok, Res.ok.injEq, Prod.mk.injEq] at f5
  obtain ⟨key', c5, rfl, rfl⟩ := f5
  rw [g5, g4, g3, g2, g1]
  clear f1 f2 f3 f4 g1 g2 g3 g4 g5 e1 e2 e3 e4 h
  -- round 0
  simp only [Round0.proceed, Res.ok.injEq, Prod.mk.injEq] at c1
  obtain ⟨rfl, rfl⟩ := c1
  -- round 1
  simp only [Round1.proceed, Res.ok.injEq, Prod.mk.injEq, intoVec_peers hk] at c2
  obtain ⟨rfl, rfl⟩ := c2
  -- round 2
  simp only [Round2.proceed, intoVec_peers hk, Res.bind_eq_ok, Res.mapErr_eq_ok] at c3
  obtain ⟨vr, hvr, own, hown, c3⟩ := c3
  rcases phase1_cases (Keys.create (k + 1) rnd.u rnd.dk rnd.aux) ht rnd.coefs
    (assemble_length n k ((Keys.create (k + 1) rnd.u rnd.dk rnd.aux).phase1_broadcast rnd.blind
      rnd.cd1 rnd.cd2).2 b2)
    (assemble_length n k ((Keys.create (k + 1) rnd.u rnd.dk rnd.aux).phase1_broadcast rnd.blind
      rnd.cd1 rnd.cd2).1 b1) with ⟨-, hc⟩ | ⟨_, _, _, _, ⟨-, hc⟩ | ⟨-, hc⟩⟩
  rotate_left
  · rw [hc] at hvr; cases hvr
  · rw [hc] at hvr; cases hvr
  rw [hc, Res.ok.injEq] at hvr
  subst hvr
  simp only [Nat.add_sub_cancel] at hown
  rw [get_map_range hk, Res.ok.injEq] at hown
  subst hown
  simp only [Res.ok.injEq, Prod.mk.injEq] at c3
  obtain ⟨rfl, rfl⟩ := c3
  -- round 3
  simp only [Round3.proceed, intoVec_peers hk, Res.bind_eq_ok, Res.mapErr_eq_ok] at c4
  obtain ⟨⟨sk, pf⟩, hsk, c4⟩ := c4
  simp only [Res.ok.injEq, Prod.mk.injEq] at c4
  obtain ⟨rfl, rfl⟩ := c4
  generalize hall : assemble n k ((⟨t, n, ((Keys.create (k + 1) rnd.u rnd.dk rnd.aux).u_i ::
    rnd.coefs).map (fun c => c • G)⟩ : Vss),
    evalPoly ((Keys.create (k + 1) rnd.u rnd.dk rnd.aux).u_i :: rnd.coefs) ((k + 1 : ℕ) : Sc)) b3 =
    all at *
  have hl : all.length = n := by rw [← hall, assemble_length]
  rw [show (assemble n k ((Keys.create (k + 1) rnd.u rnd.dk rnd.aux).phase1_broadcast rnd.blind rnd.cd1
      rnd.cd2).2 b2).map (fun x => x.y_i) = assemble n k (rnd.u • G) (fun p => (b2 p).y_i) by
    unfold assemble
    rw [List.map_map]
    refine List.map_congr_left fun j _ => ?_
    simp only [Function.comp_apply]
    split <;> rfl] at hsk c5
  generalize hys : assemble n k (rnd.u • (G : Pt)) (fun p => (b2 p).y_i) = ys at *
  have hly : ys.length = n := by rw [← hys, assemble_length]
  rcases phase2_cases (t := t) hn (k + 1) rnd.dlogNonce hly
    (show (all.map Prod.snd).length = n by simpa using hl)
    (show (all.map Prod.fst).length = n by simpa using hl) with
    ⟨hsh, hc2⟩ | ⟨_, _, _, _, _, hc2⟩ | ⟨_, _, _, _, hc2⟩
  rotate_left
  · rw [hc2] at hsk; cases hsk
  · rw [hc2] at hsk; cases hsk
  rw [hc2, Res.ok.injEq, Prod.mk.injEq] at hsk
  obtain ⟨rfl, rfl⟩ := hsk
  -- round 4
  simp only [Round4.proceed, intoVec_peers hk, Res.bind_eq_ok, Res.mapErr_eq_ok] at c5
  obtain ⟨⟨⟩, hver, pk, hpk, pv, hpv, vs, -, c5⟩ := c5
  generalize hpfs : assemble n k (DLogProof.prove (all.map Prod.snd).sum rnd.dlogNonce) b4 = pfs at *
  have hlp : pfs.length = n := by rw [← hpfs, assemble_length]
  rcases phase4_cases (t := t) hn hly hlp (show (all.map Prod.fst).length = n by simpa using hl) with
    ⟨_, hc4⟩ | ⟨hg, ⟨hpr, -⟩ | ⟨_, _, _, _, hc4⟩⟩
  · rw [hc4] at hver; cases hver
  swap
  · rw [hc4] at hver; cases hver
  have hkey : key'.y_sum_s = ys.sum ∧ key'.keys_linear.x_i = (all.map Prod.snd).sum ∧
      key'.pk_vec = pk ∧ key'.paillier_key_vec = pv ∧ key'.paillier_dk = rnd.dk := by
    cases ys with
    | nil => cases c5
    | cons y0 yt =>
      simp only [Res.ok.injEq] at c5
      subst c5
      exact ⟨foldl_add_head _ _, rfl, rfl, rfl, rfl⟩
  refine ⟨assemble n k ((Keys.create (k + 1) rnd.u rnd.dk rnd.aux).phase1_broadcast rnd.blind
    rnd.cd1 rnd.cd2).1 b1, ys, all, pfs, ⟨rfl, hys.symm, hall.symm, hpfs.symm, hsh, ?_, hpr, hkey.1,
    hkey.2.1, ?_, ?_, hkey.2.2.2.2, ?_⟩⟩
  · intro h; rw [h] at hg; cases hg
  · rw [hkey.2.2.1]
    exact mapM_get_map hlp hpk
  · rw [hkey.2.2.2.1]
    exact mapM_get_map (assemble_length _ _ _ _) hpv
  · simp only [List.nil_append, List.append_nil, List.map_cons, List.map_nil, Msg.mapBody]
    rw [deal_messages]
    simp only [List.map_map]
    rfl

/-- The sum of the polynomials that a party saw committed to. -/
theorem Seen.exists_poly {rnd : KeygenRandomness} {k t n : ℕ}
    {b1 : ℕ → KeyGenBroadcastMessage1} {b2 : ℕ → KeyGenDecommitMessage1} {b3 : ℕ → Vss × Sc}
    {b4 : ℕ → DLogProof} {sent : List (Msg M)} {key : LocalKey} {bcs : List KeyGenBroadcastMessage1}
    {ys : List Pt} {all : List (Vss × Sc)} {pfs : List DLogProof}
    (h : Seen rnd k t n b1 b2 b3 b4 sent key bcs ys all pfs)
    (hlen : ∀ v ∈ all, v.1.commitments.length ≤ t + 1) :
    ∃ F : Polynomial Sc, F.degree < (t + 1 : ℕ) ∧ ys.sum = F.eval 0 • G ∧
      ∀ j < n, ∃ pf, pfs[j]? = some pf ∧ pf.pk = F.eval ((j + 1 : ℕ) : Sc) • G := by
  choose f hf using fun v : Vss => exists_coefs v.commitments
  have hla : all.length = n := by rw [h.all_eq, assemble_length]
  have hly : ys.length = n := by rw [h.ys_eq, assemble_length]
  let F : Polynomial Sc := ((all.map Prod.fst).map (fun v => toPoly (f v))).sum
  have hFdeg : F.degree < (t + 1 : ℕ) := by
    have key : ∀ l : List Vss, (∀ v ∈ l, v.commitments.length ≤ t + 1) →
        ((l.map (fun v => toPoly (f v))).sum).degree < (t + 1 : ℕ) := by
      intro l
      induction l with
      | nil => intro _; simp only [List.map_nil, List.sum_nil, Polynomial.degree_zero]
               exact WithBot.bot_lt_coe _
      | cons v l ih =>
        intro hl
        rw [List.map_cons, List.sum_cons]
        refine lt_of_le_of_lt (Polynomial.degree_add_le _ _) (max_lt ?_ ?_)
        · refine lt_of_lt_of_le (degree_toPoly_lt (f v)) ?_
          have h1 : (f v).length = v.commitments.length := by
            conv_rhs => rw [hf v]
            simp
          have := hl v (by simp)
          exact_mod_cast h1 ▸ this
        · exact ih (fun w hw => hl w (by simp [hw]))
    refine key _ fun v hv => ?_
    obtain ⟨a, ha, rfl⟩ := List.mem_map.1 hv
    exact hlen a ha
  have hFeval : ∀ x : Sc, F.eval x • (G : Pt) =
      ((all.map Prod.fst).map (fun v => feldmanEval v.commitments x)).sum := by
    intro x
    have key : ∀ l : List Vss, (((l.map (fun v => toPoly (f v))).sum).eval x) • (G : Pt) =
        (l.map (fun v => feldmanEval v.commitments x)).sum := by
      intro l
      induction l with
      | nil => simp
      | cons v l ih =>
        rw [List.map_cons, List.sum_cons, Polynomial.eval_add, add_smul, ih, List.map_cons,
          List.sum_cons]
        congr 1
        rw [eval_toPoly, ← feldmanEval_map, ← hf v]
    exact key _
  refine ⟨F, hFdeg, ?_, fun j hj => ?_⟩
  · rw [hFeval]
    congr 1
    refine List.ext_getElem (by simp [hly, hla]) fun j h1 h2 => ?_
    obtain ⟨y, s, v, e1, -, e3, -, e5⟩ := h.shares j (by omega)
    rw [List.getElem?_eq_getElem h1, Option.some.injEq] at e1
    have h3 : j < (all.map Prod.fst).length := by simpa [hla] using hly ▸ h1
    rw [List.getElem?_eq_getElem h3, Option.some.injEq] at e3
    rw [e1, List.getElem_map, e3]
    obtain ⟨c, cs, hc⟩ : ∃ c cs, v.commitments = c :: cs := by
      cases hv : v.commitments with
      | nil => rw [hv] at e5; simp at e5
      | cons c cs => exact ⟨c, cs, rfl⟩
    rw [hc] at e5
    simp only [List.head?_cons, Option.some.injEq] at e5
    have hfv := hf v
    cases hfl : f v with
    | nil => rw [hfl, hc] at hfv; simp at hfv
    | cons c' cs' =>
      rw [hfl, hc, List.map_cons, List.cons.injEq] at hfv
      rw [hf v, feldmanEval_map, hfl, evalPoly_zero_cons, ← hfv.1, e5]
  · obtain ⟨pf, e1, -, e3⟩ := h.proofs j hj
    exact ⟨pf, e1, by rw [e3, ← hFeval]⟩

/-- A party that finished saw no commitment vector longer than party 1's. -/
theorem Seen.le_first {rnd : KeygenRandomness} {k t n : ℕ} (hn : 0 < n)
    {b1 : ℕ → KeyGenBroadcastMessage1} {b2 : ℕ → KeyGenDecommitMessage1} {b3 : ℕ → Vss × Sc}
    {b4 : ℕ → DLogProof} {sent : List (Msg M)} {key : LocalKey} {bcs : List KeyGenBroadcastMessage1}
    {ys : List Pt} {all : List (Vss × Sc)} {pfs : List DLogProof}
    (h : Seen rnd k t n b1 b2 b3 b4 sent key bcs ys all pfs) :
    ∃ v0, all[0]? = some v0 ∧ ∀ v ∈ all, v.1.commitments.length ≤ v0.1.commitments.length := by
  have hla : all.length = n := by rw [h.all_eq, assemble_length]
  have h2 := h.lens
  cases all with
  | nil => simp at hla; omega
  | cons v0 vs =>
    rw [List.map_cons, ne_eq, get_commitments_to_xi_eq_none] at h2
    push Not at h2
    refine ⟨v0, rfl, fun v hv => ?_⟩
    rcases List.mem_cons.1 hv with rfl | hv
    · exact le_refl _
    · exact h2.2 v.1 (List.mem_map_of_mem hv)

/-- What a party that finished sent. -/
theorem Seen.mem_sent {rnd : KeygenRandomness} {k t n : ℕ}
    {b1 : ℕ → KeyGenBroadcastMessage1} {b2 : ℕ → KeyGenDecommitMessage1} {b3 : ℕ → Vss × Sc}
    {b4 : ℕ → DLogProof} {sent : List (Msg M)} {key : LocalKey} {bcs : List KeyGenBroadcastMessage1}
    {ys : List Pt} {all : List (Vss × Sc)} {pfs : List DLogProof}
    (h : Seen rnd k t n b1 b2 b3 b4 sent key bcs ys all pfs) :
    (∀ b, ⟨k + 1, none, .Round1 b⟩ ∈ sent → b = ((Keys.create (k + 1) rnd.u rnd.dk rnd.aux).phase1_broadcast
      rnd.blind rnd.cd1 rnd.cd2).1) ∧
    (∀ i b, ⟨k + 1, some i, .Round3 b⟩ ∈ sent →
      b.1.commitments = (rnd.u :: rnd.coefs).map (fun c => c • G)) ∧
    (∀ b, ⟨k + 1, none, .Round4 b⟩ ∈ sent →
      b = DLogProof.prove (all.map Prod.snd).sum rnd.dlogNonce) := by
  rw [h.sent_eq]
  refine ⟨fun b hb => ?_, fun i b hb => ?_, fun b hb => ?_⟩
  · simpa using hb
  · simp only [List.mem_append, List.mem_cons, List.not_mem_nil, or_false, List.mem_map,
      Msg.mk.injEq, reduceCtorEq, and_false, false_or, M.Round3.injEq] at hb
    obtain ⟨j, -, -, -, rfl⟩ := hb
    rfl
  · simpa using hb

end GG20.Keygen
end Verif
