import Verif.Spec.KeygenBlame
import Verif.Lemmas.KeygenAgree

/-! # All ways in which a key generation can end, whatever the others send -/

namespace Verif.GG20.Keygen

open EC Crypto Spec

variable [Crypto]

/-- What a party broadcasts in rounds 1 and 2. -/
def ownBc (rnd : KeygenRandomness) (k : ℕ) : KeyGenBroadcastMessage1 × KeyGenDecommitMessage1 :=
  (Keys.create (k + 1) rnd.u rnd.dk rnd.aux).phase1_broadcast rnd.blind rnd.cd1 rnd.cd2

/-- The polynomial commitment of a party and the share for party `i + 1`. -/
def ownDeal (rnd : KeygenRandomness) (t n i : ℕ) : Vss × Sc :=
  (⟨t, n, (rnd.u :: rnd.coefs).map (fun c => c • G)⟩,
    evalPoly (rnd.u :: rnd.coefs) ((i + 1 : ℕ) : Sc))

/-- The messages of rounds 1 and 2. -/
def sent12 (rnd : KeygenRandomness) (k : ℕ) : List (Msg M) :=
  [⟨k + 1, none, .Round1 (ownBc rnd k).1⟩, ⟨k + 1, none, .Round2 (ownBc rnd k).2⟩]

/-- The messages of round 3. -/
def sent3 (rnd : KeygenRandomness) (k t n : ℕ) : List (Msg M) :=
  ((List.range n).filter (fun i => decide (i ≠ k))).map
    (fun i => ⟨k + 1, some (i + 1), .Round3 (ownDeal rnd t n i)⟩)

/-- The shares and commitments party `k + 1` holds after round 3. -/
def dealt (rnd : KeygenRandomness) (k t n : ℕ) (b3 : ℕ → Vss × Sc) : List (Vss × Sc) :=
  assemble n k (ownDeal rnd t n k) b3

/-- The proof of round 4. -/
def ownPf (rnd : KeygenRandomness) (k t n : ℕ) (b3 : ℕ → Vss × Sc) : DLogProof :=
  DLogProof.prove ((dealt rnd k t n b3).map Prod.snd).sum rnd.dlogNonce

theorem keygenLine_cases {rnd : KeygenRandomness} {k t n : ℕ} (ht : t < n) (hk : k < n)
    (b1 : ℕ → KeyGenBroadcastMessage1) (b2 : ℕ → KeyGenDecommitMessage1) (b3 : ℕ → Vss × Sc)
    (b4 : ℕ → DLogProof) :
    let line := keygenLine rnd (k + 1) t n b1 b2 b3 b4
    let VB := ValidBroadcastAt (assemble n k (ownBc rnd k).1 b1) (assemble n k (ownBc rnd k).2 b2)
    let VS := ValidShareAt (assemble n k (rnd.u • G) (fun p => (b2 p).y_i))
      ((dealt rnd k t n b3).map Prod.snd) ((dealt rnd k t n b3).map Prod.fst) (k + 1)
    let VK := ValidKeyProofAt (assemble n k (ownPf rnd k t n b3) b4) ((dealt rnd k t n b3).map Prod.fst)
    (∃ j < n, ¬ VB j ∧ (line = (sent12 rnd k, .err (.Round2VerifyCommitments ⟨"invalid key", [j]⟩)) ∨
      line = (sent12 rnd k, .panic))) ∨
    ((∀ j < n, VB j) ∧
      ∃ j < n, ¬ VS j ∧ (line = (sent12 rnd k ++ sent3 rnd k t n,
          .err (.Round3VerifyVssConstruct ⟨"invalid vss", [j]⟩)) ∨
        (((dealt rnd k t n b3).map Prod.fst)[j]?.map (·.commitments) = some [] ∧
          line = (sent12 rnd k ++ sent3 rnd k t n, .panic)))) ∨
    ((∀ j < n, VB j) ∧ (∀ j < n, VS j) ∧
      ((∃ j < n, ¬ VK j ∧ (∀ i < j, VK i) ∧ get_commitments_to_xi ((dealt rnd k t n b3).map Prod.fst) ≠ none ∧
          line = (sent12 rnd k ++ sent3 rnd k t n ++ [⟨k + 1, none, .Round4 (ownPf rnd k t n b3)⟩],
            .err (.Round4VerifyDLogProof ⟨"bad dlog proof", [j]⟩))) ∨
        (((∀ j < n, VK j) ∨ get_commitments_to_xi ((dealt rnd k t n b3).map Prod.fst) = none) ∧
          ∃ r, (∀ e, r ≠ .err e) ∧
          line = (sent12 rnd k ++ sent3 rnd k t n ++ [⟨k + 1, none, .Round4 (ownPf rnd k t n b3)⟩], r)))) := by
  intro line VB VS VK
  have hn : 0 < n := by omega
  have hys : (assemble n k (ownBc rnd k).2 b2).map (fun x => x.y_i) =
      assemble n k (rnd.u • G) (fun p => (b2 p).y_i) := by
    unfold assemble
    rw [List.map_map]
    refine List.map_congr_left fun j _ => ?_
    simp only [Function.comp_apply]
    split <;> rfl
  have hla : (dealt rnd k t n b3).length = n := assemble_length _ _ _ _
  rcases phase1_cases (Keys.create (k + 1) rnd.u rnd.dk rnd.aux) ht rnd.coefs
    (assemble_length n k (ownBc rnd k).2 b2) (assemble_length n k (ownBc rnd k).1 b1) with
    ⟨hVB, hc⟩ | ⟨j, hj, hVB, _, ⟨-, hc⟩ | ⟨-, hc⟩⟩
  rotate_left
  · refine Or.inl ⟨j, hj, hVB, Or.inl ?_⟩
    simp only [line, keygenLine, Script.step, sending, Round0.proceed, Round1.proceed, Round2.proceed,
      intoVec_peers hk, Res.bind_ok]
    unfold ownBc at hc
    rw [hc]
    rfl
  · refine Or.inl ⟨j, hj, hVB, Or.inr ?_⟩
    simp only [line, keygenLine, Script.step, sending, Round0.proceed, Round1.proceed, Round2.proceed,
      intoVec_peers hk, Res.bind_ok]
    unfold ownBc at hc
    rw [hc]
    rfl
  have hr2 : Round2.proceed ⟨Keys.create (k + 1) rnd.u rnd.dk rnd.aux, assemble n k (ownBc rnd k).1 b1,
      (ownBc rnd k).2, k + 1, t, n⟩ ((peers (k + 1) n).map b2) rnd =
      .ok (⟨Keys.create (k + 1) rnd.u rnd.dk rnd.aux, assemble n k (rnd.u • G) (fun p => (b2 p).y_i),
        assemble n k (ownBc rnd k).1 b1, (ownDeal rnd t n k).1, (ownDeal rnd t n k).2, k + 1, t, n⟩,
        ((List.range n).filter (fun i => decide (i ≠ k))).map
          (fun i => ⟨k + 1, some (i + 1), ownDeal rnd t n i⟩)) := by
    simp only [Round2.proceed, intoVec_peers hk, hc, Res.mapErr_ok, Res.bind_ok, Nat.add_sub_cancel,
      get_map_range hk, hys, deal_messages]
    rfl
  have hx3 : ∀ {α : Type} (f : Round3 → Res ProceedError (α × List (Msg M))),
      Script.step (Script.step (Script.step (Script.step
        (([], .ok ⟨k + 1, t, n⟩) : List (Msg M) × Res ProceedError Round0)
        (fun r => sending .Round1 (r.proceed rnd)))
        (fun r => sending .Round2 (r.proceed ((peers (k + 1) n).map b1))))
        (fun r => sending .Round3 (r.proceed ((peers (k + 1) n).map b2) rnd))) f =
      Script.step (sent12 rnd k ++ sent3 rnd k t n,
        .ok ⟨Keys.create (k + 1) rnd.u rnd.dk rnd.aux, assemble n k (rnd.u • G) (fun p => (b2 p).y_i),
        assemble n k (ownBc rnd k).1 b1, (ownDeal rnd t n k).1, (ownDeal rnd t n k).2, k + 1, t, n⟩) f := by
    intro α f
    simp only [Script.step, sending, Round0.proceed, Round1.proceed, intoVec_peers hk, Res.bind_ok]
    unfold ownBc at hr2
    simp only [hr2, Res.bind_ok]
    simp only [List.nil_append, List.map_cons, List.map_nil, Msg.mapBody, List.map_map]
    rfl
  have hr3 : ∀ y b, Round3.proceed ⟨Keys.create (k + 1) rnd.u rnd.dk rnd.aux, y, b,
      (ownDeal rnd t n k).1, (ownDeal rnd t n k).2, k + 1, t, n⟩ ((peers (k + 1) n).map b3) rnd =
      ((Keys.phase2_verify_vss ⟨t, n⟩ y ((dealt rnd k t n b3).map Prod.snd)
        ((dealt rnd k t n b3).map Prod.fst) (k + 1) rnd.dlogNonce).mapErr
          ProceedError.Round3VerifyVssConstruct >>= fun r =>
        .ok (⟨Keys.create (k + 1) rnd.u rnd.dk rnd.aux, y, b, r.1, r.2,
          (dealt rnd k t n b3).map Prod.fst, k + 1, t, n⟩, [⟨k + 1, none, r.2⟩])) := by
    intro y b
    simp only [Round3.proceed, intoVec_peers hk]
    rfl
  rcases phase2_cases (t := t) hn (k + 1) rnd.dlogNonce
    (assemble_length n k (rnd.u • G) (fun p => (b2 p).y_i))
    (show ((dealt rnd k t n b3).map Prod.snd).length = n by simpa using hla)
    (show ((dealt rnd k t n b3).map Prod.fst).length = n by simpa using hla) with
    ⟨hVS, hc2⟩ | ⟨j, hj, hVS, _, _, hc2⟩ | ⟨j, hj, hnil, _, hc2⟩
  rotate_left
  · refine Or.inr (Or.inl ⟨hVB, j, hj, hVS, Or.inl ?_⟩)
    simp only [line, keygenLine]
    rw [hx3]
    simp only [Script.step, sending, hr3, hc2]
    rfl
  · refine Or.inr (Or.inl ⟨hVB, j, hj, ?_, Or.inr ⟨hnil, ?_⟩⟩)
    · rintro ⟨_, _, v, -, -, e3, -, e5⟩
      rw [e3, Option.map_some, Option.some.injEq] at hnil
      rw [hnil] at e5
      cases e5
    simp only [line, keygenLine]
    rw [hx3]
    simp only [Script.step, sending, hr3, hc2]
    rfl
  refine Or.inr (Or.inr ⟨hVB, hVS, ?_⟩)
  have hline : line = Script.step (sent12 rnd k ++ sent3 rnd k t n ++
      [⟨k + 1, none, .Round4 (ownPf rnd k t n b3)⟩],
      .ok (⟨Keys.create (k + 1) rnd.u rnd.dk rnd.aux, assemble n k (rnd.u • G) (fun p => (b2 p).y_i),
        assemble n k (ownBc rnd k).1 b1,
        ⟨(assemble n k (rnd.u • G) (fun p => (b2 p).y_i)).sum, ((dealt rnd k t n b3).map Prod.snd).sum⟩,
        ownPf rnd k t n b3, (dealt rnd k t n b3).map Prod.fst, k + 1, t, n⟩ : Round4))
      (fun r => do
        let key ← r.proceed ((peers (k + 1) n).map b4)
        .ok (key, [])) := by
    simp only [line, keygenLine]
    rw [hx3]
    simp only [Script.step, sending, hr3, hc2, Res.mapErr_ok, Res.bind_ok]
    rfl
  rw [hline]
  simp only [Script.step, Round4.proceed, intoVec_peers hk]
  rcases phase4_cases (t := t) hn (assemble_length n k (rnd.u • G) (fun p => (b2 p).y_i))
    (assemble_length n k (ownPf rnd k t n b3) b4)
    (show ((dealt rnd k t n b3).map Prod.fst).length = n by simpa using hla) with
    ⟨hg, hc4⟩ | ⟨hg, ⟨hpr, hc4⟩ | ⟨j, hj, hVK, hbefore, hc4⟩⟩
  · refine Or.inr ⟨Or.inr hg, .panic, by simp, ?_⟩
    rw [hc4]
    rfl
  · refine Or.inr ⟨Or.inl hpr, ?_⟩
    rw [hc4]
    simp only [Res.mapErr_ok, Res.bind_ok]
    rw [Res.mapM_ok_of_forall (g := fun j =>
        if h : j < n then ((assemble n k (ownPf rnd k t n b3) b4)[j]'(by rwa [assemble_length])).pk else 0)
      (fun j hj => by
        have hj : j < n := by simpa using hj
        rw [Res.get_of_lt (by rwa [assemble_length]), Res.bind_ok]
        simp [hj]), Res.bind_ok]
    rw [Res.mapM_ok_of_forall (g := fun j =>
        if h : j < n then ((assemble n k (ownBc rnd k).1 b1)[j]'(by rwa [assemble_length])).e else 0)
      (fun j hj => by
        have hj : j < n := by simpa using hj
        rw [Res.get_of_lt (by rwa [assemble_length]), Res.bind_ok]
        simp [hj]), Res.bind_ok]
    rw [Nat.add_sub_cancel, Res.get_of_lt (by simpa [hla] using hk), Res.bind_ok]
    cases assemble n k (rnd.u • (G : Pt)) (fun p => (b2 p).y_i) with
    | nil => exact ⟨.panic, by simp, by simp [Res.bind_panic]⟩
    | cons y0 yt => exact ⟨.ok _, by simp, by simp only [Res.bind_ok, List.append_nil]; rfl⟩
  · refine Or.inl ⟨j, hj, hVK, hbefore, (fun h => by rw [h] at hg; cases hg), ?_⟩
    rw [hc4]
    rfl

/-- The proof of round 4 is about the share that all the commitments together assign to its sender. -/
theorem ownPf_pk {rnd : KeygenRandomness} {k t n : ℕ} {b3 : ℕ → Vss × Sc} {ys : List Pt}
    (hVS : ∀ j < n, ValidShareAt ys ((dealt rnd k t n b3).map Prod.snd)
      ((dealt rnd k t n b3).map Prod.fst) (k + 1) j) :
    (ownPf rnd k t n b3).pk = (((dealt rnd k t n b3).map Prod.fst).map
      (fun v => feldmanEval v.commitments ((k + 1 : ℕ) : Sc))).sum := by
  rw [ownPf, DLogProof.prove_pk, List.sum_smul]
  congr 1
  rw [List.map_map, List.map_map]
  have hla : (dealt rnd k t n b3).length = n := assemble_length _ _ _ _
  refine List.ext_getElem (by simp) fun j h1 h2 => ?_
  have hj : j < (dealt rnd k t n b3).length := by simpa using h1
  obtain ⟨y, s, v, -, e2, e3, e4, -⟩ := hVS j (hla ▸ hj)
  rw [List.getElem?_map, List.getElem?_eq_getElem hj] at e2 e3
  simp only [Option.map_some, Option.some.injEq] at e2 e3
  simp only [List.getElem_map, Function.comp_apply, e2, e3, e4]

/-- What a party sends: one message of each kind; the proof of round 4 only if all shares fit. -/
theorem sent_unique {rnd : KeygenRandomness} {k t n : ℕ} (ht : t < n) (hk : k < n)
    (b1 : ℕ → KeyGenBroadcastMessage1) (b2 : ℕ → KeyGenDecommitMessage1) (b3 : ℕ → Vss × Sc)
    (b4 : ℕ → DLogProof) :
    let sent := (keygenLine rnd (k + 1) t n b1 b2 b3 b4).1
    (∀ b, ⟨k + 1, none, .Round1 b⟩ ∈ sent → b = (ownBc rnd k).1) ∧
    (∀ b, ⟨k + 1, none, .Round2 b⟩ ∈ sent → b = (ownBc rnd k).2) ∧
    (∀ i b, ⟨k + 1, some (i + 1), .Round3 b⟩ ∈ sent → b = ownDeal rnd t n i) ∧
    (∀ b, ⟨k + 1, none, .Round4 b⟩ ∈ sent → b = ownPf rnd k t n b3 ∧
      ∀ j < n, ValidShareAt (assemble n k (rnd.u • G) (fun p => (b2 p).y_i))
        ((dealt rnd k t n b3).map Prod.snd) ((dealt rnd k t n b3).map Prod.fst) (k + 1) j) := by
  intro sent
  rcases keygenLine_cases (rnd := rnd) ht hk b1 b2 b3 b4 with
    ⟨_, -, -, hl | hl⟩ | ⟨-, _, -, -, hl | ⟨-, hl⟩⟩ | ⟨-, hVS, ⟨_, -, -, -, -, hl⟩ | ⟨-, _, -, hl⟩⟩ <;>
  · simp only [sent, hl, sent12, sent3]
    refine ⟨fun b hb => ?_, fun b hb => ?_, fun i b hb => ?_, fun b hb => ?_⟩ <;>
    · simp only [List.mem_append, List.mem_cons, List.not_mem_nil, or_false, List.mem_map, Msg.mk.injEq,
        reduceCtorEq, and_false, exists_false, false_or, or_false, true_and,
        M.Round1.injEq, M.Round2.injEq, M.Round3.injEq, M.Round4.injEq, Option.some.injEq,
        Nat.add_right_cancel_iff] at hb <;>
      first
        | exact hb
        | exact ⟨hb, hVS⟩
        | (obtain ⟨_, -, rfl, rfl⟩ := hb; rfl)

end Verif.GG20.Keygen
