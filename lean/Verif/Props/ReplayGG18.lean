import Verif.Props.GG18

/-!
# Replaying a GG18 key generation (C105)

The functions of the GG18 library called with the vectors of an earlier session, in which only the party's
own entries are new.
-/

namespace Verif.Props

open EC Crypto Spec Spec.GG18 GG18

section

variable [Crypto]

omit [Crypto] in
private theorem sum_set {α : Type} [AddCommGroup α] (l : List α) (k : ℕ) (a : α) (hk : k < l.length) :
    (l.set k a).sum = l.sum - l[k] + a := by
  induction l generalizing k with
  | nil => cases hk
  | cons b l ih =>
    cases k with
    | zero => simp [add_comm]
    | succ k =>
      simp only [List.set_cons_succ, List.sum_cons, List.getElem_cons_succ]
      rw [ih k (Nat.lt_of_succ_lt_succ hk)]
      abel

/-- **C105 is violated by the GG18 library.** Let a key generation of party `k + 1` have passed all checks.
When the party runs it again with a new secret, new coefficients, a new Paillier key and new random numbers,
and gets back the recorded messages of the other parties, all checks pass again. The party then holds a new
public key, of which the recorded parties know nothing. -/
theorem C105_gg18_replay_accepted {t n k : ℕ} (ht : t < n) (hk : k < n) {keys : Keys}
    {decoms : List KeyGenDecommitMessage1} {bcs : List KeyGenBroadcastMessage1} {coefs : List Sc}
    {ys : List Pt} {shares : List Sc} {vss : List Vss} {proofs : List DLogProof} {nonce : Sc}
    {out : Vss × List Sc × ℕ} {sk : SharedKeys × DLogProof}
    (l1 : decoms.length = n) (l2 : bcs.length = n) (l3 : ys.length = n) (l4 : shares.length = n)
    (l5 : vss.length = n) (l6 : proofs.length = n)
    (h1 : keys.phase1_verify_distribute ⟨t, n⟩ decoms bcs coefs = .ok out)
    (h2 : Keys.phase2_verify_vss ⟨t, n⟩ ys shares vss (k + 1) nonce = .ok sk)
    (h3 : verify_dlog_proofs ⟨t, n⟩ proofs ys = .ok ())
    (u' : Sc) (coefs' : List Sc) {dk' : DecKey} (hdk : dk'.Valid) (hl : dk'.Large)
    (blind' : ℤ) (nonce' : Sc) :
    let keys' := Keys.create (k + 1) u' dk'
    let m1 := keys'.phase1_broadcast blind'
    ∃ (vss' : Vss) (shares' : List Sc) (share : Sc) (sk' : SharedKeys) (pf : DLogProof),
      keys'.phase1_verify_distribute ⟨t, n⟩ (decoms.set k m1.2) (bcs.set k m1.1) coefs' =
        .ok (vss', shares', k + 1) ∧
      shares'[k]? = some share ∧
      Keys.phase2_verify_vss ⟨t, n⟩ (ys.set k keys'.y_i) (shares.set k share) (vss.set k vss') (k + 1) nonce' =
        .ok (sk', pf) ∧
      verify_dlog_proofs ⟨t, n⟩ (proofs.set k pf) (ys.set k keys'.y_i) = .ok () ∧
      sk'.y = sk.1.y - ys[k] + u' • G := by
  intro keys' m1
  have v1 : ∀ i < n, ValidBroadcastAt (bcs.set k m1.1) (decoms.set k m1.2) i := by
    intro i hi
    by_cases hik : i = k
    · subst hik
      exact ⟨m1.1, m1.2, by simp [l2, hi], by simp [l1, hi], rfl, ck_complete _ hdk hl⟩
    · obtain ⟨bc, d, e1, e2, e3⟩ := (C69_openings_iff keys ht coefs l1 l2).1.1 ⟨_, h1⟩ i hi
      refine ⟨bc, d, ?_, ?_, e3⟩
      · rw [List.getElem?_set_ne (Ne.symm hik)]; exact e1
      · rw [List.getElem?_set_ne (Ne.symm hik)]; exact e2
  rcases phase1_cases keys' ht coefs' (decoms := decoms.set k m1.2) (bcs := bcs.set k m1.1)
      (by simpa using l1) (by simpa using l2) with ⟨-, e⟩ | ⟨i, hi, hb, -⟩
  swap
  · exact absurd (v1 i hi) hb
  have v2 : ∀ i < n, ValidShareAt (ys.set k keys'.y_i)
      (shares.set k (evalPoly (u' :: coefs') ((k + 1 : ℕ) : Sc)))
      (vss.set k ⟨t, n, (u' :: coefs').map (fun c => c • G)⟩) (k + 1) i := by
    intro i hi
    by_cases hik : i = k
    · subst hik
      exact ⟨_, _, _, List.getElem?_set_self (by omega), List.getElem?_set_self (by omega),
        List.getElem?_set_self (by omega), feldmanEval_map _ _, rfl⟩
    · obtain ⟨y, s, v, e1, e2, e3, e4⟩ :=
        (C69_shares_iff (t := t) (k + 1) nonce l3 l4 l5).1.1 ⟨_, h2⟩ i hi
      refine ⟨y, s, v, ?_, ?_, ?_, e4⟩
      · rw [List.getElem?_set_ne (Ne.symm hik)]; exact e1
      · rw [List.getElem?_set_ne (Ne.symm hik)]; exact e2
      · rw [List.getElem?_set_ne (Ne.symm hik)]; exact e3
  have hsh := C69_shares_iff (t := t) (k + 1) nonce'
    (by simpa using l3 : (ys.set k keys'.y_i).length = n)
    (by simpa using l4 : (shares.set k (evalPoly (u' :: coefs') ((k + 1 : ℕ) : Sc))).length = n)
    (by simpa using l5 : (vss.set k ⟨t, n, (u' :: coefs').map (fun c => c • G)⟩).length = n)
  obtain ⟨⟨sk', pf⟩, e2⟩ := hsh.1.2 v2
  obtain ⟨hy, -, -, hpf, -⟩ := hsh.2 _ _ e2
  refine ⟨_, _, _, sk', pf, e, ?_, e2, ?_, ?_⟩
  · rw [List.getElem?_map, List.getElem?_range hk]; rfl
  · refine (C69_dlog_iff_partial (by simpa using l3) (by simpa using l6)).1.2 fun i hi => ?_
    by_cases hik : i = k
    · subst hik
      exact ⟨pf, List.getElem?_set_self (by omega), hpf⟩
    · obtain ⟨p, e1, e3⟩ := (C69_dlog_iff_partial (t := t) l3 l6).1.1 h3 i hi
      refine ⟨p, ?_, e3⟩
      rw [List.getElem?_set_ne (Ne.symm hik)]; exact e1
  · have h0 := ((C69_shares_iff (t := t) (k + 1) nonce l3 l4 l5).2 sk.1 sk.2 h2).1
    rw [hy, h0, sum_set _ _ _ (by omega)]
    rfl

/-- C105: sessions that pass all checks exist, for any secrets and coefficients (two parties, threshold 1). -/
theorem replay_gg18_session (u0 c0 u1 c1 nonce : Sc) (b0 b1 : ℤ) {dk : DecKey} (hdk : dk.Valid)
    (hl : dk.Large) :
    let m0 := (Keys.create 1 u0 dk).phase1_broadcast b0
    let m1 := (Keys.create 2 u1 dk).phase1_broadcast b1
    let v : Sc → Sc → Vss := fun u c => ⟨1, 2, [u • G, c • G]⟩
    (∃ out, (Keys.create 2 u1 dk).phase1_verify_distribute ⟨1, 2⟩ [m0.2, m1.2] [m0.1, m1.1] [c1] = .ok out) ∧
    (∃ sk, Keys.phase2_verify_vss ⟨1, 2⟩ [u0 • G, u1 • G]
      [evalPoly [u0, c0] ((2 : ℕ) : Sc), evalPoly [u1, c1] ((2 : ℕ) : Sc)] [v u0 c0, v u1 c1] (1 + 1) nonce = .ok sk) ∧
    verify_dlog_proofs ⟨1, 2⟩ [DLogProof.prove (u0 + c0) nonce, DLogProof.prove u1 nonce]
      [u0 • (G : Pt), u1 • G] = .ok () := by
  intro m0 m1 v
  refine ⟨(C69_openings_iff (n := 2) _ (by omega) _ rfl rfl).1.2 fun i hi => ?_,
    (C69_shares_iff (n := 2) _ _ rfl rfl rfl).1.2 fun i hi => ?_, (C69_dlog_iff_partial (n := 2) rfl rfl).1.2 fun i hi => ?_⟩
  · rcases i with _ | _ | i
    · exact ⟨m0.1, m0.2, rfl, rfl, rfl, ck_complete _ hdk hl⟩
    · exact ⟨m1.1, m1.2, rfl, rfl, rfl, ck_complete _ hdk hl⟩
    · omega
  · rcases i with _ | _ | i
    · exact ⟨_, _, _, rfl, rfl, rfl, feldmanEval_map [u0, c0] _, rfl⟩
    · exact ⟨_, _, _, rfl, rfl, rfl, feldmanEval_map [u1, c1] _, rfl⟩
    · omega
  · rcases i with _ | _ | i
    · exact ⟨_, rfl, DLogProof.verify_prove _ _⟩
    · exact ⟨_, rfl, DLogProof.verify_prove _ _⟩
    · omega

end

section

attribute [local instance] Toy.crypto

/-- C105: the hypotheses of `C105_gg18_replay_accepted` at party 2 of such a session on the toy curve. -/
example (dk : DecKey) (hdk : dk.Valid) (hl : dk.Large) :=
  let h := replay_gg18_session (5 : ZMod 31) (7 : ZMod 31) (3 : ZMod 31) (4 : ZMod 31) (2 : ZMod 31) 11 12 hdk hl
  C105_gg18_replay_accepted (n := 2) (k := 1) (by decide) (by decide) rfl rfl rfl rfl rfl rfl h.1.choose_spec
    h.2.1.choose_spec h.2.2 (6 : ZMod 31) [(1 : ZMod 31)] hdk hl 13 (9 : ZMod 31)

example : toyKey3.Valid ∧ toyKey3.Large := ⟨toyKey3_valid, toyKey3_large⟩

end

end Verif.Props
