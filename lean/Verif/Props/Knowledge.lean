import Verif.Lemmas.Forking
import Verif.Props.Blame
import Verif.Model.Lindell17.Sign
import Verif.Lemmas.GG20Keygen
import Mathlib.Tactic.Module

/-!
# C107: whoever gets a proof about points accepted knows what it claims
-/

namespace Verif.Props

open EC Crypto Spec

section
variable [C : Crypto] {n : ℕ}

theorem withHash_hashPts {k : ℕ} {O : HashOf k} {l : List Pt} (h : l.length = k) :
    @hashPts (withHash C k O) l = O (fun i => l.get (i.cast h.symm)) := dif_pos h

theorem dlogAccepted_iff {O : HashOf 3} {pf : DLogProof} : DLogAccepted O pf ↔
    pf.challenge_response • G + O [pf.pk_t_rand_commitment, G, pf.pk].get • pf.pk =
      pf.pk_t_rand_commitment := decide_eq_true_iff

theorem pedersenAccepted_iff {O : HashOf 5} {pf : PedersenProof} : PedersenAccepted O pf ↔
    pf.z1 • G + pf.z2 • H = pf.a1 + pf.a2 + O [G, H, pf.com, pf.a1, pf.a2].get • pf.com := decide_eq_true_iff

theorem elGamalAccepted_iff {O : HashOf 7} {st : HomoElGamalStatement} {pf : HomoElGamalProof} :
    ElGamalAccepted O st pf ↔
    pf.z1 • st.H + pf.z2 • st.Y = pf.T + O [pf.T, pf.A3, st.G, st.H, st.Y, st.D, st.E].get • st.D ∧
    pf.z2 • st.G = pf.A3 + O [pf.T, pf.A3, st.G, st.H, st.Y, st.D, st.E].get • st.E :=
  Bool.and_eq_true_iff.trans (and_congr decide_eq_true_iff decide_eq_true_iff)

theorem ddhAccepted_iff {O : HashOf 6} {st : ECDDHStatement} {pf : ECDDHProof} :
    DdhAccepted O st pf ↔
    pf.z • st.g1 = pf.a1 + O [st.g1, st.h1, st.g2, st.h2, pf.a1, pf.a2].get • st.h1 ∧
    pf.z • st.g2 = pf.a2 + O [st.g1, st.h1, st.g2, st.h2, pf.a1, pf.a2].get • st.h2 :=
  Bool.and_eq_true_iff.trans (and_congr decide_eq_true_iff decide_eq_true_iff)

/-- A difference of two accepted answers in a group, divided by the difference of the challenges -/
theorem div_smul_eq {A P : Pt} {e e' z : Sc} (hne : e ≠ e') (h : z • A = (e - e') • P) :
    (z / (e - e')) • A = P := by
  rw [div_eq_inv_mul, mul_smul, h, ← mul_smul, inv_mul_cancel₀ (sub_ne_zero.2 hne), one_smul]

/-- **C107** (`DLogProof`, wherever the protocols demand that a party knows the logarithm of its point).  Let a
prover compute at most `n` hashes, in any adaptive way, and end with a proof for a point of its choice.  If its
proofs are accepted with a probability above `(n + 1) / q`, then two of its runs give proofs for the same point
from which the logarithm is computed as below. -/
theorem C107_dlog {A : Prover (Fin 3 → Pt) Sc DLogProof} (hA : A.AsksAtMost n)
    (h : ((n : ℚ) + 1) / q < hashProb 3 fun O => DLogAccepted O (A.run O)) :
    ∃ (O O' : HashOf 3) (pk T : Pt) (z z' : Sc), A.run O = ⟨pk, T, z⟩ ∧ A.run O' = ⟨pk, T, z'⟩ ∧
      DLogAccepted O ⟨pk, T, z⟩ ∧ DLogAccepted O' ⟨pk, T, z'⟩ ∧
      O [T, G, pk].get ≠ O' [T, G, pk].get ∧
      ((z' - z) / (O [T, G, pk].get - O' [T, G, pk].get)) • G = pk := by
  obtain ⟨O, O', h1, h2, he, hne⟩ := exists_fork (k := 3)
    (fun pf : DLogProof => ([pf.pk_t_rand_commitment, G, pf.pk].get : Fin 3 → Pt))
    (fun e pf => pf.challenge_response • G + e • pf.pk = pf.pk_t_rand_commitment) hA
    (h.trans_le (hashProb_mono fun O hO => dlogAccepted_iff.1 hO))
  have e0 := congrFun he (0 : Fin 3)
  have e2 := congrFun he (2 : Fin 3)
  rcases hr : A.run O with ⟨pk, T, z⟩
  rcases hr' : A.run O' with ⟨pk', T', z'⟩
  rw [hr, hr'] at e0 e2
  obtain rfl : T = T' := e0
  obtain rfl : pk = pk' := e2
  rw [hr] at h1 hne
  rw [hr'] at h2
  dsimp only at h1 h2 hne
  refine ⟨O, O', pk, T, z, z', hr, hr', dlogAccepted_iff.2 h1, dlogAccepted_iff.2 h2, hne, ?_⟩
  refine div_smul_eq hne ?_
  rw [sub_smul, sub_smul, sub_eq_sub_iff_add_eq_add, h2, add_comm, h1]

/-- **C107** (`PedersenProof`): an opening of the commitment is computed. -/
theorem C107_pedersen {A : Prover (Fin 5 → Pt) Sc PedersenProof} (hA : A.AsksAtMost n)
    (h : ((n : ℚ) + 1) / q < hashProb 5 fun O => PedersenAccepted O (A.run O)) :
    ∃ (O O' : HashOf 5) (pf pf' : PedersenProof), A.run O = pf ∧ A.run O' = pf' ∧
      PedersenAccepted O pf ∧ PedersenAccepted O' pf' ∧ pf'.com = pf.com ∧
      let e := O [G, H, pf.com, pf.a1, pf.a2].get
      let e' := O' [G, H, pf.com, pf.a1, pf.a2].get
      e ≠ e' ∧ ((pf.z1 - pf'.z1) / (e - e')) • G + ((pf.z2 - pf'.z2) / (e - e')) • H = pf.com := by
  obtain ⟨O, O', h1, h2, he, hne⟩ := exists_fork (k := 5)
    (fun pf : PedersenProof => ([G, H, pf.com, pf.a1, pf.a2].get : Fin 5 → Pt))
    (fun e pf => pf.z1 • G + pf.z2 • H = pf.a1 + pf.a2 + e • pf.com) hA
    (h.trans_le (hashProb_mono fun O hO => pedersenAccepted_iff.1 hO))
  refine ⟨O, O', A.run O, A.run O', rfl, rfl, pedersenAccepted_iff.2 h1, pedersenAccepted_iff.2 h2,
    (congrFun he (2 : Fin 5)).symm, hne, ?_⟩
  have e2 : (A.run O).com = (A.run O').com := congrFun he (2 : Fin 5)
  have e3 : (A.run O).a1 = (A.run O').a1 := congrFun he (3 : Fin 5)
  have e4 : (A.run O).a2 = (A.run O').a2 := congrFun he (4 : Fin 5)
  rw [← he, ← e2, ← e3, ← e4] at h2
  rw [div_eq_inv_mul, div_eq_inv_mul, mul_smul, mul_smul, ← smul_add]
  rw [inv_smul_eq_iff₀ (sub_ne_zero.2 hne)]
  linear_combination (norm := module) h1 - h2

/-- **C107** (`HomoELGamalProof`): the randomness and the plaintext of the pair are computed. -/
theorem C107_elgamal {A : Prover (Fin 7 → Pt) Sc (HomoElGamalStatement × HomoElGamalProof)}
    (hA : A.AsksAtMost n)
    (h : ((n : ℚ) + 1) / q < hashProb 7 fun O => ElGamalAccepted O (A.run O).1 (A.run O).2) :
    ∃ (O O' : HashOf 7) (st : HomoElGamalStatement) (pf pf' : HomoElGamalProof),
      A.run O = (st, pf) ∧ A.run O' = (st, pf') ∧ ElGamalAccepted O st pf ∧ ElGamalAccepted O' st pf' ∧
      let e := O [pf.T, pf.A3, st.G, st.H, st.Y, st.D, st.E].get
      let e' := O' [pf.T, pf.A3, st.G, st.H, st.Y, st.D, st.E].get
      e ≠ e' ∧
      ((pf.z1 - pf'.z1) / (e - e')) • st.H + ((pf.z2 - pf'.z2) / (e - e')) • st.Y = st.D ∧
      ((pf.z2 - pf'.z2) / (e - e')) • st.G = st.E := by
  obtain ⟨O, O', h1, h2, he, hne⟩ := exists_fork (k := 7)
    (fun x : HomoElGamalStatement × HomoElGamalProof =>
      ([x.2.T, x.2.A3, x.1.G, x.1.H, x.1.Y, x.1.D, x.1.E].get : Fin 7 → Pt))
    (fun e x => x.2.z1 • x.1.H + x.2.z2 • x.1.Y = x.2.T + e • x.1.D ∧ x.2.z2 • x.1.G = x.2.A3 + e • x.1.E) hA
    (h.trans_le (hashProb_mono fun O hO => elGamalAccepted_iff.1 hO))
  rcases hr : A.run O with ⟨st, pf⟩
  rcases hr' : A.run O' with ⟨st', pf'⟩
  rw [hr, hr'] at he
  rw [hr] at h1 hne
  rw [hr'] at h2
  rcases st with ⟨sG, sH, sY, sD, sE⟩
  rcases st' with ⟨sG', sH', sY', sD', sE'⟩
  obtain rfl : sG = sG' := congrFun he (2 : Fin 7)
  obtain rfl : sH = sH' := congrFun he (3 : Fin 7)
  obtain rfl : sY = sY' := congrFun he (4 : Fin 7)
  obtain rfl : sD = sD' := congrFun he (5 : Fin 7)
  obtain rfl : sE = sE' := congrFun he (6 : Fin 7)
  have e0 : pf.T = pf'.T := congrFun he (0 : Fin 7)
  have e1 : pf.A3 = pf'.A3 := congrFun he (1 : Fin 7)
  refine ⟨O, O', ⟨sG, sH, sY, sD, sE⟩, pf, pf', hr, hr', elGamalAccepted_iff.2 h1, elGamalAccepted_iff.2 h2,
    hne, ?_, ?_⟩
  · rw [div_eq_inv_mul, div_eq_inv_mul, mul_smul, mul_smul, ← smul_add,
      inv_smul_eq_iff₀ (sub_ne_zero.2 hne)]
    have h2' := h2.1
    rw [← he] at h2'
    rw [← e0] at h2'
    linear_combination (norm := module) h1.1 - h2'
  · refine div_smul_eq hne ?_
    have h2' := h2.2
    rw [← he] at h2'
    rw [← e1] at h2'
    linear_combination (norm := module) h1.2 - h2'

/-- **C107** (`ECDDHProof`): a false statement is proved with probability at most `(n + 1) / q`. -/
theorem C107_ecddh {A : Prover (Fin 6 → Pt) Sc (ECDDHStatement × ECDDHProof)} (hA : A.AsksAtMost n) :
    hashProb 6 (fun O => DdhAccepted O (A.run O).1 (A.run O).2 ∧ ¬ DdhTrue (A.run O).1) ≤ ((n : ℚ) + 1) / q := by
  by_contra hlt
  obtain ⟨O, O', h1, h2, he, hne⟩ := exists_fork (k := 6)
    (fun x : ECDDHStatement × ECDDHProof =>
      ([x.1.g1, x.1.h1, x.1.g2, x.1.h2, x.2.a1, x.2.a2].get : Fin 6 → Pt))
    (fun e x => (x.2.z • x.1.g1 = x.2.a1 + e • x.1.h1 ∧ x.2.z • x.1.g2 = x.2.a2 + e • x.1.h2) ∧ ¬ DdhTrue x.1) hA
    ((not_le.1 hlt).trans_le (hashProb_mono fun O hO => ⟨ddhAccepted_iff.1 hO.1, hO.2⟩))
  rcases hr : A.run O with ⟨st, pf⟩
  rcases hr' : A.run O' with ⟨st', pf'⟩
  rw [hr, hr'] at he
  rw [hr] at h1 hne
  rw [hr'] at h2
  rcases st with ⟨g1, k1, g2, k2⟩
  rcases st' with ⟨g1', k1', g2', k2'⟩
  obtain rfl : g1 = g1' := congrFun he (0 : Fin 6)
  obtain rfl : k1 = k1' := congrFun he (1 : Fin 6)
  obtain rfl : g2 = g2' := congrFun he (2 : Fin 6)
  obtain rfl : k2 = k2' := congrFun he (3 : Fin 6)
  have e4 : pf.a1 = pf'.a1 := congrFun he (4 : Fin 6)
  have e5 : pf.a2 = pf'.a2 := congrFun he (5 : Fin 6)
  obtain ⟨⟨h2a, h2b⟩, -⟩ := h2
  rw [← he] at h2a h2b
  rw [← e4] at h2a
  rw [← e5] at h2b
  exact hne (C67_ecddh_one_challenge h1.2 h1.1.1 h1.1.2 h2a h2b)

/-- **C107** (`ECDDHProof`, several at once, as in `phase6_blame`): among `m` statements with proofs that a prover
makes, a false one is accepted with probability at most `m (n + 1) / q`. -/
theorem C107_ecddh_list {m : ℕ} {A : Prover (Fin 6 → Pt) Sc (List (ECDDHStatement × ECDDHProof))}
    (hA : A.AsksAtMost n) (hm : ∀ O, (A.run O).length ≤ m) :
    hashProb 6 (fun O => ∃ x ∈ A.run O, DdhAccepted O x.1 x.2 ∧ ¬ DdhTrue x.1) ≤ m * (((n : ℚ) + 1) / q) := by
  let d : ECDDHStatement × ECDDHProof := ⟨⟨0, 0, 0, 0⟩, ⟨0, 0, 0⟩⟩
  refine (hashProb_mono fun O hO => ?_).trans (hashProb_exists_le m (E := fun i O =>
    DdhAccepted O ((A.run O).getD i d).1 ((A.run O).getD i d).2 ∧ ¬ DdhTrue ((A.run O).getD i d).1) ?_)
  · obtain ⟨x, hx, hok⟩ := hO
    obtain ⟨i, hi, rfl⟩ := List.mem_iff_getElem.1 hx
    exact ⟨i, hi.trans_le (hm O), by simpa only [List.getD_eq_getElem?_getD, List.getElem?_eq_getElem hi, Option.getD_some] using hok⟩
  · intro i _
    have := C107_ecddh (A := A.map fun l => l.getD i d) (Prover.asksAtMost_map hA)
    simpa only [Prover.run_map] using this

/-! ### In the protocols -/

/-- What the last check of GG20 key generation accepts, with any hash function -/
theorem gg20_accepted {t N : ℕ} {proofs : List DLogProof} {ys : List Pt} {vss : List Vss} (hv : vss.length = N)
    (h : GG20.verify_dlog_proofs_check_against_vss ⟨t, N⟩ proofs ys vss = .ok ()) {i : ℕ} (hi : i < N) :
    ValidKeyProofAt proofs vss i := by
  have h' := h
  unfold GG20.verify_dlog_proofs_check_against_vss at h'
  obtain ⟨_, h1, h'⟩ := Res.bind_eq_ok.1 h'
  obtain ⟨_, h2, -⟩ := Res.bind_eq_ok.1 h'
  rcases GG20.phase4_cases (t := t) (i.zero_le.trans_lt hi) (of_decide_eq_true (Res.assert_eq_ok.1 h1))
      (of_decide_eq_true (Res.assert_eq_ok.1 h2)) hv with ⟨-, hp⟩ | ⟨-, ⟨hall, -⟩ | ⟨j, -, -, -, he⟩⟩
  · cases h.symm.trans hp
  · exact hall i hi
  · cases h.symm.trans he

/-- **C107** (last round of GG20 key generation): if the proofs about the key shares pass the final check
`verify_dlog_proofs_check_against_vss` with a probability above `(n + 1) / q`, whoever made them (with `n` hashes)
knows, for every party, the logarithm of the share which the committed polynomials give to that party. -/
theorem C107_gg20_key_shares {t N : ℕ} {A : Prover (Fin 3 → Pt) Sc (List DLogProof × List Pt × List Vss)}
    (hA : A.AsksAtMost n) (hv : ∀ O, (A.run O).2.2.length = N)
    (h : ((n : ℚ) + 1) / q < hashProb 3 fun O => @GG20.verify_dlog_proofs_check_against_vss (withHash C 3 O) ⟨t, N⟩
      ((A.run O).1.map (dlogUnder O)) (A.run O).2.1 (A.run O).2.2 = .ok ()) {i : ℕ} (hi : i < N) :
    ∃ (O O' : HashOf 3) (pk T : Pt) (z z' : Sc), (A.run O).1[i]? = some ⟨pk, T, z⟩ ∧
      (A.run O').1[i]? = some ⟨pk, T, z'⟩ ∧
      pk = ((A.run O).2.2.map fun v => feldmanEval v.commitments ((i + 1 : ℕ) : Sc)).sum ∧
      ((z' - z) / (O [T, G, pk].get - O' [T, G, pk].get)) • G = pk := by
  classical
  let d : DLogProof := ⟨0, 0, 1⟩
  have hd : ∀ O, ¬ DLogAccepted O d := fun O hO => by
    have := dlogAccepted_iff.1 hO
    simp only [d, one_smul, smul_zero, add_zero] at this
    exact G_ne_zero this
  let f : List DLogProof × List Pt × List Vss → DLogProof := fun x =>
    match x.1[i]? with
    | some pf => if pf.pk = (x.2.2.map fun v => feldmanEval v.commitments ((i + 1 : ℕ) : Sc)).sum then pf else d
    | none => d
  have hf : ∀ O x pf, DLogAccepted O pf → f x = pf → x.1[i]? = some pf ∧
      pf.pk = (x.2.2.map fun v => feldmanEval v.commitments ((i + 1 : ℕ) : Sc)).sum := by
    intro O x pf ha hx
    simp only [f] at hx
    split at hx
    · split_ifs at hx with hc
      · subst hx
        exact ⟨‹_›, hc⟩
      · exact absurd (hx ▸ ha) (hd O)
    · exact absurd (hx ▸ ha) (hd O)
  obtain ⟨O, O', pk, T, z, z', hr, hr', ha, ha', -, hx⟩ := C107_dlog (A := A.map f) (Prover.asksAtMost_map hA)
    (h.trans_le (hashProb_mono fun O hO => by
      obtain ⟨pf, hp, hver, hpk⟩ := @gg20_accepted (withHash C 3 O) t N _ _ _ (hv O) hO i hi
      rw [List.getElem?_map] at hp
      obtain ⟨pf₀, hp₀, rfl⟩ := Option.map_eq_some_iff.1 hp
      rw [Prover.run_map]
      have : f (A.run O) = pf₀ := by
        simp only [f, hp₀]
        exact if_pos hpk
      rw [this]
      exact hver))
  rw [Prover.run_map] at hr hr'
  exact ⟨O, O', pk, T, z, z', (hf O _ _ ha hr).1, (hf O' _ _ ha' hr').1, (hf O _ _ ha hr).2, hx⟩

/-- **C107** (nonce exchange of Lindell17): party two goes on with a pair of points of party one which do not have
the same logarithm to `G` and `H` with probability at most `(n + 1) / q`. -/
theorem C107_lindell_nonce {w : (O : HashOf 6) → @Lindell17.EphCommWitness (withHash C 6 O)}
    {A : Prover (Fin 6 → Pt) Sc (ECDDHProof × Pt × Pt)} (hA : A.AsksAtMost n) :
    hashProb 6 (fun O => (∃ m, @Lindell17.eph_verify_and_decommit (withHash C 6 O) (w O)
        (@Lindell17.Party1EphKeyGenFirstMsg.mk (withHash C 6 O) (ddhUnder O (A.run O).1) (A.run O).2.1
          (A.run O).2.2) = .ok m) ∧
      ¬ ∃ k : Sc, (A.run O).2.1 = k • G ∧ (A.run O).2.2 = k • H) ≤ ((n : ℚ) + 1) / q := by
  refine (hashProb_mono fun O hO => ?_).trans
    (C107_ecddh (A := A.map fun x => (⟨G, x.2.1, H, x.2.2⟩, x.1)) (Prover.asksAtMost_map hA))
  obtain ⟨⟨m, hm⟩, hk⟩ := hO
  rw [Prover.run_map]
  refine ⟨?_, fun ⟨k, h1, h2⟩ => hk ⟨k, h1, h2⟩⟩
  unfold Lindell17.eph_verify_and_decommit at hm
  dsimp only at hm
  split_ifs at hm with hver
  exact hver

/-! ### The hypotheses are met -/

/-- Whoever knows the logarithm is always accepted, with one hash. -/
theorem exists_dlog_prover (x t : Sc) : ∃ A : Prover (Fin 3 → Pt) Sc DLogProof, A.AsksAtMost 1 ∧
    ∀ O, (A.run O).pk = x • G ∧ DLogAccepted O (A.run O) := by
  refine ⟨.ask [t • G, G, x • G].get fun e => .result ⟨x • G, t • G, t - e * x⟩, fun _ => trivial, fun O =>
    ⟨rfl, dlogAccepted_iff.2 ?_⟩⟩
  dsimp only [Prover.run]
  module

/-- Two parties which know their (here equal) shares pass the last check of key generation. -/
theorem exists_key_prover (u v t : Sc) : ∃ A : Prover (Fin 3 → Pt) Sc (List DLogProof × List Pt × List Vss),
    A.AsksAtMost 1 ∧ ∀ O, (A.run O).2.2.length = 2 ∧
      @GG20.verify_dlog_proofs_check_against_vss (withHash C 3 O) ⟨0, 2⟩
        ((A.run O).1.map (dlogUnder O)) (A.run O).2.1 (A.run O).2.2 = .ok () := by
  obtain ⟨A, hA, h⟩ := exists_dlog_prover (u + v) t
  let vss : List Vss := [⟨0, 2, [u • G]⟩, ⟨0, 2, [v • G]⟩]
  refine ⟨A.map fun pf => ([pf, pf], [u • G, v • G], vss), Prover.asksAtMost_map hA, fun O => ?_⟩
  rw [Prover.run_map]
  refine ⟨rfl, ?_⟩
  obtain ⟨h1, h2⟩ := h O
  have hc : GG20.get_commitments_to_xi vss = some [u • G + v • G, u • G + v • G] := rfl
  unfold GG20.verify_dlog_proofs_check_against_vss
  have ht : ∀ i < 2, (do
      let pf ← Res.get ([dlogUnder O (A.run O), dlogUnder O (A.run O)] : List (@DLogProof (withHash C 3 O))) i
      let c ← Res.get [u • G + v • G, u • G + v • G] i
      .ok (@DLogProof.verify (withHash C 3 O) pf && decide (c = @DLogProof.pk (withHash C 3 O) pf)) :
        Res ErrorType Bool) = .ok true := by
    have h3 : u • G + v • G = (A.run O).pk := by rw [h1, add_smul]
    have h4 : (@DLogProof.verify (withHash C 3 O) (dlogUnder O (A.run O)) &&
      decide (u • G + v • G = (A.run O).pk)) = true := by rw [decide_eq_true h3, Bool.and_true]; exact h2
    intro i hi
    obtain rfl | rfl : i = 0 ∨ i = 1 := by omega
    · exact congrArg Res.ok h4
    · exact congrArg Res.ok h4
  have := allPush_range_true.2 ⟨rfl, ht⟩
  dsimp only [List.map_cons, List.map_nil, List.length_cons, List.length_nil]
  rw [show @GG20.get_commitments_to_xi (withHash C 3 O).toEC vss = _ from hc]
  simp only [Res.ofOption_some, Res.bind_ok, decide_true, Res.assert_true]
  exact congrArg (fun r => Res.bind r fun x : Bool × List ℕ =>
    if x.1 = true then Res.ok () else Res.err ⟨"bad dlog proof", x.2⟩) this

theorem exists_pedersen_prover (m r s1 s2 : Sc) : ∃ A : Prover (Fin 5 → Pt) Sc PedersenProof,
    A.AsksAtMost 1 ∧ ∀ O, (A.run O).com = m • G + r • H ∧ PedersenAccepted O (A.run O) := by
  refine ⟨.ask [G, H, m • G + r • H, s1 • G, s2 • H].get fun e => .result ⟨e, s1 • G, s2 • H, m • G + r • H,
    s1 + e * m, s2 + e * r⟩, fun _ => trivial, fun O => ⟨rfl, pedersenAccepted_iff.2 ?_⟩⟩
  dsimp only [Prover.run]
  module

theorem exists_elgamal_prover (r x s1 s2 : Sc) (P : Pt) :
    ∃ A : Prover (Fin 7 → Pt) Sc (HomoElGamalStatement × HomoElGamalProof), A.AsksAtMost 1 ∧
      ∀ O, (A.run O).1 = ⟨P, H, G, x • H + r • G, r • P⟩ ∧ ElGamalAccepted O (A.run O).1 (A.run O).2 := by
  refine ⟨.ask [s1 • H + s2 • G, s2 • P, P, H, G, x • H + r • G, r • P].get fun e =>
    .result (⟨P, H, G, x • H + r • G, r • P⟩, ⟨s1 • H + s2 • G, s2 • P, s1 + e * x, s2 + e * r⟩),
    fun _ => trivial, fun O => ⟨rfl, elGamalAccepted_iff.2 ⟨?_, ?_⟩⟩⟩
  · dsimp only [Prover.run]
    module
  · dsimp only [Prover.run]
    module

/-- The bound for false statements is not idle: without computing any hash, one that is accepted for some hash
functions can be made, by guessing the challenge. -/
theorem exists_ddh_cheater (e : Sc) :
    ∃ A : Prover (Fin 6 → Pt) Sc (ECDDHStatement × ECDDHProof), A.AsksAtMost 0 ∧
      ∃ O, DdhAccepted O (A.run O).1 (A.run O).2 ∧ ¬ DdhTrue (A.run O).1 := by
  refine ⟨.result (⟨G, G, G, 0⟩, ⟨-e • G, 0, 0⟩), trivial, fun _ => e, ddhAccepted_iff.2 ⟨?_, ?_⟩, ?_⟩
  · dsimp only [Prover.run]
    module
  · dsimp only [Prover.run]
    module
  · rintro ⟨x, h1, h2⟩
    have h1 : G = x • G := h1
    have h2 : (0 : Pt) = x • G := h2
    exact G_ne_zero (h1.trans h2.symm)

end

section
attribute [local instance] Toy.crypto

theorem toy_above : (((1 : ℕ) : ℚ) + 1) / (q : ℕ) < 1 := by
  show (((1 : ℕ) : ℚ) + 1) / (31 : ℕ) < 1
  norm_num

example : ∃ A : Prover (Fin 3 → Pt) Sc DLogProof, A.AsksAtMost 1 ∧
    (((1 : ℕ) : ℚ) + 1) / (q : ℕ) < hashProb 3 fun O => DLogAccepted O (A.run O) := by
  obtain ⟨A, hA, h⟩ := exists_dlog_prover (7 : ZMod 31) (9 : ZMod 31)
  exact ⟨A, hA, by rw [hashProb_of_forall fun O => (h O).2]; exact toy_above⟩

example : ∃ A : Prover (Fin 3 → Pt) Sc (List DLogProof × List Pt × List Vss), A.AsksAtMost 1 ∧
    (∀ O, (A.run O).2.2.length = 2) ∧
    (((1 : ℕ) : ℚ) + 1) / (q : ℕ) < hashProb 3 fun O =>
      @GG20.verify_dlog_proofs_check_against_vss (withHash Toy.crypto 3 O) ⟨0, 2⟩
        ((A.run O).1.map (dlogUnder O)) (A.run O).2.1 (A.run O).2.2 = .ok () := by
  obtain ⟨A, hA, h⟩ := exists_key_prover (7 : ZMod 31) (9 : ZMod 31) (2 : ZMod 31)
  exact ⟨A, hA, fun O => (h O).1, by rw [hashProb_of_forall fun O => (h O).2]; exact toy_above⟩

example : ∃ A : Prover (Fin 5 → Pt) Sc PedersenProof, A.AsksAtMost 1 ∧
    (((1 : ℕ) : ℚ) + 1) / (q : ℕ) < hashProb 5 fun O => PedersenAccepted O (A.run O) := by
  obtain ⟨A, hA, h⟩ := exists_pedersen_prover (7 : ZMod 31) (9 : ZMod 31) (2 : ZMod 31) (3 : ZMod 31)
  exact ⟨A, hA, by rw [hashProb_of_forall fun O => (h O).2]; exact toy_above⟩

example : ∃ A : Prover (Fin 7 → Pt) Sc (HomoElGamalStatement × HomoElGamalProof), A.AsksAtMost 1 ∧
    (((1 : ℕ) : ℚ) + 1) / (q : ℕ) < hashProb 7 fun O => ElGamalAccepted O (A.run O).1 (A.run O).2 := by
  obtain ⟨A, hA, h⟩ := exists_elgamal_prover (7 : ZMod 31) (9 : ZMod 31) (2 : ZMod 31) (3 : ZMod 31) G
  exact ⟨A, hA, by rw [hashProb_of_forall fun O => (h O).2]; exact toy_above⟩

example : ∃ A : Prover (Fin 6 → Pt) Sc (ECDDHStatement × ECDDHProof), A.AsksAtMost 0 ∧
    ∃ O, DdhAccepted O (A.run O).1 (A.run O).2 ∧ ¬ DdhTrue (A.run O).1 := exists_ddh_cheater (2 : ZMod 31)

end
end Verif.Props
