import Verif.Lemmas.KeygenRun
import Verif.Base.ToyCrypto
import Verif.Base.BigPrimes

/-!
# Properties C09-C15, C17, C18: sharing and GG20 key generation
-/

namespace Verif.Props

open EC Crypto Spec GG20

section
variable [EC]

/-- **C09.** The dealer's shares validate against the dealer's commitments and no other scalar
does; the commitments start with the commitment to the secret. -/
theorem C09_share_validates {ε : Type} {t n : ℕ} (ht : t < n) (secret : Sc) (coefs : List Sc) :
    ∃ v shares, (Vss.share t n secret coefs : Res ε (Vss × List Sc)) = .ok (v, shares) ∧
      shares.length = n ∧ v.commitments.head? = some (secret • G) ∧
      v.commitments.length = coefs.length + 1 ∧
      ∀ i, 1 ≤ i → i ≤ n → ∀ s : Sc,
        (v.validateShare s i : Res ε Bool) = .ok (decide (shares[i - 1]? = some s)) := by
  refine ⟨_, _, by simp only [Vss.share, ht, if_true]; rfl, by simp, by simp, by simp, ?_⟩
  intro i h1 h2 s
  rw [validateShare_ok (f := secret :: coefs) (by simp) rfl]
  congr 1
  rw [decide_eq_decide, List.getElem?_map, List.getElem?_range (by omega)]
  simp only [Option.map_some, Option.some.injEq, Nat.sub_add_cancel h1]
  exact eq_comm

/-- **C09** (dealing): the dealt shares reconstruct the secret for any `t + 1` parties. -/
theorem C09_shares_reconstruct {ε : Type} {t n : ℕ} (hn : n < q) (secret : Sc)
    (coefs : List Sc) (hl : coefs.length = t) (v : Vss) (shares : List Sc)
    (h : (Vss.share t n secret coefs : Res ε (Vss × List Sc)) = .ok (v, shares))
    (x : ℕ → Sc) (hx : ∀ i s, shares[i]? = some s → x (i + 1) = s) :
    Reconstructs t n x secret := by
  unfold Vss.share at h
  split at h
  · cases h
    have : OnPolynomial t n x (toPoly (secret :: coefs)) := by
      refine ⟨by have := degree_toPoly_lt (secret :: coefs); simpa [hl] using this, ?_⟩
      intro i h1 h2
      have := hx (i - 1) _ (by rw [List.getElem?_map, List.getElem?_range (by omega)]; rfl)
      rw [Nat.sub_add_cancel h1] at this
      rw [this, eval_toPoly]
      simp only [Nat.sub_add_cancel h1]
    have := this.reconstructs hn
    rwa [eval_toPoly, evalPoly_zero_cons] at this
  · cases h

/-- **C17.** Any `t` shares are compatible with every secret: exactly one choice of the dealer's
`t` random coefficients explains them. -/
theorem C17_t_shares_reveal_nothing (t : ℕ) (S : Finset ℕ) (hc : S.card = t)
    (hS : ∀ i ∈ S, 1 ≤ i ∧ i < q) (x : ℕ → Sc) (secret : Sc) :
    ∃! coefs : List Sc, coefs.length = t ∧
      ∀ i ∈ S, evalPoly (secret :: coefs) (i : Sc) = x i := by
  classical
  -- interpolate through the shares and the candidate secret at 0
  have h0 : (0 : ℕ) ∉ S := fun h => by have := (hS 0 h).1; omega
  let S' : Finset ℕ := insert 0 S
  let r : ℕ → Sc := fun i => if i = 0 then secret else x i
  have hcard : S'.card = t + 1 := by rw [Finset.card_insert_of_notMem h0, hc]
  have hinj : Set.InjOn (fun i : ℕ => (i : Sc)) S' := by
    intro i hi j hj hij
    have lt : ∀ k ∈ S', k < q := by
      intro k hk
      rcases Finset.mem_insert.1 hk with rfl | hk
      · exact q_pos
      · exact (hS k hk).2
    exact natCast_inj_of_lt (lt i hi) (lt j hj) hij
  let f : Polynomial Sc := Lagrange.interpolate S' (fun i : ℕ => (i : Sc)) r
  have hdeg : f.degree < (t + 1 : ℕ) := by
    have := Lagrange.degree_interpolate_lt r hinj
    rwa [hcard] at this
  have heval : ∀ i ∈ S', f.eval (i : Sc) = r i := fun i hi =>
    Lagrange.eval_interpolate_at_node r hinj hi
  obtain ⟨cs, hlen, hcs⟩ := exists_toPoly hdeg
  obtain ⟨c, coefs, rfl⟩ : ∃ c coefs, cs = c :: coefs := by
    cases cs with
    | nil => simp at hlen
    | cons c coefs => exact ⟨c, coefs, rfl⟩
  have hc0 : c = secret := by
    have := heval 0 (Finset.mem_insert_self _ _)
    rw [← hcs, eval_toPoly, Nat.cast_zero, evalPoly_zero_cons] at this
    simpa [r] using this
  subst hc0
  refine ⟨coefs, ⟨by simpa using hlen, fun i hi => ?_⟩, ?_⟩
  · have := heval i (Finset.mem_insert_of_mem hi)
    rw [← hcs, eval_toPoly] at this
    rw [this]
    have : i ≠ 0 := by have := (hS i hi).1; omega
    simp [r, this]
  · rintro coefs' ⟨hlen', h'⟩
    have hp : toPoly (c :: coefs') = toPoly (c :: coefs) := by
      rw [hcs]
      refine Lagrange.eq_interpolate_of_eval_eq r hinj ?_ ?_
      · rw [hcard]
        have := degree_toPoly_lt (c :: coefs')
        simpa [hlen'] using this
      · intro i hi
        rw [eval_toPoly]
        rcases Finset.mem_insert.1 hi with rfl | hi
        · simp [r]
        · have : i ≠ 0 := by have := (hS i hi).1; omega
          rw [h' i hi]; simp [r, this]
    have := toPoly_injOn (by simpa [hlen'] using hlen.symm) hp
    simpa using this

end

section
variable [Crypto]

/-- **C10.** A key generation among honest parties gives everybody the same public key `d • G`, the
same vector of public shares, whose entry `j` is party `j + 1`'s secret share times `G`, the same
Paillier and auxiliary key vectors, and secret shares from which any `t + 1` parties recover
`d`. -/
theorem C10_honest_keygen {t n : ℕ} (ht : t < n) (hn : n < q) (rnd : ℕ → KeygenRandomness)
    (hon : ∀ k < n, Keygen.HonestRandomness t (rnd k)) :
    ∃ (keys : List LocalKey) (d : Sc) (x : ℕ → Sc) (pails : List ℕ) (sts : List DLogStatement),
      Keygen.run t n rnd = .ok keys ∧ keys.length = n ∧
      d = ∑ k ∈ Finset.range n, (rnd k).u ∧
      Reconstructs t n x d ∧
      ∀ k key, keys[k]? = some key →
        key.public_key = d • G ∧ key.keys_linear.y = d • G ∧
        key.keys_linear.x_i = x (k + 1) ∧
        key.pk_vec.length = n ∧ (∀ j, 1 ≤ j → j ≤ n → key.pk_vec[j - 1]? = some (x j • G)) ∧
        key.paillier_key_vec = pails ∧ key.h1_h2_n_tilde_vec = sts ∧
        key.paillier_dk = (rnd k).dk ∧ pails[k]? = some (rnd k).dk.n ∧
        key.i = k + 1 ∧ key.t = t ∧ key.n = n := by
  obtain ⟨f, hf, hf0⟩ := Keygen.rX_onPolynomial (n := n) (fun k hk => (hon k hk).coefs_len)
  refine ⟨_, Keygen.rSecret n rnd, fun i => Keygen.rX n rnd (i - 1),
    (List.range n).map (fun j => (rnd j).dk.n),
    (List.range n).map (fun j => (Keygen.rBc rnd j).dlog_statement), Keygen.run_eq ht hon,
    by simp, sum_map_range_eq _ _, hf0 ▸ hf.reconstructs hn, ?_⟩
  intro k key hk
  obtain ⟨hk1, rfl⟩ : k < n ∧ Keygen.rKey t n rnd k = key := by
    rw [List.getElem?_map, Option.map_eq_some_iff] at hk
    obtain ⟨a, ha, rfl⟩ := hk
    obtain ⟨h1, h2⟩ := List.getElem?_eq_some_iff.1 ha
    simp at h1 h2
    exact ⟨h1, by rw [h2]⟩
  have hy : ((List.range n).map (fun j => (rnd j).u • (G : Pt))).sum =
      Keygen.rSecret n rnd • G := by
    rw [Keygen.rSecret, List.sum_smul, List.map_map]; rfl
  refine ⟨hy, hy, rfl, by simp [Keygen.rKey], ?_, rfl, rfl, rfl, by simp [hk1], rfl, rfl, rfl⟩
  intro j h1 h2
  simp only [Keygen.rKey]
  rw [List.getElem?_map, List.getElem?_range (by omega)]
  rfl

attribute [local irreducible] bigP bigQ in
/-- Random values as required by C10 exist (a 2048-bit modulus from two explicit primes), with any
invertible `h1`. -/
theorem honestRandomness_exists_h1 (t : ℕ) (u : Sc) (coefs : List Sc) (hl : coefs.length = t) (h1 : ℤ)
    (hg : Int.gcd h1 ((bigP : ℤ) * bigQ) = 1) :
    ∃ r : KeygenRandomness, Keygen.HonestRandomness t r ∧ r.u = u ∧ r.coefs = coefs ∧
      r.aux.2.1 = h1 := by
  have hinv : (modInv 7 (((bigP : ℤ) - 1) * ((bigQ : ℤ) - 1))).isSome := by
    rw [modInv_isSome]; decide +kernel
  obtain ⟨i, hi⟩ := Option.isSome_iff_exists.1 hinv
  have hN : ((bigP : ℤ) * bigQ) ≠ 0 := by
    have := bigP_prime.pos; have := bigQ_prime.pos; positivity
  have hgen : ∃ aux, generate_h1_h2_N_tilde bigP bigQ h1 7 = some aux ∧ aux.2.1 = h1 := by
    unfold generate_h1_h2_N_tilde
    simp only [hi, modPow_nonneg hN (by norm_num : (0 : ℤ) ≤ 7), Option.bind_eq_bind,
      Option.bind_some]
    exact ⟨_, rfl, rfl⟩
  obtain ⟨aux, haux, hh1⟩ := hgen
  have hsz : bitLength ((bigP : ℤ) * bigQ) = 2048 := by
    rw [← Nat.cast_mul, bitLength, Int.natAbs_natCast]; exact big_size
  refine ⟨⟨u, ⟨bigP, bigQ⟩, aux, 0, 0, 0, coefs, 0⟩,
    ⟨⟨bigP_prime, bigQ_prime, bigP_ne_bigQ, big_coprime⟩, big_large,
      Or.inr (by rw [bitLength, DecKey.n, Int.natAbs_natCast]; exact big_size),
      ⟨bigP, bigQ, h1, 7, bigP_prime, bigQ_prime, bigP_ne_bigQ, Or.inr hsz, hg, by norm_num, ?_, haux⟩,
      hl⟩, rfl, rfl, hh1⟩
  decide +kernel

omit [Crypto] in
theorem big_gcd_two : Int.gcd 2 ((bigP : ℤ) * bigQ) = 1 := by decide +kernel

omit [Crypto] in
theorem big_gcd_three : Int.gcd 3 ((bigP : ℤ) * bigQ) = 1 := by decide +kernel

theorem honestRandomness_exists (t : ℕ) (u : Sc) (coefs : List Sc) (hl : coefs.length = t) :
    ∃ r : KeygenRandomness, Keygen.HonestRandomness t r ∧ r.u = u ∧ r.coefs = coefs := by
  obtain ⟨r, h1, h2, h3, -⟩ := honestRandomness_exists_h1 t u coefs hl 2 big_gcd_two
  exact ⟨r, h1, h2, h3⟩

/-- C10's hypotheses can be met for every threshold, number of parties, secrets and
polynomials. -/
example (t n : ℕ) (u : ℕ → Sc) (coefs : ℕ → List Sc) (h : ∀ k, (coefs k).length = t) :
    ∃ rnd : ℕ → KeygenRandomness, (∀ k < n, Keygen.HonestRandomness t (rnd k)) ∧
      ∀ k, (rnd k).u = u k ∧ (rnd k).coefs = coefs k :=
  ⟨fun k => (honestRandomness_exists t (u k) (coefs k) (h k)).choose,
   fun k _ => (honestRandomness_exists t (u k) (coefs k) (h k)).choose_spec.1,
   fun k => (honestRandomness_exists t (u k) (coefs k) (h k)).choose_spec.2⟩

/-- **C11.** Round 1 succeeds exactly when every party's broadcast and opening are valid, and then
returns the dealing of the party's own secret. -/
theorem C11_accepts_iff (k : Keys) {t n : ℕ} (ht : t < n) (decoms : List KeyGenDecommitMessage1)
    (bcs : List KeyGenBroadcastMessage1) (coefs : List Sc)
    (h1 : decoms.length = n) (h2 : bcs.length = n) :
    ((∃ r, k.phase1_verify_distribute ⟨t, n⟩ decoms bcs coefs = .ok r) ↔
      ∀ i < n, ValidBroadcastAt bcs decoms i) ∧
    (∀ v sh ix, k.phase1_verify_distribute ⟨t, n⟩ decoms bcs coefs = .ok (v, sh, ix) →
      Vss.share t n k.u_i coefs = (.ok (v, sh) : Res ErrorType (Vss × List Sc)) ∧
        ix = k.party_index) := by
  rcases phase1_cases k ht coefs h1 h2 with ⟨h, he⟩ | ⟨i, hi, hb, -, ⟨-, he⟩ | ⟨-, he⟩⟩
  · rw [he]
    refine ⟨by simpa using h, ?_⟩
    intro v sh ix hh
    simp only [Res.ok.injEq, Prod.mk.injEq] at hh
    obtain ⟨rfl, rfl, rfl⟩ := hh
    simp [Vss.share, ht]
  all_goals
    rw [he]
    refine ⟨?_, by simp⟩
    simp only [reduceCtorEq, exists_false, false_iff]
    exact fun hall => hb (hall i hi)

/-- **C11** (blame). On failure the error is `invalid key` and names exactly the *first* failing
party; it is a party that failed.  (If the proof verification of that party panics, so does this.)  The property asks for every failing party: see
`C11_later_offender_missing`. -/
theorem C11_blames_first_partial (k : Keys) {t n : ℕ} (ht : t < n)
    (decoms : List KeyGenDecommitMessage1) (bcs : List KeyGenBroadcastMessage1) (coefs : List Sc)
    (h1 : decoms.length = n) (h2 : bcs.length = n) (e : ErrorType) :
    k.phase1_verify_distribute ⟨t, n⟩ decoms bcs coefs = .err e ↔
      ∃ i < n, ¬ ValidBroadcastAt bcs decoms i ∧ ¬ PanickingBroadcastAt bcs decoms i ∧
        (∀ j < i, ValidBroadcastAt bcs decoms j) ∧ e = ⟨"invalid key", [i]⟩ := by
  rcases phase1_cases k ht coefs h1 h2 with ⟨h, he⟩ | ⟨i, hi, hb, hp, ⟨hc, he⟩ | ⟨hc, he⟩⟩
  · rw [he]
    simp only [reduceCtorEq, false_iff, not_exists, not_and]
    exact fun i hi hb => absurd (h i hi) hb
  · rw [he]
    constructor
    · intro hh; cases hh; exact ⟨i, hi, hb, hc, hp, rfl⟩
    · rintro ⟨j, hj, hbj, -, hpj, rfl⟩
      have : i = j := by
        rcases lt_trichotomy i j with h | h | h
        · exact absurd (hpj i h) hb
        · exact h
        · exact absurd (hp j h) hbj
      rw [this]
  · rw [he]
    simp only [reduceCtorEq, false_iff, not_exists, not_and]
    intro j hj hbj hcj hpj
    have : i = j := by
      rcases lt_trichotomy i j with h | h | h
      · exact absurd (hpj i h) hb
      · exact h
      · exact absurd (hp j h) hbj
    exact absurd (this ▸ hc) hcj

/-- **C11** (violation). A second failing party is never named: `bad_actors` does not list every
party that failed. -/
theorem C11_later_offender_missing (k : Keys) {t n : ℕ} (ht : t < n)
    (decoms : List KeyGenDecommitMessage1) (bcs : List KeyGenBroadcastMessage1) (coefs : List Sc)
    (h1 : decoms.length = n) (h2 : bcs.length = n) {i j : ℕ} (hij : i < j) (hj : j < n)
    (hbi : ¬ ValidBroadcastAt bcs decoms i) (_hbj : ¬ ValidBroadcastAt bcs decoms j)
    (hc : ∀ l ≤ i, ¬ PanickingBroadcastAt bcs decoms l) :
    ∃ e, k.phase1_verify_distribute ⟨t, n⟩ decoms bcs coefs = .err e ∧ j ∉ e.bad_actors := by
  rcases phase1_cases k ht coefs h1 h2 with ⟨h, he⟩ | ⟨l, hl, hb, hp, he⟩
  · exact absurd (h i (by omega)) hbi
  · have : l ≤ i := by
      by_contra hlt
      exact hbi (hp i (by omega))
    obtain ⟨-, he⟩ | ⟨hcl, -⟩ := he
    swap
    · exact absurd hcl (hc l this)
    refine ⟨_, he, ?_⟩
    simp only [List.mem_singleton]
    omega

/-- **C12.** Round 3 succeeds exactly when every received share matches its sender's commitments,
which start with the sender's announced public share; the secret share is then the sum of the
received shares, the public key the sum of the announced shares, and the proof is about the secret
share. (Commitment vectors must be non-empty, otherwise the code panics: C15.) -/
theorem C12_accepts_iff {t n : ℕ} (hn : 0 < n) (ys : List Pt) (shares : List Sc) (vss : List Vss)
    (index : ℕ) (nonce : Sc) (h1 : ys.length = n) (h2 : shares.length = n) (h3 : vss.length = n) :
    ((∃ r, Keys.phase2_verify_vss ⟨t, n⟩ ys shares vss index nonce = .ok r) ↔
      ∀ i < n, ValidShareAt ys shares vss index i) ∧
    (∀ sk pf, Keys.phase2_verify_vss ⟨t, n⟩ ys shares vss index nonce = .ok (sk, pf) →
      sk.x_i = shares.sum ∧ sk.y = ys.sum ∧ pf.verify = true ∧ pf.pk = sk.x_i • G) := by
  rcases phase2_cases (t := t) hn index nonce h1 h2 h3 with
    ⟨h, he⟩ | ⟨i, hi, hb, -, -, he⟩ | ⟨i, hi, hc, -, he⟩
  · rw [he]
    refine ⟨by simpa using h, ?_⟩
    intro sk pf hh
    simp only [Res.ok.injEq, Prod.mk.injEq] at hh
    obtain ⟨rfl, rfl⟩ := hh
    exact ⟨rfl, rfl, DLogProof.verify_prove _ _, rfl⟩
  · rw [he]
    refine ⟨?_, by simp⟩
    simp only [reduceCtorEq, exists_false, false_iff]
    exact fun hall => hb (hall i hi)
  · rw [he]
    refine ⟨?_, by simp⟩
    simp only [reduceCtorEq, exists_false, false_iff]
    intro hall
    obtain ⟨y, s, v, -, -, hv, -, hh⟩ := hall i hi
    rw [hv] at hc
    simp only [Option.map_some, Option.some.injEq] at hc
    rw [hc] at hh
    simp at hh

/-- **C12** (blame). When all commitment vectors are non-empty, failure is `invalid vss` naming
exactly the first failing sender. -/
theorem C12_blames_first_partial {t n : ℕ} (hn : 0 < n) (ys : List Pt) (shares : List Sc)
    (vss : List Vss) (index : ℕ) (nonce : Sc) (h1 : ys.length = n) (h2 : shares.length = n)
    (h3 : vss.length = n) (hne : ∀ v ∈ vss, v.commitments ≠ []) (e : ErrorType) :
    Keys.phase2_verify_vss ⟨t, n⟩ ys shares vss index nonce = .err e ↔
      ∃ i < n, ¬ ValidShareAt ys shares vss index i ∧
        (∀ j < i, ValidShareAt ys shares vss index j) ∧ e = ⟨"invalid vss", [i]⟩ := by
  rcases phase2_cases (t := t) hn index nonce h1 h2 h3 with
    ⟨h, he⟩ | ⟨i, hi, hb, -, hp, he⟩ | ⟨i, hi, hc, -, he⟩
  · rw [he]
    simp only [reduceCtorEq, false_iff, not_exists, not_and]
    exact fun i hi hb => absurd (h i hi) hb
  · rw [he]
    constructor
    · intro hh; cases hh; exact ⟨i, hi, hb, hp, rfl⟩
    · rintro ⟨j, hj, hbj, hpj, rfl⟩
      have : i = j := by
        rcases lt_trichotomy i j with h | h | h
        · exact absurd (hpj i h) hb
        · exact h
        · exact absurd (hp j h) hbj
      rw [this]
  · exfalso
    rw [List.getElem?_eq_getElem (h3 ▸ hi)] at hc
    simp only [Option.map_some, Option.some.injEq] at hc
    exact hne _ (List.getElem_mem _) hc

/-- **C12** (violation). A second sender whose share fails is never named. -/
theorem C12_later_offender_missing {t n : ℕ} (hn : 0 < n) (ys : List Pt) (shares : List Sc)
    (vss : List Vss) (index : ℕ) (nonce : Sc) (h1 : ys.length = n) (h2 : shares.length = n)
    (h3 : vss.length = n) (hne : ∀ v ∈ vss, v.commitments ≠ []) {i j : ℕ} (hij : i < j)
    (hj : j < n) (hbi : ¬ ValidShareAt ys shares vss index i)
    (_hbj : ¬ ValidShareAt ys shares vss index j) :
    ∃ e, Keys.phase2_verify_vss ⟨t, n⟩ ys shares vss index nonce = .err e ∧ j ∉ e.bad_actors := by
  rcases phase2_cases (t := t) hn index nonce h1 h2 h3 with
    ⟨h, he⟩ | ⟨l, hl, hb, -, hp, he⟩ | ⟨l, hl, hc, -, he⟩
  · exact absurd (h i (by omega)) hbi
  · refine ⟨_, he, ?_⟩
    have : l ≤ i := by
      by_contra hlt
      exact hbi (hp i (by omega))
    simp only [List.mem_singleton]
    omega
  · exfalso
    rw [List.getElem?_eq_getElem (h3 ▸ hl)] at hc
    simp only [Option.map_some, Option.some.injEq] at hc
    exact hne _ (List.getElem_mem _) hc

/-- The dealers' commitment vectors are as the protocol prescribes as far as length goes: none is
empty and none is longer than the first party's. -/
def SaneLengths (vss : List Vss) : Prop :=
  ∃ v0 vs, vss = v0 :: vs ∧ v0.commitments ≠ [] ∧
    ∀ v ∈ vs, v.commitments.length ≤ v0.commitments.length

/-- **C13** (counts): a call whose vectors are not one per party never succeeds. -/
theorem C13_wrong_count (params : GG20.Parameters) (proofs : List DLogProof) (ys : List Pt) (vss : List Vss)
    (h : ys.length ≠ params.share_count ∨ proofs.length ≠ params.share_count) :
    verify_dlog_proofs_check_against_vss params proofs ys vss = .panic := by
  unfold verify_dlog_proofs_check_against_vss Res.assert
  by_cases h1 : ys.length = params.share_count
  · simp [h1, h.resolve_left (fun h => h h1)]
  · simp [h1]

/-- **C13.** Round 4 succeeds exactly when every party's proof verifies and is about the share which
the sum of all polynomial commitments assigns to that party; otherwise it names exactly the first
failing party.  (The lengths must be sane, otherwise the code panics: C15.) -/
theorem C13_accepts_iff_partial {t n : ℕ} (hn : 0 < n) (proofs : List DLogProof) (ys : List Pt)
    (vss : List Vss) (h1 : ys.length = n) (h2 : proofs.length = n) (h3 : vss.length = n)
    (hs : SaneLengths vss) :
    (verify_dlog_proofs_check_against_vss ⟨t, n⟩ proofs ys vss = .ok () ↔
      ∀ i < n, ValidKeyProofAt proofs vss i) ∧
    (∀ e, verify_dlog_proofs_check_against_vss ⟨t, n⟩ proofs ys vss = .err e ↔
      ∃ i < n, ¬ ValidKeyProofAt proofs vss i ∧ (∀ j < i, ValidKeyProofAt proofs vss j) ∧
        e = ⟨"bad dlog proof", [i]⟩) := by
  rcases phase4_cases (t := t) hn h1 h2 h3 with
    ⟨hg, -⟩ | ⟨-, ⟨h, he⟩ | ⟨i, hi, hb, hp, he⟩⟩
  · obtain ⟨v0, vs, rfl, ha, hb⟩ := hs
    rw [get_commitments_to_xi_eq ha hb] at hg
    cases hg
  · rw [he]
    refine ⟨by simpa using h, fun e => ?_⟩
    simp only [reduceCtorEq, false_iff, not_exists, not_and]
    exact fun i hi hb => absurd (h i hi) hb
  · rw [he]
    constructor
    · simp only [reduceCtorEq, false_iff]
      exact fun hall => hb (hall i hi)
    · intro e
      constructor
      · intro hh; cases hh; exact ⟨i, hi, hb, hp, rfl⟩
      · rintro ⟨j, hj, hbj, hpj, rfl⟩
        have : i = j := by
          rcases lt_trichotomy i j with h | h | h
          · exact absurd (hpj i h) hb
          · exact h
          · exact absurd (hp j h) hbj
        rw [this]

/-- **C13** (violation). A second party whose proof fails is never named. -/
theorem C13_later_offender_missing {t n : ℕ} (hn : 0 < n) (proofs : List DLogProof)
    (ys : List Pt) (vss : List Vss) (h1 : ys.length = n) (h2 : proofs.length = n)
    (h3 : vss.length = n) (hs : SaneLengths vss) {i j : ℕ} (hij : i < j) (hj : j < n)
    (hbi : ¬ ValidKeyProofAt proofs vss i) (_hbj : ¬ ValidKeyProofAt proofs vss j) :
    ∃ e, verify_dlog_proofs_check_against_vss ⟨t, n⟩ proofs ys vss = .err e ∧
      j ∉ e.bad_actors := by
  rcases phase4_cases (t := t) hn h1 h2 h3 with
    ⟨hg, -⟩ | ⟨-, ⟨h, he⟩ | ⟨l, hl, hb, hp, he⟩⟩
  · obtain ⟨v0, vs, rfl, ha, hb⟩ := hs
    rw [get_commitments_to_xi_eq ha hb] at hg
    cases hg
  · exact absurd (h i (by omega)) hbi
  · refine ⟨_, he, ?_⟩
    have : l ≤ i := by
      by_contra hlt
      exact hbi (hp i (by omega))
    simp only [List.mem_singleton]
    omega

end

/-! ### Concrete cases -/

section
attribute [local instance] Toy.crypto

/-- C09: degree-1 sharing of 9 with slope 4 among three parties. -/
example : (Vss.share 1 3 (9 : ZMod 31) [4] : Res Unit _) =
    .ok (⟨1, 3, [(9 : ZMod 31), (4 : ZMod 31)]⟩, [(13 : ZMod 31), (17 : ZMod 31), (21 : ZMod 31)]) := by
  rw [Vss.share, if_pos (by norm_num)]
  exact congrArg Res.ok (Prod.ext (congrArg (Vss.mk 1 3) (by decide)) (by decide))

/-- C11: two parties whose Paillier moduli are too small both fail, only the first is named. -/
example :
    let bc : KeyGenBroadcastMessage1 := ⟨15, ⟨15, 2, 8⟩, 0, (), true, true⟩
    let dec : KeyGenDecommitMessage1 := ⟨7, (3 : ZMod 31)⟩
    let k : Keys := Keys.create 1 (3 : ZMod 31) ⟨3, 5⟩ (15, 2, 8, 1, 1)
    ¬ ValidBroadcastAt [bc, bc] [dec, dec] 0 ∧ ¬ ValidBroadcastAt [bc, bc] [dec, dec] 1 ∧
    ∃ e, k.phase1_verify_distribute ⟨1, 2⟩ [dec, dec] [bc, bc] [(4 : ZMod 31)] = .err e ∧
      e.bad_actors = [0] := by
  intro bc dec k
  have hb : ∀ i < 2, ¬ ValidBroadcastAt [bc, bc] [dec, dec] i := by
    intro i hi
    rw [validBroadcastAt_iff (n := 2) rfl rfl hi]
    have : ¬ phase1_test bc dec = some true := by decide +kernel
    interval_cases i <;> exact this
  refine ⟨hb 0 (by norm_num), hb 1 (by norm_num), _,
    (C11_blames_first_partial k (t := 1) (n := 2) (by norm_num) [dec, dec] [bc, bc] [(4 : ZMod 31)]
      rfl rfl _).2 ⟨0, by norm_num, hb 0 (by norm_num), by
        rw [panickingBroadcastAt_iff (n := 2) rfl rfl (by norm_num)]
        have : ¬ phase1_test bc dec = none := by decide +kernel
        exact this, by simp, rfl⟩, rfl⟩

/-- C12, C13: parties 1 and 2 deal `3 + 4x` and `5 + 6x`; party 2's checks pass and give it the share
`11 + 17 = 28`. -/
example :
    let vs : List Vss := [⟨1, 2, [(3 : ZMod 31), (4 : ZMod 31)]⟩, ⟨1, 2, [(5 : ZMod 31), (6 : ZMod 31)]⟩]
    let pfs : List DLogProof := [DLogProof.prove (18 : ZMod 31) (7 : ZMod 31),
      DLogProof.prove (28 : ZMod 31) (9 : ZMod 31)]
    (∃ r, Keys.phase2_verify_vss ⟨1, 2⟩ [(3 : ZMod 31), (5 : ZMod 31)]
      [(11 : ZMod 31), (17 : ZMod 31)] vs 2 (9 : ZMod 31) = .ok r ∧ r.1.x_i = (28 : ZMod 31)) ∧
    SaneLengths vs ∧
    verify_dlog_proofs_check_against_vss ⟨1, 2⟩ pfs [(3 : ZMod 31), (5 : ZMod 31)] vs = .ok () := by
  intro vs pfs
  refine ⟨⟨_, rfl, by decide +kernel⟩, ⟨_, _, rfl, by simp, by simp⟩, by decide +kernel⟩

/-- C12, C13: of three dealers the first two send wrong shares and have wrong proofs; the second is not
named. -/
example :
    let vs : List Vss := [⟨1, 3, [(3 : ZMod 31), (4 : ZMod 31)]⟩, ⟨1, 3, [(5 : ZMod 31), (6 : ZMod 31)]⟩,
      ⟨1, 3, [(1 : ZMod 31), (2 : ZMod 31)]⟩]
    let pf := DLogProof.prove (18 : ZMod 31) (7 : ZMod 31)
    (∃ e, Keys.phase2_verify_vss ⟨1, 3⟩ [(3 : ZMod 31), (5 : ZMod 31), (1 : ZMod 31)]
      [(0 : ZMod 31), (0 : ZMod 31), (5 : ZMod 31)] vs 2 (9 : ZMod 31) = .err e ∧ 1 ∉ e.bad_actors) ∧
    ∃ e, verify_dlog_proofs_check_against_vss ⟨1, 3⟩ [pf, pf, pf]
      [(3 : ZMod 31), (5 : ZMod 31), (1 : ZMod 31)] vs = .err e ∧ 1 ∉ e.bad_actors := by
  intro vs pf
  refine ⟨C12_later_offender_missing (by decide) _ _ vs 2 (9 : ZMod 31) rfl rfl rfl (by simp [vs]) (i := 0) (j := 1)
      (by decide) (by decide) ?_ ?_,
    C13_later_offender_missing (by decide) _ _ vs rfl rfl rfl ⟨_, _, rfl, by simp, by simp⟩ (i := 0) (j := 1)
      (by decide) (by decide) ?_ ?_⟩
  · rintro ⟨y, s, v, -, hs, hv, he, -⟩
    obtain rfl := Option.some.inj hs
    obtain rfl := Option.some.inj hv
    exact absurd he (by decide +kernel)
  · rintro ⟨y, s, v, -, hs, hv, he, -⟩
    obtain rfl := Option.some.inj hs
    obtain rfl := Option.some.inj hv
    exact absurd he (by decide +kernel)
  · rintro ⟨x, hx, -, he⟩
    obtain rfl := Option.some.inj hx
    exact absurd he (by decide +kernel)
  · rintro ⟨x, hx, -, he⟩
    obtain rfl := Option.some.inj hx
    exact absurd he (by decide +kernel)

/-- C13: a proof is missing. -/
example := C13_wrong_count ⟨1, 2⟩ [DLogProof.prove (18 : ZMod 31) (7 : ZMod 31)]
  [(3 : ZMod 31), (5 : ZMod 31)] [] (Or.inr (by decide))

/-- C17: one share of a degree-1 sharing. -/
example : ({2} : Finset ℕ).card = 1 ∧ ∀ i ∈ ({2} : Finset ℕ), 1 ≤ i ∧ i < EC.q := by decide

end

end Verif.Props
