import Verif.Model.Backup
import Verif.Spec.Backup
import Verif.Props.OneSource

/-!
# C118: encrypted backups of shares
-/

namespace Verif.Props

open EC Crypto Centipede Spec

section

variable [Crypto]

omit [Crypto] in
theorem assemble_segments [EC] (size num : ℕ) : ∀ v : ℕ,
    assemble ((List.range num).map (fun k : ℕ => ((v / 2 ^ (size * k) % 2 ^ size : ℕ) : Sc))) size =
      ((v % 2 ^ (size * num) : ℕ) : Sc) := by
  induction num with
  | zero => intro v; simp [assemble, Nat.mod_one]
  | succ n ih =>
    intro v
    have h := ih (v / 2 ^ size)
    unfold assemble at h ⊢
    rw [List.range_succ_eq_map, List.map_cons, List.foldr_cons, List.map_map]
    have e : ((fun k : ℕ => ((v / 2 ^ (size * k) % 2 ^ size : ℕ) : Sc)) ∘ Nat.succ) =
        (fun k : ℕ => ((v / 2 ^ size / 2 ^ (size * k) % 2 ^ size : ℕ) : Sc)) := by
      funext k
      simp only [Function.comp_apply]
      rw [Nat.div_div_eq_div_mul, ← pow_add, Nat.mul_succ, Nat.add_comm size]
    rw [e, h, Nat.mul_succ, Nat.add_comm (size * n), pow_add, Nat.mod_mul, Nat.mul_zero, pow_zero, Nat.div_one]
    push_cast
    rfl

omit [Crypto] in
theorem decryptSegment_encryptSegment [EC] (secret r y : Sc) (size k : ℕ) {g : Pt} (hg : g ≠ 0) :
    decryptSegment (encryptSegment secret r size k (y • g) g) g y size = some (segment secret size k) := by
  obtain ⟨a, rfl⟩ := gen g
  have ha : a ≠ 0 := fun h => hg (by rw [h, zero_smul])
  have e : r • y • (a • (G : Pt)) + segment secret size k • (a • G : Pt) - y • r • (a • G : Pt) =
      segment secret size k • (a • G : Pt) := by
    rw [smul_comm y r]; abel
  unfold decryptSegment encryptSegment
  simp only [e]
  cases hf : (List.range (2 ^ size)).find? (fun j : ℕ => decide ((j : Sc) • (a • G : Pt) =
      segment secret size k • (a • G : Pt))) with
  | none =>
    rw [List.find?_eq_none] at hf
    exact absurd (decide_eq_true rfl) (hf (secret.val / 2 ^ (size * k) % 2 ^ size)
      (List.mem_range.2 (Nat.mod_lt _ (by positivity))))
  | some j =>
    have := List.find?_some (p := fun j : ℕ => decide ((j : Sc) • (a • G : Pt) =
      segment secret size k • (a • G : Pt))) hf
    have := of_decide_eq_true this
    rw [smul_smul, smul_smul, smul_G_inj] at this
    rw [Option.map_some, mul_right_cancel₀ ha this]

theorem restored (secret y : Sc) {size num : ℕ} (hsz : q ≤ 2 ^ (size * num)) {g : Pt} (hg : g ≠ 0)
    (r : ℕ → Sc) : RestoredBy y g size (to_encrypted_segments secret size num (y • g) g r) secret := by
  have key : ∀ l : List ℕ, (l.map (fun k => encryptSegment secret (r k) size k (y • g) g)).mapM
      (fun c => decryptSegment c g y size) = some (l.map (segment secret size)) := by
    intro l
    induction l with
    | nil => rfl
    | cons k l ih =>
      rw [List.map_cons, List.mapM_cons, decryptSegment_encryptSegment _ _ _ _ _ hg, ih]
      rfl
  have hv : secret.val < 2 ^ (size * num) := lt_of_lt_of_le (ZMod.val_lt _) hsz
  unfold RestoredBy decrypt to_encrypted_segments
  dsimp only
  rw [key, Option.map_some]
  congr 1
  have := assemble_segments size num secret.val
  rw [Nat.mod_eq_of_lt hv, ZMod.natCast_zmod_val] at this
  exact this

/-- **C118** (the part that holds in all protocols). If the segments have room for a scalar, the holder of the
recovery key restores from a backup exactly the secret that the function backed up: for the n-party protocols
the summand `u_i`, for the two-party protocol the share. -/
theorem C118_restored (y : Sc) {size num : ℕ} (hsz : q ≤ 2 ^ (size * num)) {g : Pt} (hg : g ≠ 0) (r : ℕ → Sc)
    (p20 : GG20.PartyPrivate) (p18 : GG18.PartyPrivate) (p1 : Lindell17.Party1Private)
    (p2 : Lindell17.Party2Private) :
    RestoredBy y g size (p20.to_encrypted_segment size num (y • g) g r) p20.u_i ∧
    RestoredBy y g size (p18.to_encrypted_segment size num (y • g) g r) p18.u_i ∧
    RestoredBy y g size (p1.to_encrypted_segment size num (y • g) g r) p1.x1 ∧
    RestoredBy y g size (p2.to_encrypted_segment size num (y • g) g r) p2.x2 :=
  ⟨restored _ y hsz hg r, restored _ y hsz hg r, restored _ y hsz hg r, restored _ y hsz hg r⟩

/-- **C118** (Lindell17). The backups that the two parties make after key generation restore two values whose
product is the private key. -/
theorem C118_lindell (x1 x2 t1 t2 : Sc) (b1 b2 rp : ℤ) (dk : DecKey) (y : Sc) {size num : ℕ}
    (hsz : q ≤ 2 ^ (size * num)) {g : Pt} (hg : g ≠ 0) (r1 r2 : ℕ → Sc) :
    let o1 := Lindell17.create_commitments x1 t1 b1 b2
    let o2 := Lindell17.party2_create x2 t2
    let s1 := Lindell17.Party1Private.set_private_key o1.2.2 (Lindell17.PaillierKeyPair.generate dk o1.2.2 rp)
    let s2 := Lindell17.Party2Private.set_private_key o2.2
    ∃ a b : Sc, RestoredBy y g size (s1.to_encrypted_segment size num (y • g) g r1) a ∧
      RestoredBy y g size (s2.to_encrypted_segment size num (y • g) g r2) b ∧
      Lindell17.compute_pubkey s1 o2.1.public_share = (a * b) • G ∧
      Lindell17.party2_compute_pubkey o2.2 o1.2.1.public_share = (a * b) • G := by
  have h := C53_keygen x1 x2 t1 t2 b1 b2 rp dk
  dsimp only at h ⊢
  exact ⟨x1, x2, restored _ y hsz hg r1, restored _ y hsz hg r2, h.2.2.1, h.2.2.2⟩

/-- **C118, partial** (GG20). The backups of *all* parties restore values whose sum is the private key. -/
theorem C118_all_parties_partial {t n : ℕ} (ht : t < n) (hn : n < q) (rnd : ℕ → GG20.KeygenRandomness)
    (hon : ∀ k < n, GG20.Keygen.HonestRandomness t (rnd k)) (y : Sc) {size num : ℕ}
    (hsz : q ≤ 2 ^ (size * num)) {g : Pt} (hg : g ≠ 0) (r : ℕ → ℕ → Sc) :
    ∃ (keys : List GG20.LocalKey) (s : ℕ → Sc), GG20.Keygen.run t n rnd = .ok keys ∧ keys.length = n ∧
      ∀ k key, keys[k]? = some key →
        RestoredBy y g size ((gg20Holds rnd k key).to_encrypted_segment size num (y • g) g (r k)) (s k) ∧
        key.public_key = (∑ j ∈ Finset.range n, s j) • G := by
  obtain ⟨keys, d, x, pails, sts, hrun, hlen, hd, -, hk⟩ := C10_honest_keygen ht hn rnd hon
  exact ⟨keys, fun k => (rnd k).u, hrun, hlen, fun k key hkey =>
    ⟨restored _ y hsz hg _, hd ▸ (hk k key hkey).1⟩⟩

/-- **C118, partial** (GG18 demo): the same. -/
theorem C118_gg18_all_parties_partial (A : Aead) {t n : ℕ} (ht : t < n) (rnd : ℕ → Demo.Keygen.Rand) (hon : ∀ i, 1 ≤ i → i ≤ n → Spec.GG18.HonestKeygenRand t (rnd i)) (y : Sc)
    {size num : ℕ} (hsz : q ≤ 2 ^ (size * num)) {g : Pt} (hg : g ≠ 0) (r : ℕ → ℕ → Sc) :
    ∃ (files : List Demo.Keygen.KeyFile) (s : ℕ → Sc), Demo.Keygen.run A t n rnd = .ok files ∧
      files.length = n ∧ ∀ k file, files[k]? = some file →
        RestoredBy y g size ((gg18Holds file).to_encrypted_segment size num (y • g) g (r k)) (s k) ∧
        file.y_sum = (∑ j ∈ Finset.range n, s j) • G := by
  have hon' : ∀ k < n, Spec.GG18.HonestKeygenRand t (rnd (k + 1)) := fun k hk => hon _ (by omega) (by omega)
  refine ⟨_, fun k => (rnd (k + 1)).u, Demo.Keygen.run_eq A ht hon', by simp, fun k file hfile => ?_⟩
  obtain ⟨hk, rfl⟩ := List.getElem?_eq_some_iff.1 hfile
  simp only [List.getElem_map, List.getElem_range]
  exact ⟨restored _ y hsz hg _, Demo.Keygen.kY_sum n rnd⟩

/-- **C118, violation** (GG20). The backups of fewer parties do not determine the key, however many are needed
to sign: fix a session and a party `i + 1`.  For every public key `Y` but one there is another session with
that public key, in which every other party makes the very same backup (for the same recovery key and random
values).  If `Y` is not the key of the first session, the signing share of every party is another one, although
its own backup is the same. -/
theorem C118_backups_insufficient {t n i : ℕ} (ht : t < n) (hi : i < n)
    (rnd : ℕ → GG20.KeygenRandomness) (hon : ∀ k < n, GG20.Keygen.HonestRandomness t (rnd k)) (Y : Pt)
    (hY : Y ≠ (∑ k ∈ (Finset.range n).erase i, (rnd k).u) • (G : Pt)) :
    ∃ (rnd' : ℕ → GG20.KeygenRandomness) (keys keys' : List GG20.LocalKey),
      GG20.Keygen.run t n rnd = .ok keys ∧ GG20.Keygen.run t n rnd' = .ok keys' ∧
      (∀ k < n, GG20.Keygen.HonestRandomness t (rnd' k)) ∧ (rnd' i).u ≠ 0 ∧
      keys.length = n ∧ keys'.length = n ∧
      ∀ (k : ℕ) (key key' : GG20.LocalKey), keys[k]? = some key → keys'[k]? = some key' →
        key'.public_key = Y ∧
        (k ≠ i → ∀ (size num : ℕ) (pub g : Pt) (r : ℕ → Sc),
          (gg20Holds rnd' k key').to_encrypted_segment size num pub g r =
            (gg20Holds rnd k key).to_encrypted_segment size num pub g r) ∧
        (key.public_key ≠ Y → (gg20Holds rnd' k key').x_i ≠ (gg20Holds rnd k key).x_i) := by
  obtain ⟨c, rfl⟩ := gen Y
  set S := ∑ k ∈ (Finset.range n).erase i, (rnd k).u with hS
  have hcS : ∀ u : Sc, ∑ k ∈ Finset.range n, (Function.update rnd i { rnd i with u := u } k).u = u + S := by
    intro u
    rw [sum_update hi (fun k => (Function.update rnd i { rnd i with u := u } k).u) (fun k => (rnd k).u)
      (fun j _ hj => by simp only [Function.update_of_ne hj])]
    simp only [Function.update_self, hS]
  have hold : ∑ k ∈ Finset.range n, (rnd k).u = (rnd i).u + S :=
    sum_update hi (fun k => (rnd k).u) (fun k => (rnd k).u) (fun _ _ _ => rfl)
  have hon' : ∀ k < n, GG20.Keygen.HonestRandomness t
      (Function.update rnd i { rnd i with u := c - S } k) := fun k hk => by
    by_cases h : k = i
    · subst h
      rw [Function.update_self]
      exact ⟨(hon _ hk).dk_valid, (hon _ hk).dk_large, (hon _ hk).dk_size, (hon _ hk).aux_gen,
        (hon _ hk).coefs_len⟩
    · rw [Function.update_of_ne h]; exact hon k hk
  refine ⟨_, _, _, GG20.Keygen.run_eq ht hon, GG20.Keygen.run_eq ht hon', hon',
    (by rw [Function.update_self]; exact sub_ne_zero.2 fun h => hY (by rw [h])), by simp, by simp,
    fun k key key' hk hk' => ?_⟩
  obtain ⟨hkn, rfl⟩ := List.getElem?_eq_some_iff.1 hk
  obtain ⟨-, rfl⟩ := List.getElem?_eq_some_iff.1 hk'
  have hkn : k < n := by simpa using hkn
  simp only [List.getElem_map, List.getElem_range]
  have hpk : ∀ rnd : ℕ → GG20.KeygenRandomness, (GG20.Keygen.rKey t n rnd k).public_key =
      (∑ k ∈ Finset.range n, (rnd k).u) • (G : Pt) := fun rnd => by
    show ((List.range n).map (fun j => (rnd j).u • (G : Pt))).sum = _
    rw [sum_map_range_eq, Finset.sum_smul]
  refine ⟨by rw [hpk, hcS, sub_add_cancel], fun hki size num pub g r => ?_, fun hne => ?_⟩
  · show to_encrypted_segments (Function.update rnd i { rnd i with u := c - S } k).u size num pub g r =
      to_encrypted_segments (rnd k).u size num pub g r
    rw [Function.update_of_ne hki]
  · rw [hpk, hold, ne_eq, smul_G_inj] at hne
    show GG20.Keygen.rX n _ k ≠ GG20.Keygen.rX n rnd k
    unfold GG20.Keygen.rX
    rw [sum_map_range_eq, sum_map_range_eq,
      sum_update hi (fun j => GG20.Keygen.rShare (Function.update rnd i { rnd i with u := c - S }) j k)
        (fun j => GG20.Keygen.rShare rnd j k)
        (fun j _ hj => by simp only [GG20.Keygen.rShare, Function.update_of_ne hj]),
      sum_update hi (fun j => GG20.Keygen.rShare rnd j k) (fun j => GG20.Keygen.rShare rnd j k)
        (fun _ _ _ => rfl)]
    simp only [GG20.Keygen.rShare, Function.update_self, evalPoly, List.foldr_cons]
    intro h
    exact hne (by linear_combination -h)

/-- **C118, violation** (GG18 demo): the same. -/
theorem C118_gg18_backups_insufficient (A : Aead) {t n i : ℕ} (ht : t < n) (hi : i < n)
    (rnd : ℕ → Demo.Keygen.Rand) (hon : ∀ i, 1 ≤ i → i ≤ n → Spec.GG18.HonestKeygenRand t (rnd i)) (Y : Pt)
    (hY : Y ≠ (∑ k ∈ (Finset.range n).erase i, (rnd (k + 1)).u) • (G : Pt)) :
    ∃ (rnd' : ℕ → Demo.Keygen.Rand) (files files' : List Demo.Keygen.KeyFile),
      Demo.Keygen.run A t n rnd = .ok files ∧ Demo.Keygen.run A t n rnd' = .ok files' ∧
      (∀ i, 1 ≤ i → i ≤ n → Spec.GG18.HonestKeygenRand t (rnd' i)) ∧
      files.length = n ∧ files'.length = n ∧
      ∀ (k : ℕ) (file file' : Demo.Keygen.KeyFile), files[k]? = some file → files'[k]? = some file' →
        file'.y_sum = Y ∧
        (k ≠ i → ∀ (size num : ℕ) (pub g : Pt) (r : ℕ → Sc),
          (gg18Holds file').to_encrypted_segment size num pub g r =
            (gg18Holds file).to_encrypted_segment size num pub g r) ∧
        (file.y_sum ≠ Y → (gg18Holds file').x_i ≠ (gg18Holds file).x_i) := by
  obtain ⟨c, rfl⟩ := gen Y
  set S := ∑ k ∈ (Finset.range n).erase i, (rnd (k + 1)).u with hS
  set rnd' := Function.update rnd (i + 1) { rnd (i + 1) with u := c - S } with hr
  have hself : (rnd' (i + 1)).u = c - S := by rw [hr, Function.update_self]
  have hcoef : (rnd' (i + 1)).coefs = (rnd (i + 1)).coefs := by rw [hr, Function.update_self]
  have hof : ∀ k, k ≠ i → rnd' (k + 1) = rnd (k + 1) := fun k hk => by
    rw [hr, Function.update_of_ne (by omega)]
  have hcS : ∑ k ∈ Finset.range n, (rnd' (k + 1)).u = c := by
    rw [sum_update hi (fun k => (rnd' (k + 1)).u) (fun k => (rnd (k + 1)).u)
      (fun j _ hj => by rw [hof j hj])]
    rw [hself, ← hS, sub_add_cancel]
  have hold : ∑ k ∈ Finset.range n, (rnd (k + 1)).u = (rnd (i + 1)).u + S :=
    sum_update hi (fun k => (rnd (k + 1)).u) (fun k => (rnd (k + 1)).u) (fun _ _ _ => rfl)
  have hon1 : ∀ k < n, Spec.GG18.HonestKeygenRand t (rnd (k + 1)) := fun k hk => hon _ (by omega) (by omega)
  have hon' : ∀ k < n, Spec.GG18.HonestKeygenRand t (rnd' (k + 1)) := fun k hk => by
    by_cases h : k = i
    · subst h
      rw [hr, Function.update_self]
      exact ⟨sub_ne_zero.2 fun h => hY (by rw [h]), (hon1 _ hk).dk_valid, (hon1 _ hk).dk_large,
        (hon1 _ hk).coefs_len⟩
    · rw [hof k h]; exact hon1 k hk
  refine ⟨rnd', _, _, Demo.Keygen.run_eq A ht hon1, Demo.Keygen.run_eq A ht hon',
    (fun j h1 hj => by obtain ⟨k, rfl⟩ := Nat.exists_eq_add_of_le' h1; exact hon' k (by omega)), by simp, by simp,
    fun k file file' hk hk' => ?_⟩
  obtain ⟨hkn, rfl⟩ := List.getElem?_eq_some_iff.1 hk
  obtain ⟨-, rfl⟩ := List.getElem?_eq_some_iff.1 hk'
  simp only [List.getElem_map, List.getElem_range]
  have hpk : ∀ rnd : ℕ → Demo.Keygen.Rand, (Demo.Keygen.kFile t n rnd k).y_sum =
      (∑ k ∈ Finset.range n, (rnd (k + 1)).u) • (G : Pt) := fun rnd => Demo.Keygen.kY_sum n rnd
  refine ⟨by rw [hpk, hcS], fun hki size num pub g r => ?_, fun hne => ?_⟩
  · show to_encrypted_segments (rnd' (k + 1)).u size num pub g r =
      to_encrypted_segments (rnd (k + 1)).u size num pub g r
    rw [hof k hki]
  · rw [hpk, hold, ne_eq, smul_G_inj] at hne
    show Demo.Keygen.kX n rnd' k ≠ Demo.Keygen.kX n rnd k
    unfold Demo.Keygen.kX
    rw [sum_map_range_eq, sum_map_range_eq,
      sum_update hi (fun j => Demo.Keygen.kShare rnd' j k) (fun j => Demo.Keygen.kShare rnd j k)
        (fun j _ hj => by simp only [Demo.Keygen.kShare, hof j hj]),
      sum_update hi (fun j => Demo.Keygen.kShare rnd j k) (fun j => Demo.Keygen.kShare rnd j k)
        (fun _ _ _ => rfl)]
    simp only [Demo.Keygen.kShare, hself, hcoef, evalPoly, List.foldr_cons]
    intro h
    exact hne (by linear_combination -h)

/-- **C36** (`PartyPrivate::decrypt`). A party decrypts what was encrypted under the Paillier key that it
announced in key generation. -/
theorem C36_party_decrypt {m r : ℤ} (p20 : GG20.PartyPrivate) (p18 : GG18.PartyPrivate)
    (h20 : p20.dk.Valid) (h18 : p18.dk.Valid) (hr20 : Int.gcd r p20.dk.n = 1) (hr18 : Int.gcd r p18.dk.n = 1) :
    p20.decrypt (Paillier.encrypt p20.dk.n m r) = some (m % p20.dk.n) ∧
    p18.decrypt (Paillier.encrypt p18.dk.n m r) = some (m % p18.dk.n) :=
  ⟨Paillier.decrypt_spec h20 (Paillier.isEnc_encrypt _ _ _) hr20,
   Paillier.decrypt_spec h18 (Paillier.isEnc_encrypt _ _ _) hr18⟩

end

section examples

attribute [local instance] Toy.crypto

/-- C118: a backup in three segments of two bits, restored with the recovery key. -/
example : RestoredBy (9 : ZMod 31) (4 : ZMod 31) 2
    (GG18.PartyPrivate.to_encrypted_segment ⟨(27 : ZMod 31), (3 : ZMod 31), toyKey⟩ 2 3 ((9 : ZMod 31) * 4)
      (4 : ZMod 31) (fun k => (k + 5 : ZMod 31))) (27 : ZMod 31) := by
  unfold RestoredBy; decide +kernel

example := C118_restored (9 : ZMod 31) (size := 2) (num := 3) (by decide) (g := (4 : ZMod 31)) (by decide)
  (fun k => (k + 5 : ZMod 31))
example := C118_lindell (3 : ZMod 31) (4 : ZMod 31) (5 : ZMod 31) (6 : ZMod 31) 1 2 3 toyKey (9 : ZMod 31) (size := 2)
  (num := 3) (by decide) (g := (4 : ZMod 31)) (by decide)
example := C118_gg18_all_parties_partial toyAead (t := 1) (n := 3) (by decide) toyKg
  (fun _ => toyKg_honest) (9 : ZMod 31) (size := 2) (num := 3) (by decide) (g := (4 : ZMod 31)) (by decide)
/-- C118: the session of C16 has the key 6; with the same backups of parties one and two it could be 9. -/
example := C118_gg18_backups_insufficient toyAead (t := 1) (n := 3) (i := 2) (by decide) (by decide)
  toyKg (fun _ => toyKg_honest) (9 : ZMod 31) (by decide +kernel)

/-- C118: key generation among three parties with arbitrary secrets; the backups of parties one and three are
those of a session with any other key `Y`. -/
example [Crypto] (h : 3 < q) (u : ℕ → Sc) (a : Sc) (y : Sc) {g : Pt} (hg : g ≠ 0) : ∃ rnd : ℕ → GG20.KeygenRandomness,
    (∀ k, (rnd k).u = u k) ∧
    (∃ (keys : List GG20.LocalKey) (s : ℕ → Sc), GG20.Keygen.run 1 3 rnd = .ok keys ∧ keys.length = 3 ∧
      ∀ k key, keys[k]? = some key →
        RestoredBy y g q ((gg20Holds rnd k key).to_encrypted_segment q 1 (y • g) g (fun _ => 5)) (s k) ∧
        key.public_key = (∑ j ∈ Finset.range 3, s j) • G) ∧
    ∀ Y : Pt, Y ≠ (∑ k ∈ (Finset.range 3).erase 1, (rnd k).u) • (G : Pt) →
      ∃ (rnd' : ℕ → GG20.KeygenRandomness) (keys' : List GG20.LocalKey), GG20.Keygen.run 1 3 rnd' = .ok keys' ∧
        keys'.length = 3 ∧ ∀ key' ∈ keys', key'.public_key = Y := by
  have hon := fun k => (honestRandomness_exists 1 (u k) [a] rfl).choose_spec.1
  refine ⟨fun k => (honestRandomness_exists 1 (u k) [a] rfl).choose,
    fun k => (honestRandomness_exists 1 (u k) [a] rfl).choose_spec.2.1,
    C118_all_parties_partial (by decide) h _ (fun k _ => hon k) y (by simpa using Nat.lt_two_pow_self.le) hg
      (fun _ _ => 5), fun Y hY => ?_⟩
  obtain ⟨rnd', keys, keys', -, h2, -, -, h5, h6, h7⟩ :=
    C118_backups_insufficient (by decide) (by decide : 1 < 3) _ (fun k _ => hon k) Y hY
  refine ⟨rnd', keys', h2, h6, fun key' hk => ?_⟩
  obtain ⟨k, hk1, rfl⟩ := List.getElem_of_mem hk
  exact (h7 k (keys[k]'(by omega)) _ (List.getElem?_eq_getElem _) (List.getElem?_eq_getElem _)).1

end examples

end Verif.Props
