import Verif.Lemmas.DemoChecks
import Verif.Props.GG18
import Verif.Props.Signature

/-!
# C76: what a GG18 demo client has checked before it stores a key or releases a partial signature
-/

namespace Verif.Props

open EC Crypto Spec Spec.GG18 GG18

section

variable [Crypto]

/-- **C76 (key generation).** Whatever the peers post: when the key generation client of party `i` writes
its key file, all the checks of `KeygenChecks` hold. -/
theorem C76_keygen (A : Aead) {t n i : ℕ} (ht : t < n) (h1 : 1 ≤ i) (h2 : i ≤ n)
    {rnd : ℕ → Demo.Keygen.Rand} {b : Demo.Keygen.Posted A} {file : Demo.Keygen.KeyFile}
    (h : Demo.Keygen.client A t n rnd i b = .ok file) :
    ∃ share, KeygenChecks A n i (rnd i) b share file := by
  obtain ⟨k, rfl⟩ : ∃ k, i = k + 1 := ⟨i - 1, by omega⟩
  exact Demo.Keygen.client_ok ht (by omega) h

/-- The share of the key file is the discrete logarithm of the public share that the polynomial commitments
in it determine, for every successful client. -/
theorem C76_share_matches (A : Aead) {t n i : ℕ} (ht : t < n) (h1 : 1 ≤ i) (h2 : i ≤ n)
    {rnd : ℕ → Demo.Keygen.Rand} {b : Demo.Keygen.Posted A} {file : Demo.Keygen.KeyFile}
    (h : Demo.Keygen.client A t n rnd i b = .ok file) :
    file.shared_keys.x_i • G = feldmanEval (((rnd i).u :: (rnd i).coefs).map (fun c => c • G)) (i : Sc) +
      ((peers i n).map (fun j => feldmanEval (b.b4 j).commitments (i : Sc))).sum := by
  obtain ⟨share, hc⟩ := C76_keygen A ht h1 h2 h
  rw [hc.secret, add_smul, feldmanEval_map]
  congr 1
  have hs : ∀ l : List ℕ, (∀ j ∈ l, feldmanEval (b.b4 j).commitments (i : Sc) = share j • G) →
      (l.map share).sum • G = (l.map (fun j => feldmanEval (b.b4 j).commitments (i : Sc))).sum := by
    intro l
    induction l with
    | nil => intro _; simp
    | cons a l ih =>
      intro hl
      simp only [List.map_cons, List.sum_cons, add_smul]
      rw [ih fun j hj => hl j (by simp [hj]), hl a (by simp)]
  exact hs _ fun j hj => (hc.shares j hj).1

/-- **C76 (signing).** Whatever the peers post: when the signing client number `i` posts its partial
signature, all the checks of `ReleaseChecks` hold, and the only thing it posts is that signature. -/
theorem C76_release {t i : ℕ} (h1 : 1 ≤ i) (h2 : i ≤ t + 1) {message : ℤ} {rnd : ℕ → Demo.Sign.Rand}
    {key : Demo.Keygen.KeyFile} {b : Demo.Sign.Posted} {st : Demo.Sign.St9} {out : List (Msg Sc)}
    (h : Demo.Sign.release t message rnd i key b = .ok (st, out)) :
    ∃ own6 own8 R, ReleaseChecks (t + 1) i key message (rnd i) b own6 own8 R st.s_i ∧
      out = [⟨i, none, st.s_i⟩] := by
  obtain ⟨k, rfl⟩ : ∃ k, i = k + 1 := ⟨i - 1, by omega⟩
  obtain ⟨own6, own8, R, hc, ho, -⟩ := Demo.Sign.release_ok (by omega) h
  exact ⟨own6, own8, R, hc, ho⟩

/-- **C76 (result).** A signature that the signing client outputs is valid for the message under the public
key of its key file, has low `s`, and was output after all the checks of `ReleaseChecks`; its `r` is the
x-coordinate of the nonce point. -/
theorem C76_result {t i : ℕ} (h1 : 1 ≤ i) (h2 : i ≤ t + 1) {message : ℤ} {rnd : ℕ → Demo.Sign.Rand}
    {key : Demo.Keygen.KeyFile} {b : Demo.Sign.Posted} {sig : GG18.SignatureRecid}
    (h : Demo.Sign.client t message rnd i key b = .ok sig) :
    EcdsaEq key.y_sum message sig.r sig.s ∧ LowS sig.s ∧
      ∃ own6 own8 R s x y, ReleaseChecks (t + 1) i key message (rnd i) b own6 own8 R s ∧
        coords R = some (x, y) ∧ sig.r = (x : Sc) ∧
        (sig.s = s + ((peers i (t + 1)).map b.b9).sum ∨ sig.s = -(s + ((peers i (t + 1)).map b.b9).sum)) := by
  obtain ⟨k, rfl⟩ : ∃ k, i = k + 1 := ⟨i - 1, by omega⟩
  have hk : k < t + 1 := by omega
  unfold Demo.Sign.client at h
  obtain ⟨⟨st, out⟩, hr, h⟩ := Res.bind_eq_ok.1 h
  obtain ⟨own6, own8, R, hc, -, hR, hy, hm, hs⟩ := Demo.Sign.release_ok hk hr
  unfold Demo.Sign.finish at h
  simp only [Demo.format_poll hk, Res.bind_ok, Nat.add_sub_cancel, Demo.vecRemove_fill hk] at h
  rw [Res.unwrap_eq_ok] at h
  obtain ⟨h3, h4, -, x, y, h5, h6⟩ := C03_gg18_output_valid _ _ _ h
  obtain ⟨-, he⟩ := (gg18_output_ok_iff _ _ h5 sig).1 h
  rw [hy, hm] at h3
  refine ⟨h3, h4, own6, own8, R, st.s_i, x, y, hc, hR ▸ h5, h6, ?_⟩
  rw [he, ← Demo.sum_poll, ← hs]
  exact normS_cases _

end

section examples

attribute [local instance] Toy.crypto

/-- A key generation client among honest peers meets the hypothesis of `C76_keygen`. -/
example : ∃ b file share, Demo.Keygen.client toyAead 1 3 toyKg 2 b = .ok file ∧
    KeygenChecks toyAead 3 2 (toyKg 2) b share file := by
  obtain ⟨b, hb⟩ := Demo.Keygen.client_honest toyAead (t := 1) (n := 3) (k := 1) (rnd := toyKg) (by decide)
    (fun k hk => toyKg_honest (by omega) (by omega)) (by decide)
  obtain ⟨share, hs⟩ := C76_keygen toyAead (t := 1) (n := 3) (i := 2) (by decide) (by decide) (by decide) hb
  exact ⟨b, _, share, hb, hs⟩

/-- A signing client among honest peers meets the hypotheses of `C76_release` and `C76_result`. -/
example : ∃ b sig, Demo.Sign.client 1 10 toyRoom 2 (Demo.Keygen.kFile 1 3 toyKg 0) b = .ok sig ∧
    ∃ own6 own8 R s x y, ReleaseChecks 2 2 (Demo.Keygen.kFile 1 3 toyKg 0) 10 (toyRoom 2) b own6 own8 R s ∧
        coords R = some (x, y) ∧ sig.r = (x : Sc) := by
  obtain ⟨x, dk, h, hx⟩ := toyRoom_room
  obtain ⟨b, sig, hb⟩ := Demo.Sign.client_honest h hx (by decide) 10 toyRoom_message (k := 1) (by decide)
  obtain ⟨-, -, own6, own8, R, s, x, y, h1, h2, h3, -⟩ := C76_result (t := 1) (i := 2) (by decide) (by decide) hb
  exact ⟨b, sig, hb, own6, own8, R, s, x, y, h1, h2, h3⟩

end examples

end Verif.Props
