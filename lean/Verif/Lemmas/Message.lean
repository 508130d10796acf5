import Verif.Lemmas.DemoChecks
import Verif.Model.Demo.GG18Message
import Verif.Spec.Ecdsa

/-! # Lemmas on messages, the final check and the pairwise keys of the GG18 demo -/

namespace Verif

open EC Spec

section

variable [EC]

theorem LibSecp.sigVerify_iff (hpq : p < 2 * q) {r s m : Sc} {pk : Pt} :
    LibSecp.sigVerify r s pk m = true ↔
      r ≠ 0 ∧ s ≠ 0 ∧ ∃ x y, coords ((m / s) • G + (r / s) • pk) = some (x, y) ∧ (x : Sc) = r := by
  unfold LibSecp.sigVerify
  by_cases h0 : r = 0 ∨ s = 0
  · rw [if_pos h0]
    refine iff_of_false (by decide) fun ⟨h1, h2, _⟩ => h0.elim h1 h2
  · rw [if_neg h0]
    push Not at h0
    rw [div_eq_mul_inv, div_eq_mul_inv]
    cases hc : coords ((m * s⁻¹) • G + (r * s⁻¹) • pk) with
    | none => simp
    | some xy =>
      obtain ⟨x, y⟩ := xy
      have hx := (coords_lt _ _ _ hc).1
      simp only [Bool.or_eq_true, decide_eq_true_eq, Bool.and_eq_true, Option.some.injEq, Prod.mk.injEq]
      have hrv : ((r.val : ℕ) : Sc) = r := ZMod.natCast_zmod_val r
      constructor
      · intro h
        refine ⟨h0.1, h0.2, x, y, ⟨rfl, rfl⟩, ?_⟩
        rcases h with rfl | ⟨-, rfl⟩
        · exact hrv
        · rw [Nat.cast_add, hrv, ZMod.natCast_self, add_zero]
      · rintro ⟨-, -, x', y', ⟨rfl, rfl⟩, h⟩
        have hv : r.val = x % q := by rw [← h, ZMod.val_natCast]
        have := Nat.div_add_mod x q
        have hlt : x / q < 2 := by
          rw [Nat.div_lt_iff_lt_mul q_pos]; omega
        rw [hv]
        interval_cases hd : x / q
        · left; omega
        · right; omega

theorem LibSecp.verify_iff (hpq : p < 2 * q) {msg : List UInt8} {r s : Sc} {pk : Pt} :
    LibSecp.verify msg (r, s) pk = true ↔
      r ≠ 0 ∧ LowS s ∧ EcdsaEq pk (fromBytes msg : ℕ) r s := by
  unfold LibSecp.verify LowS EcdsaEq
  have hq := q_odd
  rw [Bool.and_eq_true, decide_eq_true_eq, LibSecp.sigVerify_iff hpq, Int.cast_natCast,
    show q / 2 = (q - 1) / 2 by omega]
  tauto

theorem Demo.uncompressed_length (P : Pt) :
    (Demo.uncompressed P).length = if P = 0 then 1 else 65 := by
  unfold Demo.uncompressed
  cases hc : coords P with
  | none => rw [if_pos ((coords_eq_none P).1 hc)]; rfl
  | some xy =>
    rw [if_neg (fun h => by rw [(coords_eq_none P).2 h] at hc; cases hc)]
    simp [beBytes_length]

theorem Demo.parse_uncompressed (L : LibSecp.Lib) (P : Pt) :
    L.parsePk (Demo.uncompressed P) = if P = 0 then none else some P := by
  by_cases h : P = 0
  · rw [if_pos h]
    cases hp : L.parsePk (Demo.uncompressed P) with
    | none => rfl
    | some Q =>
      have := L.parse_length _ _ hp
      rw [Demo.uncompressed_length, if_pos h] at this
      omega
  · obtain ⟨x, y, hc⟩ := exists_coords h
    rw [if_neg h, Demo.uncompressed, hc]
    exact L.parse_uncompressed _ _ _ hc

theorem LibSecp.signatureFromCompact_sc (hq : q ≤ 2 ^ 256) (r s : Sc) :
    LibSecp.signatureFromCompact (beBytes 32 r.val ++ beBytes 32 s.val) = some (r, s) := by
  have hr := ZMod.val_lt r
  have hs := ZMod.val_lt s
  have e : ∀ c : Sc, fromBytes (beBytes 32 c.val) = c.val := fun c =>
    fromBytes_beBytes (lt_of_lt_of_le (ZMod.val_lt c) hq)
  unfold LibSecp.signatureFromCompact
  have ht : (beBytes 32 r.val ++ beBytes 32 s.val).take 32 = beBytes 32 r.val :=
    List.take_left' (beBytes_length _ _)
  have hd : (beBytes 32 r.val ++ beBytes 32 s.val).drop 32 = beBytes 32 s.val :=
    List.drop_left' (beBytes_length _ _)
  rw [if_pos (by rw [List.length_append, beBytes_length, beBytes_length])]
  simp only [ht, hd, e, if_pos (And.intro hr hs), ZMod.natCast_zmod_val]

omit [EC] in
theorem pad32_beBytes {ε : Type} (n : ℕ) :
    (pad32 (beBytes 32 n) : Res ε (List UInt8)) = .ok (beBytes 32 n) := by
  unfold pad32
  rw [beBytes_length, if_pos le_rfl, Nat.sub_self, List.replicate_zero, List.nil_append]

/-- What the final check decides. -/
theorem Demo.check_sig_cases (hpq : p < 2 * q) (hq : q ≤ 2 ^ 256) (L : LibSecp.Lib) (r s : Sc)
    (msg : ℤ) (pk : Pt) :
    Demo.check_sig L r s msg pk = .panic ∨
      (Demo.check_sig L r s msg pk = .ok () ∧ msg.natAbs < 2 ^ 256 ∧ pk ≠ 0 ∧ r ≠ 0 ∧ LowS s ∧
        EcdsaEq pk msg.natAbs r s) := by
  unfold Demo.check_sig
  by_cases hm : msg.natAbs < 2 ^ 256
  · obtain ⟨bs, hbs, hl, hv⟩ := pad32_toBytes (ε := Empty) hm
    rw [hbs, Res.bind_ok, LibSecp.messageFromSlice, if_pos hl, Res.ofOption_some, Res.bind_ok]
    simp only
    rw [if_neg (by rw [Demo.uncompressed_length]; split <;> decide), Demo.parse_uncompressed]
    by_cases h0 : pk = 0
    · rw [if_pos h0]; exact Or.inl rfl
    · rw [if_neg h0, Res.ofOption_some, Res.bind_ok, pad32_beBytes, Res.bind_ok, pad32_beBytes,
        Res.bind_ok, LibSecp.signatureFromCompact_sc hq, Res.ofOption_some, Res.bind_ok]
      cases hver : LibSecp.verify bs (r, s) pk with
      | false => exact Or.inl rfl
      | true =>
        rw [LibSecp.verify_iff hpq, hv] at hver
        exact Or.inr ⟨rfl, hm, h0, hver⟩
  · rw [(pad32_panic (ε := Empty)).2 (by omega)]
    exact Or.inl rfl

theorem Demo.check_sig_ok (hpq : p < 2 * q) (hq : q ≤ 2 ^ 256) (L : LibSecp.Lib) {r s : Sc}
    {msg : ℤ} {pk : Pt} (hm : msg.natAbs < 2 ^ 256) (h0 : pk ≠ 0) (hr : r ≠ 0) (hs : LowS s)
    (he : EcdsaEq pk msg.natAbs r s) : Demo.check_sig L r s msg pk = .ok () := by
  unfold Demo.check_sig
  obtain ⟨bs, hbs, hl, hv⟩ := pad32_toBytes (ε := Empty) hm
  rw [hbs, Res.bind_ok, LibSecp.messageFromSlice, if_pos hl, Res.ofOption_some, Res.bind_ok]
  simp only
  rw [if_neg (by rw [Demo.uncompressed_length]; split <;> decide), Demo.parse_uncompressed,
    if_neg h0, Res.ofOption_some, Res.bind_ok, pad32_beBytes, Res.bind_ok, pad32_beBytes,
    Res.bind_ok, LibSecp.signatureFromCompact_sc hq, Res.ofOption_some, Res.bind_ok,
    (LibSecp.verify_iff hpq).2 ⟨hr, hs, hv ▸ he⟩]
  rfl

end

/-! ### Pairwise keys -/

section

variable [Crypto]

open Demo.Keygen Demo

theorem Demo.Keygen.encKey_spec {u : Sc} {d : GG18.KeyGenDecommitMessage1} :
    (u • d.y_i = 0 ∧ encKey u d = .panic) ∨
      ∃ x key, xc (u • d.y_i) = some x ∧ encKey u d = .ok key ∧ key.length = 32 ∧ fromBytes key = x := by
  by_cases h : u • d.y_i = 0
  · left
    refine ⟨h, ?_⟩
    unfold encKey
    rw [xc_eq_none.2 h]
    rfl
  · right
    obtain ⟨x, y, hc⟩ := exists_coords h
    have hx : xc (u • d.y_i) = some x := by rw [xc, hc]; rfl
    obtain ⟨bs, hbs, hl, hv⟩ := pad32_toBytes (ε := Empty) (n := (x : ℤ))
      (lt_trans (coords_lt _ _ _ hc).1 p_lt)
    refine ⟨x, bs, hx, ?_, hl, by rw [hv, Int.natAbs_natCast]⟩
    unfold encKey
    rw [hx, Res.ofOption_some, Res.bind_ok, hbs]

theorem Demo.Keygen.encShares_ok {A : Aead} {num : ℕ} {keys : List (List UInt8)} {shares : List Sc}
    {nonce : ℕ → ℕ} : ∀ {is : List ℕ} {c : ℕ} {out : List (Msg A.Ct)},
      encShares A num keys shares nonce is c = .ok out →
      out.map (·.receiver) = (is.filter (fun i => decide (i ≠ num))).map some ∧
      ∀ pos i, (is.filter (fun i => decide (i ≠ num)))[pos]? = some i →
        ∃ key share, keys[c + pos]? = some key ∧ shares[i - 1]? = some share ∧
          out[pos]? = some ⟨num, some i, A.enc key (toBytes share.val) (nonce i)⟩
  | [], c, out, h => by
    rw [encShares] at h
    injection h with h
    subst h
    exact ⟨rfl, fun pos i hp => by simp at hp⟩
  | a :: is, c, out, h => by
    rw [encShares] at h
    by_cases ha : a = num
    · rw [if_pos ha] at h
      rw [List.filter_cons_of_neg (by simpa using ha)]
      exact encShares_ok h
    · rw [if_neg ha] at h
      rw [List.filter_cons_of_pos (by simpa using ha)]
      obtain ⟨key, hk, h⟩ := Res.bind_eq_ok.1 h
      obtain ⟨share, hs, h⟩ := Res.bind_eq_ok.1 h
      obtain ⟨rest, hr, h⟩ := Res.bind_eq_ok.1 h
      injection h with h
      subst h
      rw [Res.get_eq_ok] at hk hs
      obtain ⟨h1, h2⟩ := encShares_ok hr
      refine ⟨by rw [List.map_cons, List.map_cons, h1], fun pos i hp => ?_⟩
      cases pos with
      | zero =>
        have : a = i := by simpa using hp
        subst this
        exact ⟨key, share, hk, hs, rfl⟩
      | succ pos =>
        obtain ⟨key', share', e1, e2, e3⟩ := h2 pos i (by simpa using hp)
        exact ⟨key', share', by rw [← e1]; congr 1; omega, e2, by simpa using e3⟩

end

end Verif
