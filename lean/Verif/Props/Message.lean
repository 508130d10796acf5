import Verif.Lemmas.Message
import Verif.Spec.Message
import Verif.Props.GG18Clients
import Verif.Secp256k1.Instance

/-!
# The message of the demos, the final check, and the pairwise keys (C81, C82, C83)
-/

namespace Verif.Props

open EC Crypto Spec

/-! ### C81: the final check -/

section

variable [EC]

/-- **C81 (what the check decides).** The final check accepts exactly if the message fits in 32 bytes, the
public key is a finite point, and the signature is a valid ECDSA signature with nonzero `r` and low `s`;
otherwise it panics. -/
theorem C81_check_iff (hpq : p < 2 * q) (hq : q ≤ 2 ^ 256) (L : LibSecp.Lib) (r s : Sc) (m : ℕ) (Y : Pt) :
    (Demo.check_sig L r s m Y = .ok () ↔
      m < 2 ^ 256 ∧ Y ≠ 0 ∧ r ≠ 0 ∧ LowS s ∧ EcdsaEq Y m r s) ∧
    (Demo.check_sig L r s m Y ≠ .ok () → Demo.check_sig L r s m Y = .panic) := by
  rcases Demo.check_sig_cases hpq hq L r s m Y with h | ⟨h, h1⟩
  · refine ⟨⟨fun h' => (by rw [h] at h'; cases h'), fun ⟨h1, h2, h3, h4, h5⟩ => ?_⟩, fun _ => h⟩
    exact Demo.check_sig_ok hpq hq L (by simpa using h1) h2 h3 h4 (by simpa using h5)
  · refine ⟨⟨fun _ => ?_, fun _ => h⟩, fun h' => absurd h h'⟩
    simpa using h1

end

section

variable [Crypto]

/-- **C81 (soundness).** Whatever the peers post: a signature that the GG18 signing client writes to the
`signature` file is a valid ECDSA signature, with nonzero `r` and low `s`, for the message of its argument
under the public key of its key file, which is a finite point. -/
theorem C81_written_signature_valid (hpq : p < 2 * q) (hq : q ≤ 2 ^ 256) (L : LibSecp.Lib) {t i : ℕ}
    {str : List UInt8} {rnd : ℕ → Demo.Sign.Rand} {key : Demo.Keygen.KeyFile} {b : Demo.Sign.Posted}
    {sig : GG18.SignatureRecid} (h : Demo.Sign.main L t str rnd i key b = .ok sig) :
    EcdsaEq key.y_sum (Demo.gg18Message str) sig.r sig.s ∧ LowS sig.s ∧ sig.r ≠ 0 ∧ key.y_sum ≠ 0 ∧
      Demo.Sign.client t (Demo.gg18Message str) rnd i key b = .ok sig := by
  unfold Demo.Sign.main at h
  obtain ⟨sig', hc, h⟩ := Res.bind_eq_ok.1 h
  obtain ⟨u, hk, h⟩ := Res.bind_eq_ok.1 h
  injection h with h
  subst h
  obtain ⟨-, h2, h3, h4, h5⟩ := (C81_check_iff hpq hq L _ _ _ _).1.1 hk
  exact ⟨h5, h4, h3, h2, hc⟩

/-- **C81, the part that holds.** The final check lets every signature through that the protocol produced,
provided the message fits in 32 bytes, `r` is not zero and the public key is a finite point. -/
theorem C81_signature_written_partial (hpq : p < 2 * q) (hq : q ≤ 2 ^ 256) (L : LibSecp.Lib) {t i : ℕ}
    (h1 : 1 ≤ i) (h2 : i ≤ t + 1) {str : List UInt8} {rnd : ℕ → Demo.Sign.Rand}
    {key : Demo.Keygen.KeyFile} {b : Demo.Sign.Posted} {sig : GG18.SignatureRecid}
    (h : Demo.Sign.client t (Demo.gg18Message str) rnd i key b = .ok sig)
    (hm : Demo.gg18Message str < 2 ^ 256) (hr : sig.r ≠ 0) (hY : key.y_sum ≠ 0) :
    Demo.Sign.main L t str rnd i key b = .ok sig := by
  obtain ⟨h3, h4, -⟩ := C76_result h1 h2 h
  unfold Demo.Sign.main
  rw [h, Res.bind_ok]
  have hc : Demo.check_sig L sig.r sig.s (Demo.gg18Message str) key.y_sum = .ok () :=
    (C81_check_iff hpq hq L _ _ _ _).1.2 ⟨by unfold Demo.gg18Message at hm; exact_mod_cast hm, hY, hr, h4, h3⟩
  rw [hc, Res.bind_ok]

/-- **C81 is violated**: when the message has more than 32 bytes (and no leading zeros), the client panics in
its final check, after it released its partial signature and although the protocol produced a valid
signature; the same happens for `r = 0`. -/
theorem C81_signature_lost (hpq : p < 2 * q) (hq : q ≤ 2 ^ 256) (L : LibSecp.Lib) {t i : ℕ}
    (h1 : 1 ≤ i) (h2 : i ≤ t + 1) {str : List UInt8} {rnd : ℕ → Demo.Sign.Rand}
    {key : Demo.Keygen.KeyFile} {b : Demo.Sign.Posted} {sig : GG18.SignatureRecid}
    (h : Demo.Sign.client t (Demo.gg18Message str) rnd i key b = .ok sig)
    (hbad : 2 ^ 256 ≤ Demo.gg18Message str ∨ sig.r = 0) :
    Demo.Sign.main L t str rnd i key b = .panic ∧
      EcdsaEq key.y_sum (Demo.gg18Message str) sig.r sig.s ∧ LowS sig.s := by
  obtain ⟨h3, h4, -⟩ := C76_result h1 h2 h
  refine ⟨?_, h3, h4⟩
  have hc := C81_check_iff hpq hq L sig.r sig.s (fromBytes (Demo.gg18MessageBytes str)) key.y_sum
  have hp : Demo.check_sig L sig.r sig.s (Demo.gg18Message str) key.y_sum = .panic := by
    refine hc.2 fun hok => ?_
    obtain ⟨e1, -, e2, -⟩ := hc.1.1 hok
    rcases hbad with hb | hb
    · unfold Demo.gg18Message at hb
      have : 2 ^ 256 ≤ fromBytes (Demo.gg18MessageBytes str) := by exact_mod_cast hb
      omega
    · exact e2 hb
  unfold Demo.Sign.main
  rw [h, Res.bind_ok, hp]
  rfl

end

/-! ### C82: data and messages -/

/-- A byte string without a leading zero byte is determined by the number it stands for. -/
theorem fromBytes_inj_of_head {a b : List UInt8} (ha : a.head? ≠ some 0) (hb : b.head? ≠ some 0)
    (h : fromBytes a = fromBytes b) : a = b := by
  have key : ∀ {c d : List UInt8}, d.head? ≠ some 0 → fromBytes c = fromBytes d → d.length ≤ c.length := by
    intro c d hd hcd
    cases d with
    | nil => exact Nat.zero_le _
    | cons x d =>
      have hx : x.toNat ≠ 0 := fun h0 => hd (by
        rw [List.head?_cons]; exact congrArg some (UInt8.toNat_inj.1 h0))
      have h1 := fromBytes_lt c
      rw [hcd, fromBytes_cons] at h1
      have h2 : 256 ^ d.length ≤ x.toNat * 256 ^ d.length := Nat.le_mul_of_pos_left _ (by omega)
      have h3 : 256 ^ d.length < 256 ^ c.length := by omega
      have := (Nat.pow_lt_pow_iff_right (by decide : 1 < 256)).1 h3
      simp only [List.length_cons]
      omega
  exact fromBytes_inj (le_antisymm (key ha h.symm) (key hb h)) h

section

variable [EC]

theorem cast_ne_of_short {a b : List UInt8} (hq : 2 ^ 248 ≤ q) (ha : a.length ≤ 31) (hb : b.length ≤ 31)
    (ha0 : a.head? ≠ some 0) (hb0 : b.head? ≠ some 0) (hne : a ≠ b) :
    (((fromBytes a : ℕ) : ℤ) : Sc) ≠ (((fromBytes b : ℕ) : ℤ) : Sc) := by
  have hlt : ∀ {c : List UInt8}, c.length ≤ 31 → fromBytes c < q := fun {c} hc =>
    lt_of_lt_of_le (lt_of_lt_of_le (fromBytes_lt c) (Nat.pow_le_pow_right (by decide) hc)) hq
  intro h
  rw [Int.cast_natCast, Int.cast_natCast, ZMod.natCast_eq_natCast_iff', Nat.mod_eq_of_lt (hlt ha),
    Nat.mod_eq_of_lt (hlt hb)] at h
  exact hne (fromBytes_inj_of_head ha0 hb0 h)

/-- **C82, the part that holds (GG20 demo).** Two different data arguments of at most 31 bytes without
leading zero bytes are different messages, also modulo the group order. -/
theorem C82_gg20_distinct_partial (hq : 2 ^ 248 ≤ q) {a b : List UInt8} (ha : a.length ≤ 31)
    (hb : b.length ≤ 31) (ha0 : a.head? ≠ some 0) (hb0 : b.head? ≠ some 0) (hne : a ≠ b) :
    (Demo.gg20Message a : Sc) ≠ (Demo.gg20Message b : Sc) :=
  cast_ne_of_short hq ha hb ha0 hb0 hne

/-- **C82, the part that holds (GG18 demo).** The same for two different texts neither of which is a
hexadecimal string of even length. -/
theorem C82_gg18_distinct_partial (hq : 2 ^ 248 ≤ q) {a b : List UInt8} (ha : a.length ≤ 31)
    (hb : b.length ≤ 31) (ha0 : a.head? ≠ some 0) (hb0 : b.head? ≠ some 0)
    (hah : Demo.hexDecode a = none) (hbh : Demo.hexDecode b = none) (hne : a ≠ b) :
    (Demo.gg18Message a : Sc) ≠ (Demo.gg18Message b : Sc) := by
  unfold Demo.gg18Message Demo.gg18MessageBytes
  rw [hah, hbh]
  exact cast_ne_of_short hq ha hb ha0 hb0 hne

end

theorem hexVal_hexChar : ∀ d < 16, Demo.hexVal (hexChar d) = some (UInt8.ofNat d) := by
  decide

theorem hexDecode_hexOf (bs : List UInt8) : Demo.hexDecode (hexOf bs) = some bs := by
  induction bs with
  | nil => rfl
  | cons b bs ih =>
    have h1 : b.toNat < 256 := UInt8.toNat_lt b
    show Demo.hexDecode (hexChar (b.toNat / 16) :: hexChar (b.toNat % 16) :: hexOf bs) = _
    rw [Demo.hexDecode, hexVal_hexChar _ (by omega), hexVal_hexChar _ (by omega), ih]
    have e : UInt8.ofNat (b.toNat / 16) * 16 + UInt8.ofNat (b.toNat % 16) = b := by
      apply UInt8.toNat_inj.1
      rw [UInt8.toNat_add, UInt8.toNat_mul, UInt8.toNat_ofNat_of_lt' (by show _ < 256; omega),
        UInt8.toNat_ofNat_of_lt' (by show _ < 256; omega)]
      show (b.toNat / 16 * 16 % 2 ^ 8 + b.toNat % 16) % 2 ^ 8 = _
      omega
    show some ((UInt8.ofNat (b.toNat / 16) * 16 + UInt8.ofNat (b.toNat % 16)) :: bs) = _
    rw [e]

/-- **C82 is violated (GG18 demo)**: every text that is not a hexadecimal string is the same message as its
hexadecimal spelling. -/
theorem C82_gg18_hex_collision {str : List UInt8} (h : Demo.hexDecode str = none) :
    hexOf str ≠ str ∧ Demo.gg18Message (hexOf str) = Demo.gg18Message str := by
  refine ⟨fun e => ?_, ?_⟩
  · rw [← e, hexDecode_hexOf] at h; cases h
  · unfold Demo.gg18Message Demo.gg18MessageBytes
    rw [hexDecode_hexOf, h]

/-- **C82 is violated (GG18 demo)**: prefixing a hexadecimal string with `00` does not change the message. -/
theorem C82_gg18_zero_collision {str bs : List UInt8} (h : Demo.hexDecode str = some bs) :
    Demo.gg18Message (48 :: 48 :: str) = Demo.gg18Message str := by
  have e : Demo.hexDecode (48 :: 48 :: str) = some (0 :: bs) := by
    rw [Demo.hexDecode, h]; rfl
  unfold Demo.gg18Message Demo.gg18MessageBytes
  rw [e, h, fromBytes_cons]
  simp

section

attribute [local instance] Secp256k1.inst

def payBob : List UInt8 := ascii "pay bob 10 nlnmlnqljqnynnpuppslogikkbghhrolljjklxgdpiimvqrujtnnipdneccu"

def payEve : List UInt8 := ascii "pay eve 99 mnlmnmjnpimalmjfkjgoksqppysrsilooqppocswkqqmdiieqglmqkwlvxwe"

/-- **C82 is violated (GG20 demo)**: the data is not hashed.  Here are two printable texts such that, on
the real curve, a signature is valid for the one exactly if it is valid for the other. -/
theorem C82_gg20_collision :
    Printable payBob ∧ Printable payEve ∧ payBob ≠ payEve ∧
      Demo.hexDecode payBob = none ∧ Demo.hexDecode payEve = none ∧
      ∀ (Y : Pt) (r s : Sc), EcdsaEq Y (Demo.gg20Message payBob) r s ↔ EcdsaEq Y (Demo.gg20Message payEve) r s := by
  refine ⟨by unfold Printable; decide +kernel, by unfold Printable; decide +kernel, by decide +kernel,
    by decide +kernel, by decide +kernel, ?_⟩
  have h : ((Demo.gg20Message payBob : ℤ) : Sc) = (Demo.gg20Message payEve : ℤ) := by
    unfold Demo.gg20Message
    rw [Int.cast_natCast, Int.cast_natCast, ZMod.natCast_eq_natCast_iff']
    decide +kernel
  intro Y r s
  unfold EcdsaEq
  rw [h]

/-- The hypotheses of the partial theorems hold on the real curve. -/
example : (Demo.gg20Message (ascii "hello") : Sc) ≠ (Demo.gg20Message (ascii "world") : Sc) :=
  C82_gg20_distinct_partial (by decide +kernel) (by decide +kernel) (by decide +kernel) (by decide +kernel)
    (by decide +kernel) (by decide +kernel)

example : (Demo.gg18Message (ascii "hello") : Sc) ≠ (Demo.gg18Message (ascii "world") : Sc) :=
  C82_gg18_distinct_partial (by decide +kernel) (by decide +kernel) (by decide +kernel) (by decide +kernel)
    (by decide +kernel) (by decide +kernel) (by decide +kernel) (by decide +kernel)

end

example : Demo.gg18Message (ascii "68656c6c6f") = Demo.gg18Message (ascii "hello") := by
  have := (C82_gg18_hex_collision (str := ascii "hello") (by decide +kernel)).2
  rwa [show hexOf (ascii "hello") = ascii "68656c6c6f" by decide +kernel] at this

example : Demo.gg18Message (ascii "00ff") = Demo.gg18Message (ascii "ff") := by
  have := C82_gg18_zero_collision (str := ascii "ff") (bs := [255]) (by decide +kernel)
  rwa [show 48 :: 48 :: ascii "ff" = ascii "00ff" by decide +kernel] at this

/-! ### C83: pairwise keys -/

section

variable [Crypto]

/-- **C83 (keys).** The key generation client derives, from its secret `u` and a peer's public value, a key
of exactly 32 bytes: the x-coordinate of the shared point; it panics exactly if that point is at
infinity. -/
theorem C83_key (u : Sc) (d : GG18.KeyGenDecommitMessage1) :
    (Demo.Keygen.encKey u d = .panic ↔ u • d.y_i = 0) ∧
    ∀ key, Demo.Keygen.encKey u d = .ok key →
      key.length = 32 ∧ xc (u • d.y_i) = some (fromBytes key) := by
  rcases Demo.Keygen.encKey_spec (u := u) (d := d) with ⟨h0, h⟩ | ⟨x, key, hx, h, hl, hv⟩
  · exact ⟨⟨fun _ => h0, fun _ => h⟩, fun key hk => by rw [h] at hk; cases hk⟩
  · refine ⟨⟨fun h' => (by rw [h] at h'; cases h'), fun h0 => ?_⟩, fun key' hk => ?_⟩
    · rw [xc_eq_none.2 h0] at hx; cases hx
    · rw [h] at hk
      injection hk with hk
      subst hk
      exact ⟨hl, by rw [hx, hv]⟩

/-- **C83 (agreement).** Two clients derive the same key from each other's public values. -/
theorem C83_keys_agree (u v : Sc) (du dv : GG18.KeyGenDecommitMessage1) (hu : du.y_i = u • G)
    (hv : dv.y_i = v • G) : Demo.Keygen.encKey u dv = Demo.Keygen.encKey v du := by
  unfold Demo.Keygen.encKey
  rw [hu, hv, smul_smul, smul_smul, mul_comm]

/-- **C83 (delivery).** Whatever the other parties post: when parties `i` and `j` hold each other's true
public values and both get past round 3, then party `i` posts exactly one message to party `j`, and when
that reaches party `j`, party `j` decrypts it to exactly the share that party `i` dealt for it. -/
theorem C83_share_delivered (A : Aead) {t n i j : ℕ} (hi1 : 1 ≤ i) (hi : i ≤ n) (hj1 : 1 ≤ j) (hj : j ≤ n)
    (hij : i ≠ j) {rnd rnd' : ℕ → Demo.Keygen.Rand} {st st' : Demo.Keygen.St2}
    {f f' : ℕ → GG18.KeyGenDecommitMessage1} {st3 st3' : Demo.Keygen.St3} {out out' : List (Msg A.Ct)}
    (h : Demo.Keygen.round3 A ⟨t, n⟩ rnd i st (Demo.poll i n f) = .ok (st3, out))
    (h' : Demo.Keygen.round3 A ⟨t, n⟩ rnd' j st' (Demo.poll j n f') = .ok (st3', out'))
    (hf : (f j).y_i = st'.keys.u_i • G) (hf' : (f' i).y_i = st.keys.u_i • G) :
    ∃ share ct, st3.secret_shares[j - 1]? = some share ∧
      out.filter (fun m => decide (m.receiver = some j)) = [⟨i, some j, ct⟩] ∧
      ∀ recv : ℕ → A.Ct, recv i = ct →
        Demo.Keygen.decShare A st3'.enc_keys (Demo.poll j n recv) (peerPos (j - 1) (i - 1)) = .ok share := by
  have inv : ∀ {rnd : ℕ → Demo.Keygen.Rand} {i : ℕ} {st : Demo.Keygen.St2}
      {ans : List GG18.KeyGenDecommitMessage1} {st3 : Demo.Keygen.St3} {out : List (Msg A.Ct)},
      Demo.Keygen.round3 A ⟨t, n⟩ rnd i st ans = .ok (st3, out) →
      Res.mapM (Demo.Keygen.encKey st.keys.u_i) ans = .ok st3.enc_keys ∧
      Demo.Keygen.encShares A i st3.enc_keys st3.secret_shares (rnd i).aesNonce (List.range' 1 n) 0 =
        .ok out := by
    intro rnd i st ans st3 out h
    unfold Demo.Keygen.round3 at h
    obtain ⟨dv, -, h⟩ := Res.bind_eq_ok.1 h
    obtain ⟨keys, hk, h⟩ := Res.bind_eq_ok.1 h
    dsimp only at h
    split at h
    · cases h
    · obtain ⟨⟨vss, shares, ix⟩, -, h⟩ := Res.bind_eq_ok.1 h
      obtain ⟨o, ho, h⟩ := Res.bind_eq_ok.1 h
      simp only [Res.ok.injEq, Prod.mk.injEq] at h
      obtain ⟨rfl, rfl⟩ := h
      exact ⟨hk, ho⟩
  obtain ⟨hk, ho⟩ := inv h
  obtain ⟨hk', -⟩ := inv h'
  obtain ⟨k, rfl⟩ : ∃ k, i = k + 1 := ⟨i - 1, by omega⟩
  obtain ⟨l, rfl⟩ : ∃ l, j = l + 1 := ⟨j - 1, by omega⟩
  simp only [Nat.add_sub_cancel]
  have hkn : k < n := by omega
  have hln : l < n := by omega
  obtain ⟨ho1, ho2⟩ := Demo.Keygen.encShares_ok ho
  have hp : ((List.range' 1 n).filter (fun a => decide (a ≠ k + 1)))[peerPos k l]? = some (l + 1) := by
    have := Demo.poll_peer hkn hln (by omega) (fun j => j)
    unfold Demo.poll at this
    rwa [List.map_id'] at this
  obtain ⟨key, share, e1, e2, e3⟩ := ho2 _ _ hp
  rw [zero_add] at e1
  have hkey := Demo.mapM_getElem hk (Demo.poll_peer hkn hln (by omega) f) e1
  refine ⟨share, A.enc key (toBytes share.val) ((rnd (k + 1)).aesNonce (l + 1)), by simpa using e2, ?_,
    fun recv hr => ?_⟩
  · have hmem := List.mem_of_getElem? e3
    have hnd : (out.map (·.receiver)).Nodup := by
      rw [ho1]
      exact ((List.nodup_range' (step := 1)).filter _).map (Option.some_injective _)
    have key : ∀ (l : List (Msg A.Ct)) (x : Msg A.Ct), (l.map (·.receiver)).Nodup → x ∈ l →
        l.filter (fun m => decide (m.receiver = x.receiver)) = [x] := by
      intro l x
      induction l with
      | nil => intro _ h; cases h
      | cons a l ih =>
        intro hn hx
        rw [List.map_cons, List.nodup_cons] at hn
        rcases List.mem_cons.1 hx with rfl | hx
        · rw [List.filter_cons_of_pos (by simp), List.filter_eq_nil_iff.2]
          intro b hb
          simp only [decide_eq_true_eq]
          exact fun e => hn.1 (List.mem_map.2 ⟨b, hb, e⟩)
        · rw [List.filter_cons_of_neg, ih hn.2 hx]
          simp only [decide_eq_true_eq]
          exact fun e => hn.1 (List.mem_map.2 ⟨x, hx, e.symm⟩)
    exact key out _ hnd hmem
  · have hlen : st3'.enc_keys.length = (Demo.poll (l + 1) n f').length :=
      (List.Forall₂.length_eq (Res.mapM_eq_ok.1 hk')).symm
    have hpos : peerPos l k < st3'.enc_keys.length := by
      rw [hlen]
      exact (List.getElem?_eq_some_iff.1 (Demo.poll_peer hln hkn (by omega) f')).1
    have e4 := List.getElem?_eq_getElem hpos
    have hkey' := Demo.mapM_getElem hk' (Demo.poll_peer hln hkn (by omega) f') e4
    rw [C83_keys_agree _ _ (f' (k + 1)) (f (l + 1)) hf' hf, hkey'] at hkey
    injection hkey with hkey
    have h32 : key.length = 32 := by
      rw [← hkey]; exact ((C83_key _ _).2 _ hkey').1
    unfold Demo.Keygen.decShare
    rw [Res.get_eq_ok.2 (Demo.poll_peer hln hkn (by omega) recv), Res.bind_ok, Res.get_eq_ok.2 e4,
      Res.bind_ok, hr, hkey, A.dec_enc _ _ _ h32, Res.ofOption_some, Res.bind_ok, fromBytes_toBytes,
      Int.natAbs_natCast, ZMod.natCast_zmod_val]

end

/-! ### Concrete cases -/

section

variable [EC]

theorem libSecp_enc_inj {P Q : Pt} {x y x' y' : ℕ} (h : coords P = some (x, y)) (h' : coords Q = some (x', y'))
    (he : (4 :: (beBytes 32 x ++ beBytes 32 y) : List UInt8) = 4 :: (beBytes 32 x' ++ beBytes 32 y')) :
    P = Q := by
  have h1 := List.append_inj (List.cons.inj he).2 (by rw [beBytes_length, beBytes_length])
  have hlt := coords_lt _ _ _ h
  have hlt' := coords_lt _ _ _ h'
  have hp := p_lt (self := ‹EC›)
  have e : ∀ {n : ℕ}, n < p → fromBytes (beBytes 32 n) = n := fun hn =>
    fromBytes_beBytes (lt_trans hn hp)
  apply coords_inj
  rw [h, h', ← e hlt.1, ← e hlt.2, h1.1, h1.2, e hlt'.1, e hlt'.2]

open Classical in
/-- A parser with the assumed properties exists for every curve. -/
noncomputable def libWitness : LibSecp.Lib where
  parsePk bs :=
    if h : ∃ P x y, coords P = some (x, y) ∧ bs = 4 :: (beBytes 32 x ++ beBytes 32 y) then some h.choose
    else none
  parse_uncompressed P x y hc := by
    have h : ∃ P' x' y', coords P' = some (x', y') ∧
        (4 :: (beBytes 32 x ++ beBytes 32 y) : List UInt8) = 4 :: (beBytes 32 x' ++ beBytes 32 y') :=
      ⟨P, x, y, hc, rfl⟩
    rw [dif_pos h]
    obtain ⟨x', y', hc', he⟩ := h.choose_spec
    exact congrArg some (libSecp_enc_inj hc' hc he.symm)
  parse_length bs P hP := by
    split at hP
    · rename_i h
      obtain ⟨P, x, y, -, rfl⟩ := h
      right
      simp [beBytes_length]
    · cases hP

end

section examples

attribute [local instance] Toy.crypto

theorem toy_r_ne_zero {P : ZMod 31} {x y : ℕ} (h : coords (P : Pt) = some (x, y)) : (x : ZMod 31) ≠ 0 := by
  have : ∀ P : ZMod 31, ∀ xy ∈ coords (P : Pt), (xy.1 : ZMod 31) ≠ 0 := by decide +kernel
  exact this P (x, y) h

theorem toyRoom_client {message : ℤ} (hm : (message : ZMod 31) = ((10 : ℤ) : ZMod 31)) :
    ∃ b sig, Demo.Sign.client 1 message toyRoom 2 (Demo.Keygen.kFile 1 3 toyKg 0) b = .ok sig ∧ sig.r ≠ 0 := by
  obtain ⟨x, dk, h, hx⟩ := toyRoom_room
  obtain ⟨b, sig, hb⟩ := Demo.Sign.client_honest h hx (by decide) message
    (fun xr y hc => by
      have := toyRoom_message xr y hc
      rw [← hm] at this
      exact this) (k := 1) (by decide)
  obtain ⟨-, -, own6, own8, R, s, x, y, h1, h2, h3, -⟩ := C76_result (t := 1) (i := 2) (by decide) (by decide) hb
  exact ⟨b, sig, hb, by rw [h3]; exact toy_r_ne_zero h2⟩

/-- Signing the text `hi there;` writes a signature. -/
example : ∃ b sig, Demo.Sign.main libWitness 1 (ascii "hi there;") toyRoom 2
    (Demo.Keygen.kFile 1 3 toyKg 0) b = .ok sig := by
  obtain ⟨b, sig, hb, hr⟩ := toyRoom_client (message := Demo.gg18Message (ascii "hi there;"))
    (by decide +kernel)
  exact ⟨b, sig, C81_signature_written_partial (by decide) (by decide) _ (by decide) (by decide) hb
    (by decide +kernel) hr (by decide +kernel)⟩

/-- A text of 33 bytes loses the signature. -/
example : ∃ b sig, Demo.Sign.client 1 (Demo.gg18Message (ascii "pay the 33 byte text to everyboda")) toyRoom 2
      (Demo.Keygen.kFile 1 3 toyKg 0) b = .ok sig ∧
    Demo.Sign.main libWitness 1 (ascii "pay the 33 byte text to everyboda") toyRoom 2
      (Demo.Keygen.kFile 1 3 toyKg 0) b = .panic := by
  obtain ⟨b, sig, hb, -⟩ := toyRoom_client
    (message := Demo.gg18Message (ascii "pay the 33 byte text to everyboda")) (by decide +kernel)
  exact ⟨b, sig, hb, (C81_signature_lost (by decide) (by decide) _ (by decide) (by decide) hb
    (Or.inl (by decide +kernel))).1⟩

/-- Two of three honest parties meet the hypotheses of `C83_share_delivered`. -/
example : ∃ st st' f f' st3 st3' out out',
    Demo.Keygen.round3 toyAead ⟨1, 3⟩ toyKg 1 st (Demo.poll 1 3 f) = .ok (st3, out) ∧
    Demo.Keygen.round3 toyAead ⟨1, 3⟩ toyKg 3 st' (Demo.poll 3 3 f') = .ok (st3', out') ∧
    (f 3).y_i = st'.keys.u_i • G ∧ (f' 1).y_i = st.keys.u_i • G := by
  have hon : ∀ k < 3, ∃ t, GG18.HonestKeygenRand t (toyKg (k + 1)) :=
    fun k hk => ⟨1, toyKg_honest (by omega) (by omega)⟩
  refine ⟨_, _, fun j => Demo.Keygen.kDec toyKg (j - 1), fun j => Demo.Keygen.kDec toyKg (j - 1), _, _, _, _,
    (congrArg _ (Demo.poll_eq 3 0 _)).trans (Demo.Keygen.round3_ok toyAead (k := 0) (by decide) hon (by decide)),
    (congrArg _ (Demo.poll_eq 3 2 _)).trans (Demo.Keygen.round3_ok toyAead (k := 2) (by decide) hon (by decide)),
    rfl, rfl⟩

end examples

end Verif.Props
