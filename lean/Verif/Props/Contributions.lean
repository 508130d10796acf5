import Verif.Props.RoundOrder
import Verif.Props.GG18Clients
import Verif.Props.Replay
import Verif.Props.Hashing
import Verif.Lemmas.SentRounds

/-!
# The contributions to the key and to the nonce are fixed before others are shown (C106)

Each party commits to its point (`y_i` in key generation, `Γ_i` in signing) in the first round and opens the
commitment in a later one.  Two sessions of party `i` in which the others sent the same commitments, or two
continuations of one session, are compared.
-/

namespace Verif.Props

open EC Crypto GG20 Spec

section

variable [Crypto]

omit [Crypto] in
private theorem sum_assemble {α : Type} [AddCommMonoid α] {n k : ℕ} (hk : k < n) (own : α) (f : ℕ → α) :
    (Keygen.assemble n k own f).sum = own + ((peers (k + 1) n).map f).sum := by
  have h := sum_others hk (fun j => if j = k then own else f (j + 1))
  rw [if_pos rfl] at h
  unfold Keygen.assemble
  rw [sum_map_range_eq, peers_eq_others, List.map_map]
  refine h.symm.trans ?_
  congr 2
  refine List.map_congr_left fun j hj => ?_
  rw [if_neg (GG20.Sign.mem_others.1 hj).2]
  rfl

/-- The public key of a completed session. -/
private theorem public_key_eq {rnd : KeygenRandomness} {i t n : ℕ} {s : Keygen.State}
    {r : Res Keygen.Error Unit} (hnew : Keygen.new rnd i t n = .ok (s, r)) (ops : List (Op Keygen.M))
    {key : LocalKey} (ho : key ∈ ((Keygen.machine rnd).run s ops).outputs) :
    ∃ (bc : ℕ → KeyGenBroadcastMessage1) (d : ℕ → KeyGenDecommitMessage1), (∀ p ∈ peers i n,
      ⟨p, none, .Round1 (bc p)⟩ ∈ ((Keygen.machine rnd).run s ops).accepted ∧
      ⟨p, none, .Round2 (d p)⟩ ∈ ((Keygen.machine rnd).run s ops).accepted ∧
      hashCom (ser (d p).y_i) (d p).blind_factor = (bc p).com) ∧
      key.public_key = rnd.u • G + ((peers i n).map (fun p => (d p).y_i)).sum := by
  obtain ⟨-, habs, h1, h2, hn, -, ht⟩ := Keygen.new_ok hnew
  obtain ⟨b1, b2, b3, b4, hb, hl⟩ := C22_output_correct hnew ops ho
  have uniq := ((Keygen.sim rnd).accepted_spec habs h1 h2 ops).2
  obtain ⟨k, rfl⟩ : ∃ k, i = k + 1 := ⟨i - 1, by omega⟩
  obtain ⟨bcs, ys, all, pfs, hs⟩ := Keygen.keygenLine_seen ht (by omega) (congrArg Prod.snd hl)
  refine ⟨b1, b2, fun p hp => ⟨(hb p hp).1, (hb p hp).2.1, ?_⟩, ?_⟩
  · have h4 : ⟨k + 1, none, .Round4 (DLogProof.prove (all.map Prod.snd).sum rnd.dlogNonce)⟩ ∈
        (Keygen.machine rnd).sent ((Keygen.machine rnd).run s ops) := by
      have := hs.sent_eq
      rw [hl] at this
      dsimp only at this
      rw [this]
      exact List.mem_append_right _ (List.mem_singleton.2 rfl)
    obtain ⟨bc, d, a, b, v⟩ := C104_shares_after_checks hnew ops h4 (Nat.le_succ 3) hp
    have e1 : b1 p = bc := by
      have := uniq _ (hb p hp).1 _ a rfl rfl
      simpa using this
    have e2 : b2 p = d := by
      have := uniq _ (hb p hp).2.1 _ b rfl rfl
      simpa using this
    rw [e1, e2]
    exact v.opens
  · rw [hs.public_key, hs.ys_eq, sum_assemble (by omega)]

/-- Equal commitments, sums of the opened points: the same, or two openings of one commitment. -/
private theorem sums_eq {l : List ℕ} {P P' : ℕ → Pt} {b b' c c' : ℕ → ℤ}
    (h : ∀ p ∈ l, hashCom (ser (P p)) (b p) = c p) (h' : ∀ p ∈ l, hashCom (ser (P' p)) (b' p) = c' p)
    (hc : ∀ p ∈ l, c p = c' p) :
    (l.map P).sum = (l.map P').sum ∨ ∃ p ∈ l, P p ≠ P' p ∧
      hashCom (ser (P p)) (b p) = hashCom (ser (P' p)) (b' p) := by
  by_cases hall : ∀ p ∈ l, P p = P' p
  · exact .inl (by rw [List.map_congr_left hall])
  · push Not at hall
    obtain ⟨p, hp, hne⟩ := hall
    exact .inr ⟨p, hp, hne, (h p hp).trans ((hc p hp).trans (h' p hp).symm)⟩

/-! ### Key generation -/

/-- **C106.** Key generation (GG20): take two sessions of party `i`, with any random values of its own, in
which it accepted the same commitments from the others and that both ended with a key.  What the others
contributed to the two public keys is the same, or one of them opened its commitment in two ways. -/
theorem C106_keygen_contributions {rnd rnd' : KeygenRandomness} {i t n : ℕ} {s s' : Keygen.State}
    {r r' : Res Keygen.Error Unit} (hnew : Keygen.new rnd i t n = .ok (s, r))
    (hnew' : Keygen.new rnd' i t n = .ok (s', r')) (ops ops' : List (Op Keygen.M)) {key key' : LocalKey}
    (ho : key ∈ ((Keygen.machine rnd).run s ops).outputs)
    (ho' : key' ∈ ((Keygen.machine rnd').run s' ops').outputs)
    (hcom : ∀ p ∈ peers i n, ∀ b b', ⟨p, none, .Round1 b⟩ ∈ ((Keygen.machine rnd).run s ops).accepted →
      ⟨p, none, .Round1 b'⟩ ∈ ((Keygen.machine rnd').run s' ops').accepted → b.com = b'.com) :
    key.public_key - rnd.u • G = key'.public_key - rnd'.u • G ∨
    ∃ p ∈ peers i n, ∃ d d', ⟨p, none, .Round2 d⟩ ∈ ((Keygen.machine rnd).run s ops).accepted ∧
      ⟨p, none, .Round2 d'⟩ ∈ ((Keygen.machine rnd').run s' ops').accepted ∧ d.y_i ≠ d'.y_i ∧
      hashCom (ser d.y_i) d.blind_factor = hashCom (ser d'.y_i) d'.blind_factor := by
  obtain ⟨bc, d, hb, e⟩ := public_key_eq hnew ops ho
  obtain ⟨bc', d', hb', e'⟩ := public_key_eq hnew' ops' ho'
  rw [e, e', add_sub_cancel_left, add_sub_cancel_left]
  rcases sums_eq (c := fun p => (bc p).com) (c' := fun p => (bc' p).com)
    (b := fun p => (d p).blind_factor) (b' := fun p => (d' p).blind_factor)
    (P := fun p => (d p).y_i) (P' := fun p => (d' p).y_i) (l := peers i n)
    (fun p hp => (hb p hp).2.2) (fun p hp => (hb' p hp).2.2)
    (fun p hp => hcom p hp _ _ (hb p hp).1 (hb' p hp).1) with h | ⟨p, hp, h1, h2⟩
  · exact .inl h
  · exact .inr ⟨p, hp, d p, d' p, (hb p hp).2.1, (hb' p hp).2.1, h1, h2⟩

/-- C106: so nobody can steer the key.  If the others answer different secrets of party `i` with the same
commitments, the public keys differ, or somebody opened its commitment in two ways. -/
theorem C106_key_not_chosen {rnd rnd' : KeygenRandomness} {i t n : ℕ} {s s' : Keygen.State}
    {r r' : Res Keygen.Error Unit} (hnew : Keygen.new rnd i t n = .ok (s, r))
    (hnew' : Keygen.new rnd' i t n = .ok (s', r')) (ops ops' : List (Op Keygen.M)) {key key' : LocalKey}
    (ho : key ∈ ((Keygen.machine rnd).run s ops).outputs)
    (ho' : key' ∈ ((Keygen.machine rnd').run s' ops').outputs)
    (hcom : ∀ p ∈ peers i n, ∀ b b', ⟨p, none, .Round1 b⟩ ∈ ((Keygen.machine rnd).run s ops).accepted →
      ⟨p, none, .Round1 b'⟩ ∈ ((Keygen.machine rnd').run s' ops').accepted → b.com = b'.com)
    (hu : rnd.u ≠ rnd'.u) :
    key.public_key ≠ key'.public_key ∨
    ∃ p ∈ peers i n, ∃ d d', ⟨p, none, .Round2 d⟩ ∈ ((Keygen.machine rnd).run s ops).accepted ∧
      ⟨p, none, .Round2 d'⟩ ∈ ((Keygen.machine rnd').run s' ops').accepted ∧ d.y_i ≠ d'.y_i ∧
      hashCom (ser d.y_i) d.blind_factor = hashCom (ser d'.y_i) d'.blind_factor := by
  refine (C106_keygen_contributions hnew hnew' ops ops' ho ho' hcom).imp (fun h he => hu ?_) id
  rw [he, sub_right_inj] at h
  exact smul_G_inj.1 h

/-- **C106.** Once party `i` has shown its point, the key is fixed: all continuations of the session that end
with a key give the same public key, or somebody opened its commitment in two ways. -/
theorem C106_key_fixed {rnd : KeygenRandomness} {i t n : ℕ} {s : Keygen.State}
    {r : Res Keygen.Error Unit} (hnew : Keygen.new rnd i t n = .ok (s, r)) (ops a b : List (Op Keygen.M))
    {d : KeyGenDecommitMessage1}
    (hd : ⟨i, none, .Round2 d⟩ ∈ (Keygen.machine rnd).sent ((Keygen.machine rnd).run s ops))
    {key key' : LocalKey} (ho : key ∈ ((Keygen.machine rnd).run s (ops ++ a)).outputs)
    (ho' : key' ∈ ((Keygen.machine rnd).run s (ops ++ b)).outputs) :
    key.public_key = key'.public_key ∨
    ∃ p ∈ peers i n, ∃ d d', ⟨p, none, .Round2 d⟩ ∈ ((Keygen.machine rnd).run s (ops ++ a)).accepted ∧
      ⟨p, none, .Round2 d'⟩ ∈ ((Keygen.machine rnd).run s (ops ++ b)).accepted ∧ d.y_i ≠ d'.y_i ∧
      hashCom (ser d.y_i) d.blind_factor = hashCom (ser d'.y_i) d'.blind_factor := by
  obtain ⟨-, habs, h1, h2, -⟩ := Keygen.new_ok hnew
  refine (C106_keygen_contributions hnew hnew (ops ++ a) (ops ++ b) ho ho' ?_).imp
    (fun h => sub_left_injective h) id
  intro p hp x y hx hy
  obtain ⟨m, hm, hs, hr⟩ := C104_keygen_order hnew ops hd (j := 1) (le_refl 1) (Nat.lt_succ_self 1) hp
  have u := ((Keygen.sim rnd).accepted_spec habs h1 h2 (ops ++ a)).2 _
    (StateMachine.accepted_later s ops a hm) _ hx (by rw [Keygen.rd_eq, Keygen.rd_eq]; exact hr) hs
  have v := ((Keygen.sim rnd).accepted_spec habs h1 h2 (ops ++ b)).2 _
    (StateMachine.accepted_later s ops b hm) _ hy (by rw [Keygen.rd_eq, Keygen.rd_eq]; exact hr) hs
  have e := u.symm.trans v
  have e : x = y := by simpa using e
  rw [e]

/-- **C106.** Key generation (GG18 demo client): two runs in which it read the same commitments. -/
theorem C106_gg18_keygen (A : Aead) {t n i : ℕ} (ht : t < n) (h1 : 1 ≤ i) (h2 : i ≤ n)
    {rnd rnd' : ℕ → Demo.Keygen.Rand} {b b' : Demo.Keygen.Posted A} {file file' : Demo.Keygen.KeyFile}
    (h : Demo.Keygen.client A t n rnd i b = .ok file) (h' : Demo.Keygen.client A t n rnd' i b' = .ok file')
    (hcom : ∀ p ∈ peers i n, (b.b1 p).com = (b'.b1 p).com) :
    file.y_sum - (rnd i).u • G = file'.y_sum - (rnd' i).u • G ∨
    ∃ p ∈ peers i n, (b.b2 p).y_i ≠ (b'.b2 p).y_i ∧
      hashCom (ser (b.b2 p).y_i) (b.b2 p).blind_factor = hashCom (ser (b'.b2 p).y_i) (b'.b2 p).blind_factor := by
  obtain ⟨_, hc⟩ := C76_keygen A ht h1 h2 h
  obtain ⟨_, hc'⟩ := C76_keygen A ht h1 h2 h'
  rw [hc.public_key.1, hc'.public_key.1, add_sub_cancel_left, add_sub_cancel_left]
  exact sums_eq (c := fun p => (b.b1 p).com) (c' := fun p => (b'.b1 p).com)
    (b := fun p => (b.b2 p).blind_factor) (b' := fun p => (b'.b2 p).blind_factor)
    hc.opens hc'.opens hcom

/-! ### Signing -/

private theorem nonce_sum {rnd : SignRandomness} {i : ℕ} {s_l : List ℕ} {key : LocalKey} {s : Sign.State}
    (hnew : Sign.new i s_l key = .ok s) (ops : List (Op Sign.M)) {c : CompletedOfflineStage}
    (ho : c ∈ ((Sign.machine rnd).run s ops).outputs) :
    ∃ (b : SignerMsgs) (d : Sign.TMsg), (∀ p ∈ peers i s_l.length,
        ⟨p, none, .M1 (b.b1 p)⟩ ∈ ((Sign.machine rnd).run s ops).accepted ∧
        ⟨p, some i, .M2 (b.b2 p)⟩ ∈ ((Sign.machine rnd).run s ops).accepted ∧
        ⟨p, none, .M3 (b.b3 p)⟩ ∈ ((Sign.machine rnd).run s ops).accepted ∧
        ⟨p, none, .M4 (b.b4 p)⟩ ∈ ((Sign.machine rnd).run s ops).accepted ∧
        (b.b2 p).1.b_proof.pk = (b.b4 p).g_gamma_i ∧
        hashCom (ser (b.b4 p).g_gamma_i) (b.b4 p).blind_factor = (b.b1 p).2.com) ∧
      ⟨i, none, .M3 d⟩ ∈ (Sign.machine rnd).sent ((Sign.machine rnd).run s ops) ∧
      d.delta_i + ((peers i s_l.length).map (fun p => (b.b3 p).delta_i)).sum ≠ 0 ∧
      (d.delta_i + ((peers i s_l.length).map (fun p => (b.b3 p).delta_i)).sum) • c.R =
        rnd.gamma • G + ((peers i s_l.length).map (fun p => (b.b4 p).g_gamma_i)).sum := by
  obtain ⟨-, h1, h2, -⟩ := Sign.new_ok (rnd := rnd) hnew
  obtain ⟨b, own, hb, -, h3, h4, -, -, hc⟩ := C68_finished_has_checked hnew ops ho
  have e := (Sign.sent_gamma hnew ops).2 _ h4
  have hn := hc.nonce_point
  rw [Nat.sub_add_cancel h1, e] at hn
  refine ⟨b, own.m3, fun p hp => ?_, h3, hn⟩
  obtain ⟨p1, p2, p3⟩ := mem_peers.1 hp
  have hr := hc.reveals (p - 1) (by omega) (by omega)
  rw [Nat.sub_add_cancel p1] at hr
  exact ⟨(hb p hp).1, (hb p hp).2.1, (hb p hp).2.2.1, (hb p hp).2.2.2.1, hr⟩

private theorem own_delta {rnd : SignRandomness} {i : ℕ} {s_l : List ℕ} {key : LocalKey} {s : Sign.State}
    (hnew : Sign.new i s_l key = .ok s) (ops : List (Op Sign.M)) {d d' : Sign.TMsg}
    (hd : ⟨i, none, .M3 d⟩ ∈ (Sign.machine rnd).sent ((Sign.machine rnd).run s ops))
    (hd' : ⟨i, none, .M3 d'⟩ ∈ (Sign.machine rnd).sent ((Sign.machine rnd).run s ops)) : d = d' := by
  obtain ⟨habs, h1, h2, -⟩ := Sign.new_ok (rnd := rnd) hnew
  have u := ((Sign.sim rnd).accepted_spec habs h1 h2 ops).2
  refine Sign.sent_delta hnew ops ops (fun p _ b b' hb hb' => ?_) (fun p _ b b' hb hb' => ?_) hd hd'
  · have := u _ hb _ hb' rfl rfl
    simpa using this
  · have := u _ hb _ hb' rfl rfl
    simpa using this

/-- **C106.** Offline stage (GG20): two completed sessions of signer `i` in which it accepted the same
commitments from the others.  The nonce point times the sum of the announced `delta`s, less the signer's own
point, is the same, or somebody opened its commitment in two ways. -/
theorem C106_nonce_contributions {rnd rnd' : SignRandomness} {i : ℕ} {s_l : List ℕ} {key : LocalKey}
    {s s' : Sign.State} (hnew : Sign.new i s_l key = .ok s) (hnew' : Sign.new i s_l key = .ok s')
    (ops ops' : List (Op Sign.M)) {c c' : CompletedOfflineStage}
    (ho : c ∈ ((Sign.machine rnd).run s ops).outputs) (ho' : c' ∈ ((Sign.machine rnd').run s' ops').outputs)
    (hcom : ∀ p ∈ peers i s_l.length, ∀ b b', ⟨p, none, .M1 b⟩ ∈ ((Sign.machine rnd).run s ops).accepted →
      ⟨p, none, .M1 b'⟩ ∈ ((Sign.machine rnd').run s' ops').accepted → b.2.com = b'.2.com)
    {own own' : Sign.TMsg} {d d' : ℕ → Sign.TMsg}
    (hown : ⟨i, none, .M3 own⟩ ∈ (Sign.machine rnd).sent ((Sign.machine rnd).run s ops))
    (hown' : ⟨i, none, .M3 own'⟩ ∈ (Sign.machine rnd').sent ((Sign.machine rnd').run s' ops'))
    (hd : ∀ p ∈ peers i s_l.length, ⟨p, none, .M3 (d p)⟩ ∈ ((Sign.machine rnd).run s ops).accepted)
    (hd' : ∀ p ∈ peers i s_l.length, ⟨p, none, .M3 (d' p)⟩ ∈ ((Sign.machine rnd').run s' ops').accepted) :
    (own.delta_i + ((peers i s_l.length).map (fun p => (d p).delta_i)).sum) • c.R - rnd.gamma • G =
      (own'.delta_i + ((peers i s_l.length).map (fun p => (d' p).delta_i)).sum) • c'.R - rnd'.gamma • G ∨
    ∃ p ∈ peers i s_l.length, ∃ x x', ⟨p, none, .M4 x⟩ ∈ ((Sign.machine rnd).run s ops).accepted ∧
      ⟨p, none, .M4 x'⟩ ∈ ((Sign.machine rnd').run s' ops').accepted ∧ x.g_gamma_i ≠ x'.g_gamma_i ∧
      hashCom (ser x.g_gamma_i) x.blind_factor = hashCom (ser x'.g_gamma_i) x'.blind_factor := by
  obtain ⟨b, m, hb, hm, -, e⟩ := nonce_sum hnew ops ho
  obtain ⟨b', m', hb', hm', -, e'⟩ := nonce_sum hnew' ops' ho'
  obtain ⟨habs, h1, h2, -⟩ := Sign.new_ok (rnd := rnd) hnew
  obtain ⟨habs', -⟩ := Sign.new_ok (rnd := rnd') hnew'
  obtain rfl := own_delta hnew ops hown hm
  obtain rfl := own_delta hnew' ops' hown' hm'
  have f : (peers i s_l.length).map (fun p => (d p).delta_i) =
      (peers i s_l.length).map (fun p => (b.b3 p).delta_i) := by
    refine List.map_congr_left fun p hp => ?_
    have := ((Sign.sim rnd).accepted_spec habs h1 h2 ops).2 _ (hd p hp) _ (hb p hp).2.2.1 rfl rfl
    have : d p = b.b3 p := by simpa using this
    rw [this]
  have f' : (peers i s_l.length).map (fun p => (d' p).delta_i) =
      (peers i s_l.length).map (fun p => (b'.b3 p).delta_i) := by
    refine List.map_congr_left fun p hp => ?_
    have := ((Sign.sim rnd').accepted_spec habs' h1 h2 ops').2 _ (hd' p hp) _ (hb' p hp).2.2.1 rfl rfl
    have : d' p = b'.b3 p := by simpa using this
    rw [this]
  rw [f, f', e, e', add_sub_cancel_left, add_sub_cancel_left]
  rcases sums_eq (c := fun p => (b.b1 p).2.com) (c' := fun p => (b'.b1 p).2.com)
    (b := fun p => (b.b4 p).blind_factor) (b' := fun p => (b'.b4 p).blind_factor)
    (P := fun p => (b.b4 p).g_gamma_i) (P' := fun p => (b'.b4 p).g_gamma_i) (l := peers i s_l.length)
    (fun p hp => (hb p hp).2.2.2.2.2) (fun p hp => (hb' p hp).2.2.2.2.2)
    (fun p hp => hcom p hp _ _ (hb p hp).1 (hb' p hp).1) with h | ⟨p, hp, x, y⟩
  · exact .inl h
  · exact .inr ⟨p, hp, b.b4 p, b'.b4 p, (hb p hp).2.2.2.1, (hb' p hp).2.2.2.1, x, y⟩

/-- **C106.** Once signer `i` has opened its commitment, the nonce point is fixed: all continuations of the
session that complete have the same one. -/
theorem C106_nonce_fixed {rnd : SignRandomness} {i : ℕ} {s_l : List ℕ} {key : LocalKey} {s : Sign.State}
    (hnew : Sign.new i s_l key = .ok s) (ops a b : List (Op Sign.M)) {d : SignDecommitPhase1}
    (hd : ⟨i, none, .M4 d⟩ ∈ (Sign.machine rnd).sent ((Sign.machine rnd).run s ops))
    {c c' : CompletedOfflineStage} (ho : c ∈ ((Sign.machine rnd).run s (ops ++ a)).outputs)
    (ho' : c' ∈ ((Sign.machine rnd).run s (ops ++ b)).outputs) : c.R = c'.R := by
  obtain ⟨x, m, hb, hm, hne, e⟩ := nonce_sum hnew _ ho
  obtain ⟨x', m', hb', hm', -, e'⟩ := nonce_sum hnew _ ho'
  obtain ⟨habs, h1, h2, -⟩ := Sign.new_ok (rnd := rnd) hnew
  have same : ∀ p ∈ peers i s_l.length, ∀ y y' : Msg Sign.M,
      y ∈ ((Sign.machine rnd).run s (ops ++ a)).accepted →
      y' ∈ ((Sign.machine rnd).run s (ops ++ b)).accepted → y.sender = p → y'.sender = p →
      SignMsg.round y.body = SignMsg.round y'.body → 1 ≤ SignMsg.round y.body → SignMsg.round y.body < 4 →
      y = y' := by
    intro p hp y y' ha hb hy hy' hr l1 l2
    obtain ⟨z, hz, hs, hzr⟩ := C104_offline_order hnew ops hd l1 l2 hp
    have u := ((Sign.sim rnd).accepted_spec habs h1 h2 (ops ++ a)).2 _
      (StateMachine.accepted_later s ops a hz) _ ha (by rw [Sign.rd_eq, Sign.rd_eq]; exact hzr) (hs.trans hy.symm)
    have v := ((Sign.sim rnd).accepted_spec habs h1 h2 (ops ++ b)).2 _
      (StateMachine.accepted_later s ops b hz) _ hb (by rw [Sign.rd_eq, Sign.rd_eq]; exact hzr.trans hr) (hs.trans hy'.symm)
    exact u.symm.trans v
  have e1 : ∀ p ∈ peers i s_l.length, ∀ b1 b1', ⟨p, none, .M1 b1⟩ ∈ ((Sign.machine rnd).run s (ops ++ a)).accepted →
      ⟨p, none, .M1 b1'⟩ ∈ ((Sign.machine rnd).run s (ops ++ b)).accepted → b1 = b1' := by
    intro p hp b1 b1' h h'
    have := same p hp _ _ h h' rfl rfl rfl (le_refl 1) (show 1 < 4 by decide)
    simpa using this
  have e2 : ∀ p ∈ peers i s_l.length, ∀ b2 b2',
      ⟨p, some i, .M2 b2⟩ ∈ ((Sign.machine rnd).run s (ops ++ a)).accepted →
      ⟨p, some i, .M2 b2'⟩ ∈ ((Sign.machine rnd).run s (ops ++ b)).accepted → b2 = b2' := by
    intro p hp b2 b2' h h'
    have := same p hp _ _ h h' rfl rfl rfl (show 1 ≤ 2 by decide) (show 2 < 4 by decide)
    simpa using this
  obtain rfl := Sign.sent_delta hnew _ _ e1 e2 hm hm'
  have f : (peers i s_l.length).map (fun p => (x.b3 p).delta_i) =
      (peers i s_l.length).map (fun p => (x'.b3 p).delta_i) := by
    refine List.map_congr_left fun p hp => ?_
    have := same p hp _ _ (hb p hp).2.2.1 (hb' p hp).2.2.1 rfl rfl rfl (show 1 ≤ 3 by decide) (show 3 < 4 by decide)
    have : x.b3 p = x'.b3 p := by simpa using this
    rw [this]
  have g : (peers i s_l.length).map (fun p => (x.b4 p).g_gamma_i) =
      (peers i s_l.length).map (fun p => (x'.b4 p).g_gamma_i) := by
    refine List.map_congr_left fun p hp => ?_
    rw [← (hb p hp).2.2.2.2.1, ← (hb' p hp).2.2.2.2.1, e2 p hp _ _ (hb p hp).2.1 (hb' p hp).2.1]
  rw [← f, ← g, ← e, ← sub_eq_zero, ← smul_sub, smul_eq_zero_iff] at e'
  rcases e' with h | h
  · exact absurd h hne
  · exact (sub_eq_zero.1 h).symm

/-- **C106.** Signing (GG18 demo client): two runs that read the same commitments and release a partial
signature.  The sum of the others' points, from which the nonce point is made, is the same, or somebody
opened its commitment in two ways. -/
theorem C106_gg18_nonce {t i : ℕ} (h1 : 1 ≤ i) (h2 : i ≤ t + 1) {message message' : ℤ}
    {rnd rnd' : ℕ → Demo.Sign.Rand} {key key' : Demo.Keygen.KeyFile} {b b' : Demo.Sign.Posted}
    {st st' : Demo.Sign.St9} {out out' : List (Msg Sc)}
    (h : Demo.Sign.release t message rnd i key b = .ok (st, out))
    (h' : Demo.Sign.release t message' rnd' i key' b' = .ok (st', out'))
    (hcom : ∀ p ∈ peers i (t + 1), (b.b1 p).1.com = (b'.b1 p).1.com) :
    ((peers i (t + 1)).map (fun p => (b.b4 p).g_gamma_i)).sum =
      ((peers i (t + 1)).map (fun p => (b'.b4 p).g_gamma_i)).sum ∨
    ∃ p ∈ peers i (t + 1), (b.b4 p).g_gamma_i ≠ (b'.b4 p).g_gamma_i ∧
      hashCom (ser (b.b4 p).g_gamma_i) (b.b4 p).blind_factor =
        hashCom (ser (b'.b4 p).g_gamma_i) (b'.b4 p).blind_factor := by
  obtain ⟨_, _, _, hc, -⟩ := C76_release h1 h2 h
  obtain ⟨_, _, _, hc', -⟩ := C76_release h1 h2 h'
  exact sums_eq (c := fun p => (b.b1 p).1.com) (c' := fun p => (b'.b1 p).1.com)
    (b := fun p => (b.b4 p).blind_factor) (b' := fun p => (b'.b4 p).blind_factor)
    (P := fun p => (b.b4 p).g_gamma_i) (P' := fun p => (b'.b4 p).g_gamma_i)
    (fun p hp => (hc.reveals p hp).2) (fun p hp => (hc'.reveals p hp).2) hcom

/-! ### The point of signing is shown too early -/

/-- C106 is violated by the offline stage: the point that a signer commits to in round 1 and opens in round 4
is already in its answers of round 2. -/
theorem C106_gamma_disclosed {rnd : SignRandomness} {i : ℕ} {s_l : List ℕ} {key : LocalKey} {s : Sign.State}
    (hnew : Sign.new i s_l key = .ok s) (ops later : List (Op Sign.M)) {p : ℕ} {m : MessageB × MessageB}
    (hm : ⟨i, some p, .M2 m⟩ ∈ (Sign.machine rnd).sent ((Sign.machine rnd).run s ops)) {d : SignDecommitPhase1}
    (hd : ⟨i, none, .M4 d⟩ ∈ (Sign.machine rnd).sent ((Sign.machine rnd).run s (ops ++ later))) :
    m.1.b_proof.pk = d.g_gamma_i := by
  rw [(Sign.sent_gamma hnew ops).1 p m hm, (Sign.sent_gamma hnew _).2 d hd]

/-- C106: the same in the GG18 demo, where the answers are posted in round 2 as well. -/
theorem C106_gg18_gamma_disclosed {t i : ℕ} {rnd : ℕ → Demo.Sign.Rand} {ctx : Demo.Sign.Ctx}
    {ans : List (GG18.SignBroadcastPhase1 × MessageA)} {st : Demo.Sign.St2}
    {out : List (Msg (MessageB × MessageB))} (h : Demo.Sign.round2 t rnd i ctx ans = .ok (st, out))
    {m : Msg (MessageB × MessageB)} (hm : m ∈ out) : m.body.1.b_proof.pk = ctx.sign_keys.gamma_i • G := by
  unfold Demo.Sign.round2 at h
  simp only [Res.bind_eq_ok, Res.ok.injEq, Prod.mk.injEq] at h
  obtain ⟨_, -, _, -, os, ha, -, rfl⟩ := h
  obtain ⟨o, ho, rfl⟩ := List.mem_map.1 hm
  have hf := Res.mapM_eq_ok.1 ha
  obtain ⟨y, hy, rfl⟩ := List.getElem_of_mem ho
  have hb := (List.forall₂_iff_get.1 hf).2 y (by rw [hf.length_eq]; exact hy) hy
  simp only [List.get_eq_getElem, Demo.Sign.answer, Res.bind_eq_ok, Res.unwrap_eq_ok, Res.ok.injEq] at hb
  obtain ⟨_, -, _, -, _, -, g, hg, w, -, e⟩ := hb
  rw [← e]
  obtain ⟨-, -, rfl⟩ := MessageB.b_ok_iff.1 hg
  rfl

end

/-! ### On secp256k1 with SHA-256 -/

section

attribute [local instance] Secp256k1.crypto

/-- **C106** on secp256k1: two openings of one commitment are a collision of SHA-256. -/
theorem C106_keygen_secp {rnd rnd' : KeygenRandomness} {i t n : ℕ} {s s' : Keygen.State}
    {r r' : Res Keygen.Error Unit} (hnew : Keygen.new rnd i t n = .ok (s, r))
    (hnew' : Keygen.new rnd' i t n = .ok (s', r')) (ops ops' : List (Op Keygen.M)) {key key' : LocalKey}
    (ho : key ∈ ((Keygen.machine rnd).run s ops).outputs)
    (ho' : key' ∈ ((Keygen.machine rnd').run s' ops').outputs)
    (hcom : ∀ p ∈ peers i n, ∀ b b', ⟨p, none, .Round1 b⟩ ∈ ((Keygen.machine rnd).run s ops).accepted →
      ⟨p, none, .Round1 b'⟩ ∈ ((Keygen.machine rnd').run s' ops').accepted → b.com = b'.com) :
    key.public_key - rnd.u • (G : Pt) = key'.public_key - rnd'.u • (G : Pt) ∨
    ∃ p ∈ peers i n, ∃ d d', ⟨p, none, .Round2 d⟩ ∈ ((Keygen.machine rnd).run s ops).accepted ∧
      ⟨p, none, .Round2 d'⟩ ∈ ((Keygen.machine rnd').run s' ops').accepted ∧
      Collide Sha256.hash (intBytes [ser d.y_i, d.blind_factor]) (intBytes [ser d'.y_i, d'.blind_factor]) := by
  refine (C106_keygen_contributions hnew hnew' ops ops' ho ho' hcom).imp id ?_
  rintro ⟨p, hp, d, d', h1, h2, h3, h4⟩
  exact ⟨p, hp, d, d', h1, h2, (samePoint h4 rfl).resolve_left h3⟩

end

/-! ### The hypotheses above are met -/

section

attribute [local instance] Toy.crypto

/-- Two sessions of party 2 of 2 in which it sampled 3 and 6 and party 1 sent the same commitment; both
complete. -/
example : ∃ (rnd rnd' : KeygenRandomness) (s s' : Keygen.State) (ops ops' : List (Op Keygen.M))
    (key key' : LocalKey), rnd.u ≠ rnd'.u ∧
    Keygen.new rnd 2 1 2 = .ok (s, .ok ()) ∧ Keygen.new rnd' 2 1 2 = .ok (s', .ok ()) ∧
    key ∈ ((Keygen.machine rnd).run s ops).outputs ∧ key' ∈ ((Keygen.machine rnd').run s' ops').outputs ∧
    ∀ p ∈ peers 2 2, ∀ b b', ⟨p, none, .Round1 b⟩ ∈ ((Keygen.machine rnd).run s ops).accepted →
      ⟨p, none, .Round1 b'⟩ ∈ ((Keygen.machine rnd').run s' ops').accepted → b.com = b'.com := by
  obtain ⟨r0, h0, u0, c0⟩ := honestRandomness_exists 1 (5 : ZMod 31) [(7 : ZMod 31)] rfl
  obtain ⟨r1, h1, u1, c1⟩ := honestRandomness_exists 1 (3 : ZMod 31) [(4 : ZMod 31)] rfl
  obtain ⟨r2, h2, u2, c2⟩ := honestRandomness_exists 1 (6 : ZMod 31) [(1 : ZMod 31)] rfl
  obtain ⟨s, key, a1, a2, -⟩ := replaySession (rnd := fun k => if k = 0 then r0 else r1)
    (fun k => by split <;> assumption)
  obtain ⟨s', key', b1, b2, -⟩ := replaySession (rnd := fun k => if k = 0 then r0 else r2)
    (fun k => by split <;> assumption)
  refine ⟨r1, r2, s, s', _, _, key, key', by rw [u1, u2]; decide, a1, b1, a2, b2, ?_⟩
  intro p hp x y hx hy
  obtain rfl : p = 1 := by
    have : peers 2 2 = [1] := by decide
    rw [this] at hp
    exact List.mem_singleton.1 hp
  have hx := accepted_delivered _ _ _ _ hx
  have hy := accepted_delivered _ _ _ _ hy
  simp only [replayOps, List.mem_append, List.mem_cons, Op.deliver.injEq, Msg.mk.injEq, reduceCtorEq,
    List.not_mem_nil, or_false, and_false, true_and, Keygen.M.Round1.injEq] at hx hy
  rw [hx, hy]
  rfl

/-- A history with a completed offline stage, and what is needed of a second one (the same). -/
example : ∃ s c, Sign.new 1 [3, 1] (toyLocal 3) = .ok s ∧
    c ∈ ((Sign.machine (toySign 0)).run s ((toyOps ++ [.proceed, .proceed, .proceed]) ++ [.pick])).outputs ∧
    ∃ (own : Sign.TMsg) (d : ℕ → Sign.TMsg), ⟨1, none, .M3 own⟩ ∈ (Sign.machine (toySign 0)).sent ((Sign.machine (toySign 0)).run s
      ((toyOps ++ [.proceed, .proceed, .proceed]) ++ [.pick])) ∧
      ∀ p ∈ peers 1 2, ⟨p, none, .M3 (d p)⟩ ∈ ((Sign.machine (toySign 0)).run s
      ((toyOps ++ [.proceed, .proceed, .proceed]) ++ [.pick])).accepted := by
  obtain ⟨s, c, hs, hc⟩ := toy_outputs
  have hc : c ∈ ((Sign.machine (toySign 0)).run s
      ((toyOps ++ [.proceed, .proceed, .proceed]) ++ [.pick])).outputs := by rw [hc]; exact List.mem_singleton.2 rfl
  obtain ⟨b, own, hb, -, h3, -⟩ := C68_finished_has_checked hs _ hc
  exact ⟨s, c, hs, hc, own.m3, b.b3, h3, fun p hp => (hb p hp).2.2.1⟩

/-- C106: the signer of C44's example has shown its point to signer 2 when it has accepted nothing but the
first message of signer 2. -/
example : ∃ s m, Sign.new 1 [3, 1] (toyLocal 3) = .ok s ∧
    let h := (Sign.machine (toySign 0)).run s [.proceed, .deliver ⟨2, none, .M1 (toyB1 1)⟩, .proceed]
    (∀ x ∈ h.accepted, SignMsg.round x.body = 1) ∧
    ⟨1, some 2, .M2 m⟩ ∈ (Sign.machine (toySign 0)).sent h ∧ m.1.b_proof.pk = (toySign 0).gamma • G := by
  obtain ⟨s, hs⟩ := toy_new
  have hk : ((Sign.machine (toySign 0)).sent ((Sign.machine (toySign 0)).run s
        [.proceed, .deliver ⟨2, none, .M1 (toyB1 1)⟩, .proceed])).any (fun x =>
          match x.body with
          | .M2 _ => decide (x.sender = 1 ∧ x.receiver = some 2)
          | _ => false) = true := by
    unfold Sign.new at hs
    split_ifs at hs
    simp only [Except.ok.injEq] at hs
    subst hs
    decide +kernel
  obtain ⟨⟨a, r, x⟩, hx, ht⟩ := List.any_eq_true.1 hk
  cases x with
  | M2 m =>
    obtain ⟨rfl, rfl⟩ : a = 1 ∧ r = some 2 := by simpa using ht
    refine ⟨s, m, hs, fun x hx => ?_, hx, (Sign.sent_gamma hs _).1 2 m hx⟩
    have := accepted_delivered _ _ _ _ hx
    simp only [List.mem_cons, Op.deliver.injEq, reduceCtorEq, List.not_mem_nil, or_false, false_or] at this
    rw [this]
    rfl
  | _ => cases ht

/-- C106 (fixed): a session with a key, in which party 2 has shown its point; `a` and `b` may be empty. -/
example : ∃ (rnd : KeygenRandomness) (s : Keygen.State) (ops : List (Op Keygen.M)) (key : LocalKey)
    (d : KeyGenDecommitMessage1), Keygen.new rnd 2 1 2 = .ok (s, .ok ()) ∧
    key ∈ ((Keygen.machine rnd).run s ops).outputs ∧
    ⟨2, none, .Round2 d⟩ ∈ (Keygen.machine rnd).sent ((Keygen.machine rnd).run s ops) := by
  obtain ⟨r0, h0, u0, c0⟩ := honestRandomness_exists 1 (5 : ZMod 31) [(7 : ZMod 31)] rfl
  obtain ⟨s, key, a1, a2, -⟩ := replaySession (rnd := fun _ => r0) (fun _ => h0)
  obtain ⟨b1, b2, b3, b4, hb, hl⟩ := C22_output_correct a1 _ a2
  obtain ⟨bcs, ys, all, pfs, hs⟩ := Keygen.keygenLine_seen (k := 1) (t := 1) (n := 2) (by decide) (by decide)
    (congrArg Prod.snd hl)
  refine ⟨r0, s, _, key, ((Keys.create 2 r0.u r0.dk r0.aux).phase1_broadcast r0.blind r0.cd1 r0.cd2).2,
    a1, a2, ?_⟩
  have := hs.sent_eq
  rw [hl] at this
  dsimp only at this
  rw [this]
  exact List.mem_append_left _ (List.mem_append_left _ (List.mem_cons_of_mem _ (List.mem_singleton.2 rfl)))

/-- C106 (fixed): a completed offline stage of a signer that has opened its commitment. -/
example : ∃ s ops c d, Sign.new 1 [3, 1] (toyLocal 3) = .ok s ∧
    c ∈ ((Sign.machine (toySign 0)).run s ops).outputs ∧
    ⟨1, none, .M4 d⟩ ∈ (Sign.machine (toySign 0)).sent ((Sign.machine (toySign 0)).run s ops) := by
  obtain ⟨s, c, hs, hc⟩ := toy_outputs
  have hc : c ∈ ((Sign.machine (toySign 0)).run s
      ((toyOps ++ [.proceed, .proceed, .proceed]) ++ [.pick])).outputs := by rw [hc]; exact List.mem_singleton.2 rfl
  obtain ⟨b, own, -, -, -, h4, -⟩ := C68_finished_has_checked hs _ hc
  exact ⟨s, _, c, own.m4, hs, hc, h4⟩

/-- C106 (GG18): clients among honest peers complete. -/
example : (∃ b file, Demo.Keygen.client toyAead 1 3 toyKg 2 b = .ok file) ∧
    ∃ b sig, Demo.Sign.client 1 10 toyRoom 2 (Demo.Keygen.kFile 1 3 toyKg 0) b = .ok sig := by
  obtain ⟨b, hb⟩ := Demo.Keygen.client_honest toyAead (t := 1) (n := 3) (k := 1) (rnd := toyKg) (by decide)
    (fun k hk => toyKg_honest (by omega) (by omega)) (by decide)
  obtain ⟨x, dk, h, hx⟩ := toyRoom_room
  obtain ⟨b', sig, hb'⟩ := Demo.Sign.client_honest h hx (by decide) 10 toyRoom_message (k := 1) (by decide)
  exact ⟨⟨b, _, hb⟩, b', sig, hb'⟩

end

end Verif.Props
