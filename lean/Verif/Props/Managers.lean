import Verif.Lemmas.GG18Manager
import Verif.Lemmas.SignOnline
import Verif.Lemmas.SignPanic
import Verif.Model.Demo.Client
import Verif.Props.Sign
import Verif.Props.KeygenSM

/-!
# C60, C61, C63, C77 and C78: sign-ups, storage keys and what the demo clients read
-/

namespace Verif.Props

open Demo

/-! ### C61: storage keys -/

section Keys
open Demo.Manager

/-- A message of the GG18 demo clients, as they address it -/
inductive Slot where
  | broadcast (party : ℕ) (round uuid : String)
  | p2p (party_from party_to : ℕ) (round uuid : String)
  deriving DecidableEq

def Slot.round : Slot → String
  | .broadcast _ r _ => r
  | .p2p _ _ r _ => r

/-- The key it is stored and polled under -/
def Slot.key : Slot → String
  | .broadcast p r u => broadcastKey p r u
  | .p2p p p' r u => p2pKey p p' r u

/-- No dash, and not a number: the names "round0" to "round9" of the demos are like this. -/
def RoundName (r : String) : Prop := '-' ∉ r.toList ∧ ∃ c ∈ r.toList, c.isDigit = false

/-- **C61.** Different messages have different keys. -/
theorem C61_keys_distinct {a b : Slot} (ha : RoundName a.round) (hb : RoundName b.round)
    (h : a.key = b.key) : a = b := by
  have h' := congrArg String.toList h
  have no : ∀ {p p1 p2 : ℕ} {r r' u u' : String}, RoundName r →
      broadcastKey p r u ≠ p2pKey p1 p2 r' u' := by
    intro p p1 p2 r r' u u' hr e
    have e := congrArg String.toList e
    rw [broadcastKey_toList, p2pKey_toList] at e
    obtain ⟨-, e2⟩ := split_at_dash (dash_notMem _) (dash_notMem _) e
    obtain ⟨e3, -⟩ := split_at_dash hr.1 (dash_notMem _) e2
    obtain ⟨c, hc, hd⟩ := hr.2
    rw [e3] at hc
    rw [digit_of_mem hc] at hd
    exact absurd hd (by simp)
  cases a with
  | broadcast p r u =>
    cases b with
    | broadcast p' r' u' =>
      simp only [Slot.key, broadcastKey_toList] at h'
      obtain ⟨e1, e2⟩ := split_at_dash (dash_notMem _) (dash_notMem _) h'
      obtain ⟨e3, e4⟩ := split_at_dash (l := r.toList) (l' := r'.toList) ha.1 hb.1 e2
      rw [toDigits_inj e1, String.toList_inj.1 e3, String.toList_inj.1 e4]
    | p2p p1 p2 r' u' => exact absurd h (no ha)
  | p2p p1 p2 r u =>
    cases b with
    | broadcast p' r' u' => exact absurd h.symm (no hb)
    | p2p p1' p2' r' u' =>
      simp only [Slot.key, p2pKey_toList] at h'
      obtain ⟨e1, e2⟩ := split_at_dash (dash_notMem _) (dash_notMem _) h'
      obtain ⟨e3, e4⟩ := split_at_dash (dash_notMem _) (dash_notMem _) e2
      obtain ⟨e5, e6⟩ := split_at_dash (l := r.toList) (l' := r'.toList) ha.1 hb.1 e4
      rw [toDigits_inj e1, toDigits_inj e3, String.toList_inj.1 e5, String.toList_inj.1 e6]

/-- **C61.** No message is stored under the key of a sign-up counter. -/
theorem C61_not_a_counter (a : Slot) (kind : Kind) : a.key ≠ kind.key := by
  intro h
  have h' := congrArg String.toList h
  have key : ∀ (p : ℕ) (l : List Char), Nat.toDigits 10 p ++ l ≠ kind.key.toList := by
    intro p l e
    cases hd : Nat.toDigits 10 p with
    | nil => exact toDigits_ne_nil p hd
    | cons c cs =>
      have hc : c.isDigit = true := digit_of_mem (n := p) (by rw [hd]; simp)
      rw [hd] at e
      have : kind.key.toList.head? = some 's' := by cases kind <;> rfl
      rw [← e] at this
      simp only [List.cons_append, List.head?_cons, Option.some.injEq] at this
      rw [this] at hc
      exact absurd hc (by decide)
  cases a with
  | broadcast p r u => rw [Slot.key, broadcastKey_toList] at h'; exact key _ _ h'
  | p2p p1 p2 r u => rw [Slot.key, p2pKey_toList] at h'; exact key _ _ h'

/-- The round names of the demos -/
example : ∀ r ∈ ["round0", "round1", "round2", "round3", "round4", "round5", "round6", "round7", "round8",
    "round9"], RoundName r := by
  intro r hr
  fin_cases hr <;> exact ⟨by decide, 'r', by decide, by decide⟩

/-- The restriction on round names is needed: with a round called "2" keys clash. -/
example : (Slot.broadcast 1 "2" "round3-x").key = (Slot.p2p 1 2 "round3" "x").key := by decide

end Keys

/-! ### C60: sign-ups at the GG18 manager -/

section Signup
open Demo.Manager

variable (J : Json) (P : Params)

/-- **C60, partial.** If no sign-up of a kind arrives while another one of that kind is in progress, the
`k`-th one (from 0) gets the number `k % L + 1` of its session, where `L` is the number of parties (of
signers), whatever else the manager does meanwhile.  Missing: overlapping sign-ups, see `C60_race`. -/
theorem C60_serial_partial {kind : Kind} (hL : 0 < sessionSize P kind) (uk us : String) {es : List Event}
    (hs : Serial J P kind ⟨Table.init J uk us, []⟩ es) (hk : KeepsCounter kind es) :
    let answers := numbers kind (Mgr.run J P ⟨Table.init J uk us, []⟩ es).2
    (answers.length = (offered kind es).length ∨ answers.length + 1 = (offered kind es).length) ∧
    ∀ (k : ℕ) (a : Option PartySignup), answers[k]? = some a →
      a = some ⟨k % sessionSize P kind + 1,
        session (sessionSize P kind) (initialId uk us kind) (offered kind es) k⟩ := by
  have hsize : sessionSize P kind = P.limit kind := by cases kind <;> rfl
  rw [hsize] at hL ⊢
  intro answers
  let S : ℕ → String := fun b =>
    if b = 0 then initialId uk us kind else (offered kind es).getD (b * P.limit kind) ""
  have h0 : At J P kind S ⟨Table.init J uk us, []⟩ 0 0 := by
    refine .idle ?_ (by simp)
    cases kind <;> simp [Table.init, Table.insert, Kind.key, counter, S, initialId]
  obtain ⟨d, b', hat, hlen, hnum⟩ := run_at J P hL S es h0 hs hk (by
    intro i u hi hne hmod
    simp only [Nat.zero_add] at hne hmod ⊢
    have hdiv : i / P.limit kind * P.limit kind = i := by
      have := Nat.div_add_mod i (P.limit kind)
      rw [hmod, Nat.add_zero, Nat.mul_comm] at this
      exact this
    have hb : i / P.limit kind ≠ 0 := by
      intro h
      rw [h, Nat.zero_mul] at hdiv
      exact hne hdiv.symm
    simp only [S, if_neg hb, hdiv, List.getD_eq_getElem?_getD, hi, Option.getD_some])
  have hb' : b' = 0 ∨ b' = 1 := by cases hat <;> simp
  have hl : answers.length = d := by simp only [answers, hnum]; simp
  refine ⟨by omega, fun k a ha => ?_⟩
  simp only [answers, hnum] at ha
  simp only [List.getElem?_map] at ha
  have hkd : k < d := by
    by_contra hc
    rw [List.getElem?_eq_none (by simpa using hc)] at ha
    simp at ha
  rw [List.getElem?_eq_getElem (by simpa using hkd)] at ha
  simp only [List.getElem_range, Option.map_some, Option.some.injEq, Nat.zero_add] at ha
  rw [← ha]
  simp only [counter, session, S]
  by_cases hkl : k < P.limit kind
  · simp [hkl, Nat.div_eq_of_lt hkl]
  · have : k / P.limit kind ≠ 0 := by
      intro h
      exact hkl ((Nat.div_eq_zero_iff_lt hL).1 h)
    simp [hkl, this]

/-- **C60, partial.** Under the same condition, and if the session ids drawn are distinct, no two sign-ups
get the same number of the same session. -/
theorem C60_distinct_partial {kind : Kind} (hL : 0 < sessionSize P kind) (uk us : String) {es : List Event}
    (hs : Serial J P kind ⟨Table.init J uk us, []⟩ es) (hk : KeepsCounter kind es)
    (hd : (initialId uk us kind :: offered kind es).Nodup) :
    (numbers kind (Mgr.run J P ⟨Table.init J uk us, []⟩ es).2).Nodup := by
  obtain ⟨hlen, hall⟩ := C60_serial_partial J P hL uk us hs hk
  rw [List.nodup_iff_injective_get]
  intro ⟨k, hk1⟩ ⟨k', hk2⟩ he
  simp only [List.get_eq_getElem] at he
  have e1 := hall k _ (List.getElem?_eq_getElem hk1)
  have e2 := hall k' _ (List.getElem?_eq_getElem hk2)
  rw [he] at e1
  rw [e1] at e2
  simp only [Option.some.injEq, PartySignup.mk.injEq, Nat.add_right_cancel_iff] at e2
  obtain ⟨e3, e4⟩ := e2
  generalize initialId uk us kind = first at hd e4
  generalize hLe : sessionSize P kind = L at *
  have hin : ∀ k, k < (numbers kind (Mgr.run J P ⟨Table.init J uk us, []⟩ es).2).length →
      k / L * L < (offered kind es).length := by
    intro k hk
    have := Nat.div_mul_le_self k L
    omega
  have hdiv : k / L = k' / L := by
    simp only [session] at e4
    have hx : ∀ k, k < (numbers kind (Mgr.run J P ⟨Table.init J uk us, []⟩ es).2).length →
        (offered kind es).getD (k / L * L) "" ∈ offered kind es := by
      intro k hk
      rw [List.getD_eq_getElem?_getD, List.getElem?_eq_getElem (hin k hk), Option.getD_some]
      exact List.getElem_mem _
    rw [List.nodup_cons] at hd
    split_ifs at e4 with c1 c2 c2
    · rw [Nat.div_eq_of_lt c1, Nat.div_eq_of_lt c2]
    · exact absurd (e4 ▸ hx k' hk2) hd.1
    · exact absurd (e4 ▸ hx k hk1) hd.1
    · rw [List.getD_eq_getElem?_getD, List.getElem?_eq_getElem (hin k hk1), Option.getD_some,
        List.getD_eq_getElem?_getD, List.getElem?_eq_getElem (hin k' hk2), Option.getD_some] at e4
      have := (hd.2.getElem_inj_iff).1 e4
      exact Nat.eq_of_mul_eq_mul_right hL this
  have h1 := Nat.div_add_mod k L
  rw [hdiv, e3, Nat.div_add_mod] at h1
  exact Fin.ext h1.symm

/-- **C60 is violated.** Two sign-ups that overlap get the same number of the same session: each reads the
counter before either writes it. -/
theorem C60_race {kind : Kind} (hL : 0 < P.limit kind) (uk us u1 u2 : String) :
    numbers kind (Mgr.run J P ⟨Table.init J uk us, []⟩
      [.signupRead kind u1, .signupRead kind u2, .signupWrite 0, .signupWrite 0]).2 =
        [some ⟨1, initialId uk us kind⟩, some ⟨1, initialId uk us kind⟩] := by
  have h : ∀ u, readPhase J P (Table.init J uk us) kind u = some ⟨1, initialId uk us kind⟩ := by
    intro u
    cases kind <;>
      simp [readPhase, Table.init, Table.insert, Kind.key, J.read_write, hL, initialId]
  simp only [Mgr.run, Mgr.step, h]
  simp [numbers]

/-- **C60 is violated.** When the reply to the first attempt of a sign-up gets lost, the client's second
attempt is a second sign-up: number 1 is never used, so the other parties wait for it forever. -/
theorem C60_lost_reply {kind : Kind} (hL : 1 < P.limit kind) (uk us u : String) {net : ℕ → Net}
    (h1 : net 1 = .replyLost) (h2 : net 2 = .ok) :
    (postb (signup J P kind u) net (Table.init J uk us)).2 = some (some ⟨2, initialId uk us kind⟩) := by
  have h0 : 0 < P.limit kind := by omega
  cases kind <;>
    simp [postb, postbLoop, List.range', h1, h2, signup, readPhase, writePhase, Table.init, Table.insert,
      Kind.key, J.read_write, hL, h0, initialId]

end Signup

/-! ### C78: what a poller gets -/

section Poll
open Demo.Manager

variable (J : Json) (P : Params)

theorem tab_run {key : String} (hk : ∀ kind : Kind, key ≠ kind.key) (es : List Event) (m : Mgr) :
    (m.run J P es).1.tab key = (lastSet key es).or (m.tab key) := by
  induction es generalizing m with
  | nil => rfl
  | cons e es ih =>
    simp only [Mgr.run, ih]
    cases e with
    | get k => rfl
    | set k v =>
      simp only [Mgr.step, lastSet, List.filterMap_cons, Table.insert]
      by_cases h : k = key
      · subst h
        simp only [if_true, List.getLast?_cons]
        cases h2 : (List.filterMap _ es).getLast? <;> simp
      · simp [h, Ne.symm h]
    | signupRead k u =>
      simp only [Mgr.step]
      cases readPhase J P m.tab k u <;> rfl
    | signupWrite j =>
      simp only [Mgr.step]
      cases m.busy[j]? with
      | none => rfl
      | some ks => simp [writePhase, Table.insert, hk ks.1, lastSet]

theorem mgr_run_append (m : Mgr) (es es' : List Event) :
    (m.run J P (es ++ es')).2 = (m.run J P es).2 ++ ((m.run J P es).1.run J P es').2 := by
  induction es generalizing m with
  | nil => rfl
  | cons e es ih => simp only [List.cons_append, Mgr.run, ih, List.append_assoc]

/-- **C78.** In every interleaving of requests, a client that polls for a message gets nothing as long as
nothing was posted under its key, and otherwise what was posted last. -/
theorem C78_poll (uk us : String) (a : Slot) (es : List Event) :
    (Mgr.run J P ⟨Table.init J uk us, []⟩ (es ++ [.get a.key])).2 =
      (Mgr.run J P ⟨Table.init J uk us, []⟩ es).2 ++ [.value a.key (lastSet a.key es)] := by
  rw [mgr_run_append]
  simp only [Mgr.run, Mgr.step, tab_run J P (C61_not_a_counter a)]
  have h1 := C61_not_a_counter a .keygen
  have h2 := C61_not_a_counter a .sign
  simp [Table.init, Table.insert, h1, h2]

/-- **C78.** If all that is ever posted for a message is `v` (its sender is the only one to post it, once or
more), no poll ever returns anything else. -/
theorem C78_only_what_was_sent (uk us : String) (a : Slot) (v : String) (es : List Event)
    (hv : ∀ v', Event.set a.key v' ∈ es → v' = v) :
    ∀ x ∈ got a.key (Mgr.run J P ⟨Table.init J uk us, []⟩ es).2, x = none ∨ x = some v := by
  have key : ∀ (es : List Event) (m : Mgr), (∀ v', Event.set a.key v' ∈ es → v' = v) →
      (m.tab a.key = none ∨ m.tab a.key = some v) →
      ∀ x ∈ got a.key (m.run J P es).2, x = none ∨ x = some v := by
    intro es
    induction es with
    | nil => intro m _ _ x hx; simp [Mgr.run, got] at hx
    | cons e es ih =>
      intro m hv hm x hx
      have hstep : (m.step J P e).1.tab a.key = none ∨ (m.step J P e).1.tab a.key = some v := by
        have e1 := tab_run J P (C61_not_a_counter a) [e] m
        simp only [Mgr.run] at e1
        rw [e1]
        cases e with
        | set k v' =>
          by_cases hk : k = a.key
          · subst hk
            rw [hv v' (by simp)]
            simp [lastSet]
          · simpa [lastSet, hk] using hm
        | _ => simpa [lastSet] using hm
      simp only [Mgr.run, got, List.filterMap_append, List.mem_append] at hx
      rcases hx with hx | hx
      · cases e with
        | get k =>
          by_cases hk : k = a.key
          · subst hk
            simp [Mgr.step] at hx
            rw [hx]; exact hm
          · simp [Mgr.step, hk] at hx
        | set k v' => simp [Mgr.step] at hx
        | signupRead k u =>
          simp only [Mgr.step] at hx
          cases hr : readPhase J P m.tab k u <;> simp [hr] at hx
        | signupWrite j =>
          simp only [Mgr.step] at hx
          cases hr : m.busy[j]? <;> simp [hr] at hx
      · exact ih _ (fun v' h => hv v' (List.mem_cons_of_mem _ h)) hstep x hx
  refine key es _ hv (Or.inl ?_)
  have h1 := C61_not_a_counter a .keygen
  have h2 := C61_not_a_counter a .sign
  simp [Table.init, Table.insert, h1, h2]

/-- **C78.** A client that got an answer to a post has its message stored, however often the request was
repeated; without an answer it is stored or nothing has changed. -/
theorem C78_post (key v : String) (net : ℕ → Net) (tab : Table) :
    let r := postb (fun t : Table => (t.insert key v, ())) net tab
    (r.2 = some () → r.1 = tab.insert key v) ∧ (r.1 = tab.insert key v ∨ r.1 = tab) ∧
      (r.2 = none ↔ net 1 ≠ .ok ∧ net 2 ≠ .ok) := by
  have hi : (tab.insert key v).insert key v = tab.insert key v := by
    funext k
    simp only [Table.insert]
    split_ifs <;> rfl
  simp only [postb, postbLoop, List.range']
  cases h1 : net 1 <;> cases h2 : net 2 <;> simp [hi]

end Poll

/-! ### C60, C78: concrete runs -/

section Examples
open Demo.Manager

/-- A stand-in for JSON -/
def toyJson : Json where
  write p := "<" ++ toString p.number ++ "-" ++ p.uuid
  read s := match s.toList with
    | '<' :: l => some ⟨Nat.ofDigitChars 10 (l.takeWhile (· ≠ '-')) 0,
        String.ofList ((l.dropWhile (· ≠ '-')).drop 1)⟩
    | _ => none
  read_write p := by
    have h1 : ∀ c ∈ Nat.toDigits 10 p.number, (!decide (c = '-')) = true := by
      intro c hc
      rw [Bool.not_eq_true', decide_eq_false_iff_not]
      rintro rfl
      exact dash_notMem _ hc
    have h2 : (Nat.toDigits 10 p.number ++ '-' :: p.uuid.toList).takeWhile (fun c => !decide (c = '-')) =
        Nat.toDigits 10 p.number := by
      rw [List.takeWhile_append_of_pos h1]; simp
    have h3 : (Nat.toDigits 10 p.number ++ '-' :: p.uuid.toList).dropWhile (fun c => !decide (c = '-')) =
        '-' :: p.uuid.toList := by
      rw [List.dropWhile_append_of_pos h1]; simp
    simp only [String.toList_append, show "<".toList = ['<'] from rfl, show "-".toList = ['-'] from rfl,
      List.cons_append, List.append_assoc, Nat.toString_eq_repr, Nat.toList_repr]
    simp [h2, h3]

/-- Two parties: three sign-ups one after the other, with a sign-up for signing and a message between the
halves of the second. -/
def toyEvents : List Event :=
  [.signupRead .keygen "b", .signupWrite 0, .signupRead .keygen "c", .signupRead .sign "d",
    .set (broadcastKey 1 "round1" "k") "hello", .signupWrite 0, .get (broadcastKey 1 "round1" "k"),
    .signupRead .keygen "e", .signupWrite 1]

example : (0 < (Params.mk 2 1).limit .keygen) ∧
    Serial toyJson ⟨2, 1⟩ .keygen ⟨Table.init toyJson "k" "s", []⟩ toyEvents ∧
    KeepsCounter .keygen toyEvents ∧ ("k" :: offered .keygen toyEvents).Nodup := by
  refine ⟨by decide, ?_, ?_, by decide⟩
  · simp [toyEvents, Serial, Mgr.step, readPhase, writePhase, Table.init, Table.insert, Kind.key,
      toyJson.read_write, Params.limit, broadcastKey]
  · intro v hv
    simp only [toyEvents, List.mem_cons, reduceCtorEq, false_or, or_false, Event.set.injEq,
      List.not_mem_nil] at hv
    exact C61_not_a_counter (.broadcast 1 "round1" "k") .keygen hv.1.symm

example := C60_race toyJson ⟨2, 1⟩ (kind := .keygen) (by decide) "k" "s" "b" "c"
example := C60_lost_reply toyJson ⟨2, 1⟩ (kind := .sign) (by decide) "k" "s" "b"
  (net := fun i => if i = 1 then .replyLost else .ok) rfl rfl

example : ∀ v', Event.set (Slot.broadcast 1 "round1" "k").key v' ∈ toyEvents → v' = "hello" := by
  simp [toyEvents, Slot.key]

end Examples

/-! ### C63: the online stage of the GG20 signing demo -/

section Online
open EC Crypto GG20 GG20.Sign Spec Demo.Client

variable [Crypto]

/-- Signers 1 to `n` published one partial signature each in the online room, in any order; anything may
have been published after these. -/
def OnlineRoom {β : Type} (n : ℕ) (s : ℕ → β) (h : List (Msg β)) : Prop :=
  ∃ h' later, h = h' ++ later ∧ h'.Perm ((List.range' 1 n).map (fun i => partialMsg i (s i)))

omit [Crypto] in
/-- **C63.** A signer with the index `o` in the online room collects the partial signatures of all signers
but the one that had the index `o` in the *offline* room. -/
theorem C63_collected {β : Type} {n o : ℕ} {s : ℕ → β} {h : List (Msg β)} (ho : 1 ≤ o ∧ o ≤ n)
    (hr : OnlineRoom n s h) :
    ∃ l, collect n o h = some l ∧ l.Perm ((peers o n).map s) := by
  obtain ⟨h, later, rfl, hr⟩ := hr
  have h1 : (incoming o h).Perm ((peers o n).map (fun i => partialMsg i (s i))) := by
    refine (hr.filter (accepts o)).trans ?_
    rw [List.filter_map]
    refine List.Perm.of_eq (congrArg _ ?_)
    refine List.filter_congr fun p _ => ?_
    simp only [accepts, partialMsg, Function.comp, Option.isNone_none, Bool.true_or, Bool.and_true]
    congr
  have h2 : (peers o n).length = n - 1 := by
    rw [show o = (o - 1) + 1 by omega, peers_eq_others, List.length_map, length_others (by omega)]
  have h3 : (incoming o h).length = n - 1 := by rw [h1.length_eq, List.length_map, h2]
  refine ⟨(incoming o h).map (·.body), ?_, ?_⟩
  · unfold collect
    have h4 : incoming o (h ++ later) = incoming o h ++ incoming o later := List.filter_append ..
    simp only
    rw [h4, ← h3, List.take_left, if_pos rfl]
  · have := h1.map (fun m : Msg β => m.body)
    rwa [List.map_map] at this

omit [Crypto] in
/-- **C63.** So it collects exactly the other signers' partial signatures if its two indices agree. -/
theorem C63_same_index_partial {β : Type} {n i : ℕ} {s : ℕ → β} {h : List (Msg β)} (hi : 1 ≤ i ∧ i ≤ n)
    (hr : OnlineRoom n s h) : ∃ l, collect n i h = some l ∧ l.Perm ((peers i n).map s) :=
  C63_collected hi hr

omit [Crypto] in
/-- **C63 is violated** by every signer whose two indices differ: it collects its own partial signature, and
not that of the signer that has its online index as offline index. -/
theorem C63_other_index {β : Type} {n i o : ℕ} {s : ℕ → β} {h : List (Msg β)} (hi : 1 ≤ i ∧ i ≤ n)
    (ho : 1 ≤ o ∧ o ≤ n) (hne : o ≠ i) (hs : ∀ j, s j = s o → j = o) (hr : OnlineRoom n s h) :
    ∃ l, collect n o h = some l ∧ s i ∈ l ∧ s o ∉ l := by
  obtain ⟨l, h1, h2⟩ := C63_collected ho hr
  refine ⟨l, h1, ?_, ?_⟩
  · rw [h2.mem_iff]
    refine List.mem_map_of_mem ?_
    simp only [peers, List.mem_filter, List.mem_range'_1, decide_eq_true_eq]
    omega
  · rw [h2.mem_iff, List.mem_map]
    rintro ⟨j, hj, e⟩
    simp only [peers, List.mem_filter, decide_eq_true_eq] at hj
    exact hj.2 (hs j e)

theorem sum_peers {n i : ℕ} (hi : 1 ≤ i ∧ i ≤ n) (f : ℕ → Sc) :
    f i + ((peers i n).map f).sum = ∑ j ∈ Finset.range n, f (j + 1) := by
  have := sum_others (m := n) (k := i - 1) (by omega) (fun j => f (j + 1))
  rw [← this, show peers i n = peers (i - 1 + 1) n by rw [Nat.sub_add_cancel hi.1], peers_eq_others,
    List.map_map]
  simp only [GG20.Sign.others, Nat.sub_add_cancel hi.1]
  rfl

/-- **C63.** If the indices agree and the offline stages passed the public checks, the demo prints a valid
signature, in whatever order the partial signatures were published; the exception `m G + r Y = 0` is that of
C41. -/
theorem C63_signature_partial {n i : ℕ} (hi : 1 ≤ i ∧ i ≤ n) {k sigma : ℕ → Sc} {R Y : Pt}
    (h5 : phase5_check_R_dash_sum ((List.range n).map (fun j => k (j + 1) • R)) = .ok ())
    (h6 : phase6_check_S_i_sum Y ((List.range n).map (fun j => sigma (j + 1) • R)) = .ok ())
    {x y : ℕ} (hR : coords R = some (x, y)) {message : ℤ}
    (hne : (message : Sc) • G + (x : Sc) • Y ≠ 0) {h : List (Msg Sc)}
    (hr : OnlineRoom n (fun j => (message : Sc) * k j + (x : Sc) * sigma j) h) :
    ∃ sig, Demo.Client.online n i message ⟨k i, R, sigma i, Y⟩ h = some (.ok sig) ∧
      EcdsaEq Y message sig.r sig.s ∧ LowS sig.s := by
  obtain ⟨x', y', hR', hall⟩ := C41_checks_force_signature (m := n) (k := fun j => k (j + 1))
    (sigma := fun j => sigma (j + 1)) h5 h6
  rw [hR] at hR'
  obtain ⟨rfl, rfl⟩ : x = x' ∧ y = y' := by simpa using hR'
  obtain ⟨st, h1, h2, -⟩ := hall message (i - 1) (by omega)
  obtain ⟨sig, h3, h4, h4', -⟩ := h2 hne
  simp only [Nat.sub_add_cancel hi.1] at h1
  obtain ⟨l, h7, h8⟩ := C63_collected hi hr
  refine ⟨sig, ?_, h4, h4'⟩
  unfold Demo.Client.online
  simp only [h7, h1, Option.bind_eq_bind, Option.bind_some, Res.bind_ok, ← h3]
  have hst : st.R = R := by
    rw [new_eq (c := ⟨k i, R, sigma i, Y⟩) hR] at h1
    simp only [Res.ok.injEq, Prod.mk.injEq] at h1
    rw [← h1.1]
  have hsum : l.sum = (((List.range n).map (fun j => (message : Sc) * k (j + 1) + (x : Sc) * sigma (j + 1))).eraseIdx
      (i - 1)).sum := by
    have e1 := sum_peers hi (fun j => (message : Sc) * k j + (x : Sc) * sigma j)
    have e2 := sum_others (m := n) (k := i - 1) (by omega)
      (fun j => (message : Sc) * k (j + 1) + (x : Sc) * sigma (j + 1))
    rw [filter_range_ne (by omega), ← List.eraseIdx_map] at e2
    simp only [Nat.sub_add_cancel hi.1] at e2
    rw [← e2] at e1
    rw [h8.sum_eq]
    exact add_left_cancel e1
  congr 1
  unfold SignManual.complete
  rw [gg20_output_eq st l (by rw [hst, hR]), gg20_output_eq st _ (by rw [hst, hR]), hsum]

/-- If the indices differ, the demo fails unless the wrong sum happens to be a signature as well. -/
theorem C63_other_index_result {n i o : ℕ} (ho : 1 ≤ o ∧ o ≤ n) {k sigma : ℕ → Sc}
    {R Y : Pt} {x y : ℕ} (hR : coords R = some (x, y)) {message : ℤ} {h : List (Msg Sc)}
    (hr : OnlineRoom n (fun j => (message : Sc) * k j + (x : Sc) * sigma j) h) :
    (∃ sig, Demo.Client.online n o message ⟨k i, R, sigma i, Y⟩ h = some (.ok sig)) ↔
      EcdsaEq Y message (x : Sc) ((message : Sc) * k i + (x : Sc) * sigma i +
        ((peers o n).map (fun j => (message : Sc) * k j + (x : Sc) * sigma j)).sum) := by
  obtain ⟨l, h7, h8⟩ := C63_collected ho hr
  unfold Demo.Client.online
  simp only [h7, new_eq (c := ⟨k i, R, sigma i, Y⟩) hR, Option.bind_eq_bind, Option.bind_some,
    Res.bind_ok, ← h8.sum_eq]
  constructor
  · rintro ⟨sig, hs⟩
    exact ((gg20_output_ok_iff _ _ hR _).1 (Option.some.inj hs)).1
  · intro he
    exact ⟨_, congrArg some (complete_eq (st := ⟨_, R, _, _, _⟩) hR he)⟩

end Online

section OnlineExamples
open EC Crypto GG20 GG20.Sign Spec Demo.Client

attribute [local instance] Toy.crypto

/-- Two signers with `k = 3, 4` and `sigma = 4, 4` -/
def toyCompleted (i : ℕ) : CompletedOfflineStage :=
  ⟨((2 + i : ℕ) : ZMod 31), (9 : ZMod 31), (4 : ZMod 31), (10 : ZMod 31)⟩

/-- What they publish for the message 3; `r` is 20. -/
def toyOnlineRoom : List (Msg (ZMod 31)) :=
  [partialMsg 2 (3 * 4 + 20 * 4 : ZMod 31), partialMsg 1 (3 * 3 + 20 * 4 : ZMod 31)]

/-- The offline stages pass the public checks. -/
example : phase5_check_R_dash_sum ((List.range 2).map (fun j => (toyCompleted (j + 1)).k_i • (9 : ZMod 31)))
      = .ok () ∧
    phase6_check_S_i_sum (10 : ZMod 31)
      ((List.range 2).map (fun j => (toyCompleted (j + 1)).sigma_i • (9 : ZMod 31))) = .ok () := by
  decide +kernel

/-- Same indices in both rooms: both signers get the signature. -/
example : (∃ sig, Demo.Client.online 2 1 3 (toyCompleted 1) toyOnlineRoom = some (.ok sig)) ∧
    ∃ sig, Demo.Client.online 2 2 3 (toyCompleted 2) toyOnlineRoom = some (.ok sig) :=
  ⟨⟨⟨(20 : ZMod 31), (5 : ZMod 31), 0⟩, by decide +kernel⟩, ⟨(20 : ZMod 31), (5 : ZMod 31), 0⟩,
    by decide +kernel⟩

/-- **C63 is violated.** When the signers join the online room in the other order, both fail. -/
theorem C63_swapped_rooms_fail :
    Demo.Client.online 2 2 3 (toyCompleted 1) toyOnlineRoom = some (.err .InvalidSig) ∧
    Demo.Client.online 2 1 3 (toyCompleted 2) toyOnlineRoom = some (.err .InvalidSig) := by
  decide +kernel

end OnlineExamples

/-! ### C77: the key generation demo -/

section KeygenDemo
open EC Crypto GG20 GG20.Keygen Spec Demo.Client

/-- **C77.** A client reads exactly the messages for the party it plays if and only if the index the server
issued is the index given on the command line. -/
theorem C77_reads_own_messages_iff {β : Type} [Inhabited β] (issued index : ℕ) :
    (∀ h : List (Msg β), incoming issued h = forParty index h) ↔ issued = index := by
  have heq : ∀ i, (incoming (β := β) i) = forParty i := by
    intro i
    funext h
    unfold incoming forParty
    refine List.filter_congr fun m _ => ?_
    unfold accepts
    cases m.receiver <;> simp
  constructor
  · intro h
    by_contra hne
    have := h [⟨issued, none, default⟩]
    rw [heq] at this
    simp [forParty, hne] at this
  · rintro rfl h
    rw [heq]

/-- It never reads a message of the party that has the issued index. -/
theorem C77_deaf {β : Type} (issued : ℕ) (h : List (Msg β)) : ∀ m ∈ incoming issued h, m.sender ≠ issued := by
  intro m hm
  simp only [incoming, List.mem_filter, accepts, Bool.and_eq_true, decide_eq_true_eq] at hm
  exact hm.2.1

variable [Crypto]

omit [Crypto] in
theorem accepted_delivered {σ μ ω ε : Type} (mc : StateMachine σ μ ω ε) (s : σ) (ops : List (Op μ)) :
    ∀ m ∈ (mc.run s ops).accepted, .deliver m ∈ ops := by
  induction ops using List.reverseRecOn with
  | nil => intro m hm; simp [StateMachine.run] at hm
  | append_singleton ops op ih =>
    intro m hm
    have hrun : mc.run s (ops ++ [op]) = mc.step (mc.run s ops) op := by
      simp [StateMachine.run]
    have hrec : ∀ h r, (StateMachine.record h r : History σ μ ω ε).accepted = h.accepted := by
      intro h r
      unfold StateMachine.record
      split <;> rfl
    rw [hrun] at hm
    have hold : m ∈ (mc.run s ops).accepted ∨ op = .deliver m := by
      unfold StateMachine.step at hm
      split_ifs at hm with hp
      · exact .inl hm
      · cases op with
        | deliver m' =>
          simp only at hm
          split_ifs at hm with ht
          · simp only [List.mem_append, List.mem_singleton] at hm
            rcases hm with hm | rfl
            · exact .inl hm
            · exact .inr rfl
          · rw [hrec] at hm; exact .inl hm
        | proceed => rw [hrec] at hm; exact .inl hm
        | drain => exact .inl hm
        | pick =>
          simp only at hm
          split at hm <;> exact .inl hm
    rcases hold with h | rfl
    · exact List.mem_append_left _ (ih m h)
    · simp

/-- **C77 is violated.** A party whose issued index is that of another party never gets a key, whatever was
published in the room and whenever the machine is called. -/
theorem C77_other_index_no_key {rnd : KeygenRandomness} {index t n issued : ℕ} {s : State}
    {r : Res Keygen.Error Unit} (hnew : Keygen.new rnd index t n = .ok (s, r))
    (hi : 1 ≤ issued ∧ issued ≤ n) (hne : issued ≠ index) {history : List (Msg M)} {ops : List (Op M)}
    (hops : ∀ m, .deliver m ∈ ops → m ∈ incoming issued history) :
    ((machine rnd).run s ops).outputs = [] := by
  rw [List.eq_nil_iff_forall_not_mem]
  intro key hkey
  obtain ⟨b1, b2, b3, b4, hall, -⟩ := C22_output_correct hnew ops hkey
  have hp : issued ∈ peers index n := by
    simp only [peers, List.mem_filter, List.mem_range'_1, decide_eq_true_eq]
    omega
  exact C77_deaf _ _ _ (hops _ (accepted_delivered _ _ _ _ (hall issued hp).1)) rfl

/-- Party 2 joined first -/
example (rnd : KeygenRandomness) : ∃ s, Keygen.new rnd 2 1 3 = .ok (s, .ok ()) ∧ (1 ≤ 1 ∧ 1 ≤ 3) ∧ 1 ≠ 2 := by
  obtain ⟨s, h⟩ := new_213 rnd
  exact ⟨s, h, by decide, by decide⟩

end KeygenDemo

end Verif.Props
