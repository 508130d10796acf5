import Verif.Ext.Store
import Mathlib.Data.List.Basic
import Mathlib.Logic.Function.Basic
import Mathlib.Data.List.Range

/-! # Lemmas about message stores -/

namespace Verif

/-- A message is addressed as party `me` of `n` expects it: from another party, and either a broadcast
or for `me`. -/
structure Addressed (me n : ℕ) (p2p : Bool) (sender : ℕ) (receiver : Option ℕ) : Prop where
  pos : 1 ≤ sender
  le : sender ≤ n
  ne : sender ≠ me
  recv : receiver = if p2p then some me else none

namespace Store

variable {β : Type}

/-- The party whose message is kept in slot `i`. -/
def owner (me i : ℕ) : ℕ := if i + 1 < me then i + 1 else i + 2

theorem owner_slot {me s : ℕ} (h0 : 1 ≤ me) (h1 : 1 ≤ s) (h2 : s ≠ me) : owner me (slot me s) = s := by
  unfold owner slot
  by_cases h : s < me
  · rw [if_pos h, if_pos (show s - 1 + 1 < me by omega)]; omega
  · rw [if_neg h, if_neg (show ¬ s - 2 + 1 < me by omega)]; omega

theorem slot_owner {me i : ℕ} : slot me (owner me i) = i := by
  unfold owner slot; split_ifs <;> omega

theorem slot_lt {me n s : ℕ} (h : 1 ≤ me) (h' : me ≤ n) (h1 : 1 ≤ s) (h2 : s ≠ me) :
    slot me s < n - 1 ↔ s ≤ n := by
  unfold slot; split <;> omega

theorem owner_ne {me i : ℕ} : owner me i ≠ me := by unfold owner; split <;> omega
theorem owner_pos {me i : ℕ} : 1 ≤ owner me i := by unfold owner; split <;> omega
theorem owner_le {me n i : ℕ} (h : i < n - 1) : owner me i ≤ n := by
  unfold owner; split <;> omega
theorem owner_inj {me i j : ℕ} (h : owner me i = owner me j) : i = j := by
  unfold owner at h; split at h <;> split at h <;> omega
theorem owner_strictMono {me i j : ℕ} (h : i < j) : owner me i < owner me j := by
  unfold owner; split <;> split <;> omega

/-- The store of `me` holds exactly the messages `L`. -/
structure Holds (me n : ℕ) (p2p : Bool) (st : Store β) (L : ℕ → Option β) : Prop where
  party : st.party_i = me
  kind : st.p2p = p2p
  msgs : st.msgs = (List.range (n - 1)).map L
  left : st.msgs_left = ((List.range (n - 1)).filter (fun i => (L i).isNone)).length

theorem holds_new (β : Type) (me n : ℕ) (p2p : Bool) :
    Holds me n p2p (new β p2p me n) (fun _ => none) := by
  refine ⟨rfl, rfl, ?_, ?_⟩
  · simp only [new]
    rw [List.map_const', List.length_range]
  · simp [new]

theorem wants_more_iff {me n : ℕ} {p2p : Bool} {st : Store β} {L : ℕ → Option β}
    (h : Holds me n p2p st L) : st.wants_more = true ↔ ∃ i < n - 1, L i = none := by
  rw [wants_more, decide_eq_true_eq, h.left, List.length_pos_iff_exists_mem]
  simp [Option.isNone_iff_eq_none]

theorem finish_eq {me n : ℕ} {p2p : Bool} {st : Store β} {L : ℕ → Option β}
    (h : Holds me n p2p st L) (hf : ∀ i < n - 1, (L i).isSome) :
    st.finish = .ok ((List.range (n - 1)).filterMap L) := by
  have h0 : ¬ 0 < st.msgs_left := by
    rw [h.left, List.length_pos_iff_exists_mem]
    rintro ⟨i, hi⟩
    rw [List.mem_filter, List.mem_range, Option.isNone_iff_eq_none] at hi
    have := hf i hi.1
    rw [hi.2] at this
    simp at this
  rw [finish, if_neg h0, h.msgs]
  have key : ∀ l : List ℕ, (∀ i ∈ l, (L i).isSome) →
      Res.mapM (Res.ofOption : Option β → Res StoreErr β) (l.map L) = .ok (l.filterMap L) := by
    intro l
    induction l with
    | nil => intro _; rfl
    | cons a l ih =>
      intro hl
      obtain ⟨b, hb⟩ := Option.isSome_iff_exists.1 (hl a (by simp))
      simp only [List.map_cons, Res.mapM, hb, Res.ofOption_some, Res.bind_ok,
        List.filterMap_cons_some hb]
      rw [ih (fun i hi => hl i (by simp [hi]))]
      rfl
  exact key _ (by simpa using hf)

theorem push_refused {me n : ℕ} {p2p : Bool} {st : Store β} {L : ℕ → Option β}
    (h : Holds me n p2p st L) (h1 : 1 ≤ me) (h2 : me ≤ n) (m : Msg β)
    (hm : ¬ (Addressed me n p2p m.sender m.receiver ∧ L (slot me m.sender) = none)) :
    ∃ e, st.push_msg m = .err e := by
  unfold push_msg
  rw [h.party, h.kind, h.msgs]
  split_ifs with c1 c2 c3 c4 c5
  all_goals try exact ⟨_, rfl⟩
  rw [List.getElem?_map]
  by_cases hs : slot me m.sender < n - 1
  · rw [List.getElem?_range hs]
    simp only [Option.map_some]
    cases hL : L (slot me m.sender) with
    | some b => exact ⟨_, rfl⟩
    | none =>
      exfalso
      refine hm ⟨⟨by omega, (slot_lt h1 h2 (by omega) c5).1 hs, c5, ?_⟩, hL⟩
      cases p2p
      · simpa using c2
      · simpa using c4
  · rw [List.getElem?_eq_none (by simpa using hs)]
    exact ⟨_, rfl⟩

theorem push_taken {me n : ℕ} {p2p : Bool} {st : Store β} {L : ℕ → Option β}
    (h : Holds me n p2p st L) (h1 : 1 ≤ me) (h2 : me ≤ n) (m : Msg β)
    (ha : Addressed me n p2p m.sender m.receiver) (hL : L (slot me m.sender) = none) :
    ∃ st', st.push_msg m = .ok st' ∧
      Holds me n p2p st' (Function.update L (slot me m.sender) (some m.body)) := by
  have hs := (slot_lt h1 h2 ha.pos ha.ne).2 ha.le
  have hpos := ha.pos
  refine ⟨{ st with msgs := st.msgs.set (slot me m.sender) (some m.body),
                    msgs_left := st.msgs_left - 1 }, ?_, ?_⟩
  · unfold push_msg
    rw [h.party, h.kind, h.msgs, ha.recv, if_neg (by omega : ¬ m.sender = 0),
      List.getElem?_map, List.getElem?_range hs]
    cases p2p <;> simp [hL, ha.ne]
  · refine ⟨h.party, h.kind, ?_, ?_⟩
    · simp only [h.msgs]
      refine List.ext_getElem (by simp) fun i hi1 hi2 => ?_
      rw [List.getElem_set]
      simp only [List.getElem_map, List.getElem_range, Function.update_apply]
      by_cases e : slot me m.sender = i
      · simp [e]
      · rw [if_neg e, if_neg (fun c => e c.symm)]
    · simp only [h.left]
      generalize slot me m.sender = k at *
      have key : ∀ l : List ℕ, l.Nodup → k ∈ l →
          (l.filter (fun i => (L i).isNone)).length - 1 =
          (l.filter (fun i => (Function.update L k (some m.body) i).isNone)).length ∧
          1 ≤ (l.filter (fun i => (L i).isNone)).length := by
        intro l
        induction l with
        | nil => intro _ hk; simp at hk
        | cons a l ih =>
          intro hnd hk
          rw [List.nodup_cons] at hnd
          by_cases ea : a = k
          · subst ea
            have : l.filter (fun i => (Function.update L a (some m.body) i).isNone) =
                l.filter (fun i => (L i).isNone) := by
              refine List.filter_congr fun i hi => ?_
              rw [Function.update_of_ne]
              rintro rfl; exact hnd.1 hi
            rw [List.filter_cons_of_pos (by simp [hL]), List.filter_cons_of_neg (by simp), this]
            simp
          · have hk' : k ∈ l := by
              rcases List.mem_cons.1 hk with h | h
              · exact absurd h.symm ea
              · exact h
            obtain ⟨i1, i2⟩ := ih hnd.2 hk'
            rw [List.filter_cons, List.filter_cons, Function.update_of_ne ea]
            split
            · simp only [List.length_cons]; omega
            · exact ⟨i1, i2⟩
      exact (key _ List.nodup_range (by simpa using hs)).1

/-- `blame` counts and lists exactly the parties whose message is missing. -/
theorem blame_eq {me n : ℕ} {p2p : Bool} {st : Store β} {L : ℕ → Option β}
    (h : Holds me n p2p st L) :
    st.blame = ((((List.range (n - 1)).filter (fun i => (L i).isNone)).map (owner me)).length,
      ((List.range (n - 1)).filter (fun i => (L i).isNone)).map (owner me)) := by
  unfold blame
  rw [h.msgs, h.party, h.left]
  refine Prod.ext (by simp) ?_
  simp only
  have e : ((List.range (n - 1)).map L).zipIdx = (List.range (n - 1)).map (fun i => (L i, i)) := by
    refine List.ext_getElem (by simp) fun i h1 h2 => ?_
    simp
  rw [e, List.filter_map, List.map_map]
  refine List.map_congr_left fun i hi => ?_
  simp only [Function.comp, owner]
  congr 1
  simp only [eq_iff_iff]
  omega

end Store
end Verif
