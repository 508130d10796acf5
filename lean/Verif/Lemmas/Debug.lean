import Verif.Lemmas.RoundMachineSim
import Verif.Lemmas.KeygenSMSpec
import Verif.Lemmas.SignSMSpec
import Verif.Model.GG20.Debug
import Verif.Spec.Debug

/-! # What the stores of a state machine show of the history -/

namespace Verif

namespace Store

variable {β : Type} {me n : ℕ} {p2p : Bool} {st : Store β} {L : ℕ → Option β}

theorem count_add (h : Holds me n p2p st L) :
    ((List.range (n - 1)).filter (fun i => (L i).isSome)).length + st.msgs_left = n - 1 := by
  rw [h.left]
  have := List.length_eq_length_filter_add (l := List.range (n - 1)) (fun i => (L i).isSome)
  rw [List.length_range] at this
  refine Eq.trans (congrArg _ (congrArg List.length ?_)) this.symm
  refine List.filter_congr fun i _ => ?_
  cases L i <;> rfl

end Store

namespace Proto.Sim

open Spec

variable {P : Proto} {σ β : Type} {M : StateMachine σ β (P.St (P.K + 1)) P.Er} (S : P.Sim M)
variable {s : σ} {me n : ℕ} {r0 : P.St 0}

/-- The log counts the peers that were heard. -/
theorem heard_eq {L : P.Log} {acc : List (Msg β)} {round : β → ℕ} (h1 : 1 ≤ me) (h2 : me ≤ n)
    (hrd : ∀ m : Msg β, S.rd m = round m.body)
    (hl : P.LogInv me n (acc.map (Msg.mapBody S.tagB)) L) {j : ℕ} (hj1 : 1 ≤ j) (hj2 : j ≤ P.K) :
    heard me n round acc j = ((List.range (n - 1)).filter (fun i => (L j i).isSome)).length := by
  unfold heard
  rw [← others_eq_peers h1 h2]
  unfold Verif.others
  rw [List.filter_map, List.length_map]
  congr 1
  refine List.filter_congr fun i hi => ?_
  rw [List.mem_range] at hi
  simp only [Function.comp]
  rw [Bool.eq_iff_iff, decide_eq_true_iff, Option.isSome_iff_exists]
  constructor
  · rintro ⟨m, hm, e1, e2⟩
    obtain ⟨j', i', b, c1, c2, c3, c4, c5⟩ := (hl _).1 (List.mem_map.2 ⟨m, hm, rfl⟩)
    have f1 : S.rd m = j' := congrArg (fun x => x.body.1) c5
    have f2 : m.sender = Store.owner me i' := congrArg Msg.sender c5
    have ej : j' = j := by rw [← f1, hrd, e1]
    have ei : i' = i := Store.owner_inj (by rw [← f2, e2])
    subst ej ei
    exact ⟨b, c4⟩
  · rintro ⟨b, hb⟩
    have hm := (hl _).2 ⟨_, _, b, hj1, hj2, hi, hb, rfl⟩
    obtain ⟨m', hm', e⟩ := List.mem_map.1 hm
    have e1 : S.rd m' = j := congrArg (fun x => x.body.1) e
    have e2 : m'.sender = Store.owner me i := congrArg Msg.sender e
    exact ⟨m', hm', by rw [← hrd, e1], e2⟩

/-- The stores of the rounds up to `used` are used up, the others show who was heard. -/
theorem shown (hs : S.abs s = P.init me n r0) (h1 : 1 ≤ me) (h2 : me ≤ n) {round : β → ℕ}
    (hrd : ∀ m : Msg β, S.rd m = round m.body) (ops : List (Op β))
    (hp : (M.run s ops).panicked = false) :
    ∃ used, used ≤ P.K ∧
      (∀ j, 1 ≤ j → j ≤ P.K → (j ≤ used → (S.abs (M.run s ops).st).stores j = none ∧
          heard me n round (M.run s ops).accepted j = n - 1) ∧
        (¬ j ≤ used → ∃ st, (S.abs (M.run s ops).st).stores j = some st ∧ st.msgs.length = n - 1 ∧
          heard me n round (M.run s ops).accepted j + st.msgs_left = n - 1 ∧
          st.blame.2.length = st.msgs_left)) ∧
      ((M.current_round (M.run s ops).st ≤ P.K ∨ M.is_finished (M.run s ops).st = true) →
        used = M.current_round (M.run s ops).st - 1) ∧
      ((M.run s ops).outputs ≠ [] → used = P.K) := by
  obtain ⟨L, pos, hi⟩ := S.inv hs h1 h2 ops
  have hl : P.LogInv me n ((M.run s ops).accepted.map (Msg.mapBody S.tagB)) L := hi.log
  refine ⟨pos - 1, by have := hi.phase.pos_le; omega, fun j hj1 hj2 => ⟨fun hj => ?_, fun hj => ?_⟩, ?_, ?_⟩
  · obtain ⟨a, b⟩ := hi.stores.gone j hj1 (by omega)
    refine ⟨a, ?_⟩
    rw [S.heard_eq h1 h2 hrd hl hj1 hj2, List.filter_eq_self.2 (fun i h => b i (List.mem_range.1 h)),
      List.length_range]
  · obtain ⟨st, a, b⟩ := hi.stores.live j hj1 hj2 (by omega)
    refine ⟨st, a, by rw [b.msgs]; simp, ?_, ?_⟩
    · rw [S.heard_eq h1 h2 hrd hl hj1 hj2]
      exact Store.count_add b
    · rw [Store.blame_eq b, b.left]; simp
  · rw [S.current, S.finished]
    cases hi.phase with
    | running r hp hr hle hc he ho =>
      have hr : (S.abs (M.run s ops).st).round = .at pos r := hr
      intro _
      unfold currentRound; rw [hr]
    | failed k rk e m hp hr hpos hk hc hc' he ho =>
      have hr : (S.abs (M.run s ops).st).round = .gone := hr
      unfold currentRound machine; rw [hr]
      rintro (h | h)
      · exact absurd h (by simp)
      · simp [hr] at h
    | panicked k rk hp' hpos hk hc hc' he ho =>
      have hp' : (M.run s ops).panicked = true := hp'
      rw [hp'] at hp; cases hp
    | picked o m hp hr hpos hc he ho =>
      have hr : (S.abs (M.run s ops).st).round = .gone := hr
      unfold currentRound machine; rw [hr]
      rintro (h | h)
      · exact absurd h (by simp)
      · simp [hr] at h
  · intro ho'
    cases hi.phase with
    | running r hp hr hle hc he ho => exact absurd ho ho'
    | failed k rk e m hp hr hpos hk hc hc' he ho => exact absurd ho ho'
    | panicked k rk hp' hpos hk hc hc' he ho => exact absurd ho ho'
    | picked o m hp hr hpos hc he ho => omega

end Proto.Sim
end Verif
