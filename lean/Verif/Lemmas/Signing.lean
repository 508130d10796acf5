import Verif.Model.Demo.Signing
import Verif.Props.Managers
import Verif.Props.Room

/-! # The clients of the signing demo in the online room -/

namespace Verif.Demo.Signing

open EC GG20 Driver Props Spec

theorem sum_update {α : Type} {n i : ℕ} (h1 : 1 ≤ i) (h2 : i ≤ n) (f : α → ℕ) (g : ℕ → α) (v : α) (d : ℕ)
    (h : f v = f (g i) + d) :
    ∑ j ∈ Finset.Icc 1 n, f (Function.update g i v j) = ∑ j ∈ Finset.Icc 1 n, f (g j) + d := by
  have hi : i ∈ Finset.Icc 1 n := Finset.mem_Icc.2 ⟨h1, h2⟩
  rw [← Finset.add_sum_erase _ _ hi, ← Finset.add_sum_erase _ (fun j => f (g j)) hi, Function.update_self, h]
  rw [Finset.sum_congr rfl (g := fun j => f (g j)) fun j hj => by
    rw [Function.update_of_ne (Finset.ne_of_mem_erase hj)]]
  omega

theorem result_kept {σ β ω ε : Type} {T : Setting σ β ω ε} {r r' : Room σ β ω ε} (h : T.Step r r') {i : ℕ}
    {x : Res (Async.RunError ε) ω} (hx : (r.client i).run.result = some x) : (r'.client i).run.result = some x := by
  cases h with
  | post j h1 h2 m next =>
    dsimp only
    by_cases hij : i = j
    · subst hij
      rw [Function.update_self]
      exact hx
    · rw [Function.update_of_ne hij]
      exact hx
  | read j h1 h2 idle waits m next =>
    by_cases hij : i = j
    · subst hij
      rw [waits] at hx
      cases hx
    · dsimp only
      rw [Function.update_of_ne hij]
      exact hx

theorem posted_le {σ β ω ε : Type} {T : Setting σ β ω ε} {k : ℕ} {r : Room σ β ω ε} (h : T.Steps k r) :
    ∀ i, (r.client i).posted ≤ (r.client i).run.sent.length := by
  induction h with
  | init => exact fun i => Nat.zero_le _
  | step h st ih =>
    intro i
    cases st with
    | post j h1 h2 m next =>
      dsimp only
      by_cases hij : i = j
      · subst hij
        rw [Function.update_self]
        exact (List.getElem?_eq_some_iff.1 next).choose
      · rw [Function.update_of_ne hij]
        exact ih i
    | read j h1 h2 idle waits m next =>
      dsimp only
      by_cases hij : i = j
      · subst hij
        rw [Function.update_self]
        dsimp only
        split_ifs
        · exact (ih i).trans (Async.receive_sent _ _).length_le
        · exact ih i
      · rw [Function.update_of_ne hij]
        exact ih i

theorem rest_idle {σ β ω ε : Type} {T : Setting σ β ω ε} {k : ℕ} {r : Room σ β ω ε} (h : T.Steps k r)
    (hs : ¬ ∃ r', T.Step r r') {i : ℕ} (h1 : 1 ≤ i) (h2 : i ≤ T.n) :
    (r.client i).posted = (r.client i).run.sent.length := by
  by_contra hne
  have hlt : (r.client i).posted < (r.client i).run.sent.length := lt_of_le_of_ne (posted_le h i) hne
  exact hs ⟨_, .post r i h1 h2 _ (List.getElem?_eq_getElem hlt)⟩

theorem collect_append {β : Type} {n o : ℕ} {h h' : List (Msg β)} {l : List β}
    (hl : Client.collect n o h = some l) : Client.collect n o (h ++ h') = some l := by
  unfold Client.collect at hl ⊢
  dsimp only at hl ⊢
  split_ifs at hl with hlen
  have : Client.incoming o (h ++ h') = Client.incoming o h ++ Client.incoming o h' :=
    List.filter_append ..
  have h2 : n - 1 ≤ (Client.incoming o h).length := by
    rw [List.length_take] at hlen
    omega
  rw [this, List.take_append_of_le_length h2, if_pos hlen, hl]

variable [Crypto] {σ β ε : Type}

/-- How many steps a client has made in the online room. -/
def weight (c : OnlineClient) : ℕ := c.index.isSome.toNat + c.posted.toNat + c.cursor

variable {T : Setting σ β CompletedOfflineStage ε} {message : ℤ} {bound : ℕ} {cs : List CompletedOfflineStage}
  {p : ℕ → Sc}

structure Inv (T : Setting σ β CompletedOfflineStage ε) (message : ℤ) (cs : List CompletedOfflineStage)
    (p : ℕ → Sc) (k : ℕ) (s : Rooms σ β ε) : Prop where
  off : ∃ ko, T.Steps ko s.offline ∧ k = ko + ∑ i ∈ Finset.Icc 1 T.n, weight (s.client i)
  fresh : ∀ i, (s.client i).index = none → s.client i = ⟨none, false, 0, none⟩
  ret : ∀ i o, (s.client i).index = some o → 1 ≤ i ∧ i ≤ T.n ∧ 1 ≤ o ∧ o ≤ s.joined ∧
    ∃ c, cs[i - 1]? = some c ∧ (s.offline.client i).run.result = some (.ok c) ∧
      ((s.client i).posted = false → (s.client i).cursor = 0 ∧ (s.client i).result = none) ∧
      ((s.client i).posted = true →
        (s.client i).result = Client.online T.n o message c (s.log.take (s.client i).cursor))
  cur : ∀ i, (s.client i).cursor ≤ s.log.length
  inj : ∀ i j o, (s.client i).index = some o → (s.client j).index = some o → i = j
  count : s.joined = ∑ i ∈ Finset.Icc 1 T.n, (s.client i).index.isSome.toNat
  log : s.log.Perm (((List.range' 1 T.n).filter (fun i => (s.client i).posted)).map
    (fun i => Client.partialMsg i (p i)))

theorem inv (W : RoomWorks T bound cs) (hn : cs.length = T.n)
    (hp : ∀ i c, 1 ≤ i → cs[i - 1]? = some c → ∃ l, SignManual.new message c = .ok (l, p i))
    {k : ℕ} {s : Rooms σ β ε} (h : Steps T message k s) : Inv T message cs p k s := by
  have hc : ∀ {k r i c}, T.Steps k r → 1 ≤ i → i ≤ T.n → (r.client i).run.result = some (.ok c) →
      cs[i - 1]? = some c := by
    intro k r i c hr h1 h2 hres
    have hlt : i - 1 < cs.length := by omega
    have := W.sound k r hr i cs[i - 1] h1 (List.getElem?_eq_getElem hlt)
    rw [hres] at this
    rcases this with h | h
    · cases h
    · rw [List.getElem?_eq_getElem hlt]
      cases h
      rfl
  induction h with
  | init =>
    refine ⟨⟨0, .init, by simp [init, weight]⟩, fun _ _ => rfl, fun i o h => (by cases h), fun i => le_rfl,
      fun i j o h => (by cases h), by simp [init], ?_⟩
    have : (List.range' 1 T.n).filter (fun i => ((init (σ := σ) (β := β) T).client i).posted) = [] :=
      List.filter_eq_nil_iff.2 fun i _ h => (by cases h)
    rw [this]
    exact .nil
  | @step k s s' h st ih =>
    obtain ⟨⟨ko, h1, h2⟩, ifresh, iret, icur, iinj, icount, ilog⟩ := ih
    cases st with
    | offline r hr =>
      refine ⟨⟨ko + 1, h1.step hr, by dsimp only; omega⟩, ifresh, fun i o ho => ?_, icur, iinj, icount, ilog⟩
      obtain ⟨a1, a2, a3, a4, c, a5, a6, a7⟩ := iret i o ho
      exact ⟨a1, a2, a3, a4, c, a5, result_kept hr a6, a7⟩
    | join i i1 i2 c idle returned new =>
      have hf := ifresh i new
      refine ⟨⟨ko, h1, ?_⟩, fun j hj => ?_, fun j o hj => ?_, fun j => ?_, fun j j' o hj hj' => ?_, ?_, ?_⟩
      · dsimp only
        rw [sum_update i1 i2 weight _ _ 1 (by simp [weight, new]; omega)]
        omega
      · dsimp only at hj ⊢
        by_cases hij : j = i
        · subst hij
          rw [Function.update_self] at hj
          cases hj
        · rw [Function.update_of_ne hij] at hj ⊢
          exact ifresh j hj
      · dsimp only at hj ⊢
        by_cases hij : j = i
        · subst hij
          rw [Function.update_self] at hj ⊢
          obtain rfl := Option.some.inj hj
          refine ⟨i1, i2, by omega, le_rfl, c, hc h1 i1 i2 returned, returned, fun _ => ?_, fun hpo => ?_⟩
          · rw [hf]; exact ⟨rfl, rfl⟩
          · rw [hf] at hpo; cases hpo
        · rw [Function.update_of_ne hij] at hj ⊢
          obtain ⟨a1, a2, a3, a4, a5⟩ := iret j o hj
          exact ⟨a1, a2, a3, by omega, a5⟩
      · dsimp only
        by_cases hij : j = i
        · subst hij
          rw [Function.update_self]
          exact icur j
        · rw [Function.update_of_ne hij]
          exact icur j
      · dsimp only at hj hj'
        by_cases hij : j = i
        · by_cases hij' : j' = i
          · rw [hij, hij']
          · subst hij
            rw [Function.update_self] at hj
            rw [Function.update_of_ne hij'] at hj'
            obtain rfl := Option.some.inj hj
            have := (iret j' _ hj').2.2.2.1
            omega
        · rw [Function.update_of_ne hij] at hj
          by_cases hij' : j' = i
          · subst hij'
            rw [Function.update_self] at hj'
            obtain rfl := Option.some.inj hj'
            have := (iret j _ hj).2.2.2.1
            omega
          · rw [Function.update_of_ne hij'] at hj'
            exact iinj j j' o hj hj'
      · dsimp only
        rw [sum_update i1 i2 (fun c : OnlineClient => c.index.isSome.toNat) _ _ 1 (by simp [new]), icount]
      · dsimp only
        have : ∀ j, (Function.update s.client i { s.client i with index := some (s.joined + 1) } j).posted =
            (s.client j).posted := by
          intro j
          by_cases hij : j = i
          · subst hij
            rw [Function.update_self]
          · rw [Function.update_of_ne hij]
        simp only [this]
        exact ilog
    | post i i1 i2 c o returned joined new =>
      obtain ⟨a1, a2, a3, a4, c', a5, a6, a7, -⟩ := iret i o joined
      have hcc := hc h1 i1 i2 returned
      obtain ⟨l, hl⟩ := hp i c i1 hcc
      obtain ⟨b1, b2⟩ := a7 new
      unfold post
      rw [hl]
      refine ⟨⟨ko, h1, ?_⟩, fun j hj => ?_, fun j o' hj => ?_, fun j => ?_, fun j j' o hj hj' => ?_, ?_, ?_⟩
      · dsimp only
        rw [sum_update i1 i2 weight _ _ 1 (by simp [weight, new]; omega)]
        omega
      · dsimp only at hj ⊢
        by_cases hij : j = i
        · subst hij
          rw [Function.update_self] at hj
          rw [joined] at hj
          cases hj
        · rw [Function.update_of_ne hij] at hj ⊢
          exact ifresh j hj
      · dsimp only at hj ⊢
        by_cases hij : j = i
        · subst hij
          rw [Function.update_self] at hj ⊢
          rw [joined] at hj
          obtain rfl := Option.some.inj hj
          refine ⟨i1, i2, a3, a4, c, hcc, returned, fun hpo => (by cases hpo), fun _ => ?_⟩
          dsimp only
          rw [b1, List.take_zero]
        · rw [Function.update_of_ne hij] at hj ⊢
          obtain ⟨a1, a2, a3, a4, c, a5, a6, a7, a8⟩ := iret j o' hj
          refine ⟨a1, a2, a3, a4, c, a5, a6, a7, fun hpo => ?_⟩
          rw [List.take_append_of_le_length (icur j)]
          exact a8 hpo
      · dsimp only
        rw [List.length_append]
        by_cases hij : j = i
        · subst hij
          rw [Function.update_self]
          exact (icur j).trans (Nat.le_add_right _ _)
        · rw [Function.update_of_ne hij]
          exact (icur j).trans (Nat.le_add_right _ _)
      · dsimp only at hj hj'
        have : ∀ j x, (Function.update s.client i { s.client i with posted := true, result := x } j).index =
            (s.client j).index := by
          intro j x
          by_cases hij : j = i
          · subst hij
            rw [Function.update_self]
          · rw [Function.update_of_ne hij]
        rw [this] at hj hj'
        exact iinj j j' o hj hj'
      · dsimp only
        rw [sum_update i1 i2 (fun c : OnlineClient => c.index.isSome.toNat) _ _ 0 (by simp), icount]
        omega
      · dsimp only
        have hperm : ∀ v : OnlineClient, v.posted = true → ((List.range' 1 T.n).filter
            (fun j => (Function.update s.client i v j).posted)).Perm
            (i :: (List.range' 1 T.n).filter (fun j => (s.client j).posted)) := by
          intro v hv
          refine (List.perm_ext_iff_of_nodup ((List.nodup_range' (step := 1)).filter _) ?_).2 fun j => ?_
          · refine List.nodup_cons.2 ⟨fun hm => ?_, (List.nodup_range' (step := 1)).filter _⟩
            have := (List.mem_filter.1 hm).2
            rw [new] at this
            cases this
          · rw [List.mem_cons, List.mem_filter, List.mem_filter, List.mem_range'_1]
            by_cases hij : j = i
            · subst hij
              rw [Function.update_self]
              exact ⟨fun _ => .inl rfl, fun _ => ⟨by omega, hv⟩⟩
            · rw [Function.update_of_ne hij]
              exact ⟨.inr, fun h => h.resolve_left hij⟩
        refine .trans ?_ ((hperm { s.client i with
          posted := true, result := Client.online T.n o message c [] } rfl).map _).symm
        rw [List.map_cons]
        exact (List.perm_append_singleton _ _).trans (ilog.cons _)
    | read i i1 i2 c o returned joined posted waits next =>
      have hcc := hc h1 i1 i2 returned
      have hix : ∀ j x y, (Function.update s.client i { s.client i with cursor := x, result := y } j).index =
          (s.client j).index := by
        intro j x y
        by_cases hij : j = i
        · subst hij
          rw [Function.update_self]
        · rw [Function.update_of_ne hij]
      refine ⟨⟨ko, h1, ?_⟩, fun j hj => ?_, fun j o' hj => ?_, fun j => ?_, fun j j' o hj hj' => ?_, ?_, ?_⟩
      · dsimp only
        rw [sum_update i1 i2 weight _ _ 1 (by simp [weight]; omega)]
        omega
      · dsimp only at hj ⊢
        by_cases hij : j = i
        · subst hij
          rw [Function.update_self] at hj
          rw [joined] at hj
          cases hj
        · rw [Function.update_of_ne hij] at hj ⊢
          exact ifresh j hj
      · dsimp only at hj ⊢
        rw [hix] at hj
        obtain ⟨a1, a2, a3, a4, c', a5, a6, a7, a8⟩ := iret j o' hj
        by_cases hij : j = i
        · subst hij
          rw [Function.update_self]
          rw [joined] at hj
          obtain rfl := Option.some.inj hj
          refine ⟨i1, i2, a3, a4, c, hcc, returned, fun hpo => ?_, fun _ => rfl⟩
          dsimp only at hpo
          rw [posted] at hpo
          cases hpo
        · rw [Function.update_of_ne hij]
          exact ⟨a1, a2, a3, a4, c', a5, a6, a7, a8⟩
      · dsimp only
        by_cases hij : j = i
        · subst hij
          rw [Function.update_self]
          exact next
        · rw [Function.update_of_ne hij]
          exact icur j
      · dsimp only at hj hj'
        rw [hix] at hj hj'
        exact iinj j j' o hj hj'
      · dsimp only
        rw [sum_update i1 i2 (fun c : OnlineClient => c.index.isSome.toNat) _ _ 0 (by simp), icount]
        omega
      · dsimp only
        have : ∀ j x y, (Function.update s.client i { s.client i with cursor := x, result := y } j).posted =
            (s.client j).posted := by
          intro j x y
          by_cases hij : j = i
          · subst hij
            rw [Function.update_self]
          · rw [Function.update_of_ne hij]
        simp only [this]
        exact ilog

namespace Inv

variable {k : ℕ} {s : Rooms σ β ε} (I : Inv T message cs p k s)
include I

theorem joined_le : s.joined ≤ T.n := by
  rw [I.count]
  refine (Finset.sum_le_card_nsmul _ _ 1 fun i _ => ?_).trans (by simp)
  cases (s.client i).index <;> simp

theorem log_le : s.log.length ≤ T.n := by
  rw [I.log.length_eq, List.length_map]
  exact (List.length_filter_le _ _).trans (by simp)

theorem steps_le (W : RoomWorks T bound cs) : k ≤ bound + T.n * (T.n + 2) := by
  obtain ⟨ko, h1, rfl⟩ := I.off
  have := W.ends ko _ h1
  have hw : ∑ i ∈ Finset.Icc 1 T.n, weight (s.client i) ≤ T.n * (T.n + 2) := by
    refine (Finset.sum_le_card_nsmul _ _ (T.n + 2) fun i _ => ?_).trans (by simp)
    have h3 := (I.cur i).trans I.log_le
    unfold weight
    have h4 := Bool.toNat_le (s.client i).index.isSome
    have h5 := Bool.toNat_le (s.client i).posted
    omega
  omega

/-- The partial signatures posted so far and the missing ones. -/
theorem room : ∃ later, OnlineRoom T.n p (s.log ++ later) := by
  refine ⟨((List.range' 1 T.n).filter (fun i => !(s.client i).posted)).map
    (fun i => Client.partialMsg i (p i)), _, [], (List.append_nil _).symm, ?_⟩
  refine (I.log.append_right _).trans ?_
  rw [← List.map_append]
  exact (List.filter_append_perm (fun i => (s.client i).posted) _).map _

/-- What a client returns it returns for the partial signatures of all clients but that with its online index
as offline index. -/
theorem returned {i o : ℕ} (ho : (s.client i).index = some o) {x : Res Error SignatureRecid}
    (hx : (s.client i).result = some x) : ∃ c later, cs[i - 1]? = some c ∧
      OnlineRoom T.n p (s.log ++ later) ∧ Client.online T.n o message c (s.log ++ later) = some x := by
  obtain ⟨-, -, -, -, c, a5, -, a7, a8⟩ := I.ret i o ho
  obtain ⟨later, hl⟩ := I.room
  refine ⟨c, later, a5, hl, ?_⟩
  cases hpo : (s.client i).posted with
  | false =>
    rw [(a7 hpo).2] at hx
    cases hx
  | true =>
    rw [a8 hpo] at hx
    unfold Client.online at hx ⊢
    cases hcl : Client.collect T.n o (s.log.take (s.client i).cursor) with
    | none =>
      rw [hcl] at hx
      cases hx
    | some l =>
      rw [hcl] at hx
      have := collect_append (h' := s.log.drop (s.client i).cursor ++ later) hcl
      rw [← List.append_assoc, List.take_append_drop] at this
      rw [this]
      exact hx

theorem rest (W : RoomWorks T bound cs) (hn : cs.length = T.n)
    (hs : ¬ ∃ s', Step T message s s') {i : ℕ} (h1 : 1 ≤ i) (h2 : i ≤ T.n) :
    ∃ o x, (s.client i).index = some o ∧ 1 ≤ o ∧ o ≤ T.n ∧ (s.client i).result = some x := by
  obtain ⟨ko, hr, -⟩ := I.off
  have hoff : ¬ ∃ r', T.Step s.offline r' := fun ⟨r', h⟩ => hs ⟨_, .offline s r' h⟩
  have hres : ∀ j, 1 ≤ j → j ≤ T.n → ∃ c, (s.offline.client j).run.result = some (.ok c) := fun j j1 j2 =>
    have hlt : j - 1 < cs.length := by omega
    ⟨_, W.complete _ _ hr hoff j _ j1 (List.getElem?_eq_getElem hlt)⟩
  have hpost : ∀ j, 1 ≤ j → j ≤ T.n → ∃ o, (s.client j).index = some o ∧ (s.client j).posted = true := by
    intro j j1 j2
    obtain ⟨c, hc⟩ := hres j j1 j2
    cases hx : (s.client j).index with
    | none => exact absurd ⟨_, .join s j j1 j2 c (rest_idle hr hoff j1 j2) hc hx⟩ hs
    | some o =>
      cases hp : (s.client j).posted with
      | false => exact absurd ⟨_, .post s j j1 j2 c o hc hx hp⟩ hs
      | true => exact ⟨o, rfl, rfl⟩
  obtain ⟨o, ho, hp⟩ := hpost i h1 h2
  obtain ⟨-, -, a3, a4, c, a5, a6, a7, a8⟩ := I.ret i o ho
  have hon : o ≤ T.n := a4.trans I.joined_le
  cases hx : (s.client i).result with
  | some x => exact ⟨o, x, ho, a3, hon, rfl⟩
  | none =>
    exfalso
    have hcur : (s.client i).cursor = s.log.length := by
      by_contra hne
      have := I.cur i
      exact hs ⟨_, .read s i h1 h2 c o a6 ho hp hx (by omega)⟩
    have hall : (List.range' 1 T.n).filter (fun i => (s.client i).posted) = List.range' 1 T.n := by
      refine List.filter_eq_self.2 fun j hj => ?_
      rw [List.mem_range'_1] at hj
      exact (hpost j (by omega) (by omega)).choose_spec.2
    have hl := I.log
    rw [hall] at hl
    obtain ⟨l, hl', -⟩ := C63_collected ⟨a3, hon⟩ ⟨_, [], (List.append_nil _).symm, hl⟩
    have := a8 hp
    rw [hx, hcur, List.take_length] at this
    unfold Client.online at this
    rw [hl'] at this
    cases this

end Inv

theorem index_kept {s s' : Rooms σ β ε} (h : Step T message s s') {i o : ℕ}
    (ho : (s.client i).index = some o) : (s'.client i).index = some o := by
  have key : ∀ j (v : OnlineClient), v.index = (s.client j).index →
      (Function.update s.client j v i).index = some o := by
    intro j v hv
    by_cases hij : i = j
    · subst hij
      rw [Function.update_self, hv, ho]
    · rw [Function.update_of_ne hij, ho]
  cases h with
  | offline r hr => exact ho
  | join j h1 h2 c idle returned new =>
    dsimp only
    by_cases hij : i = j
    · subst hij
      rw [new] at ho
      cases ho
    · rw [Function.update_of_ne hij, ho]
  | post j h1 h2 c o' returned joined new =>
    unfold post
    split <;> exact key _ _ rfl
  | read j h1 h2 c o' returned joined posted waits next => exact key _ _ rfl

theorem lift {k : ℕ} {r : Room σ β CompletedOfflineStage ε} (h : T.Steps k r) :
    Steps T message k ⟨r, 0, [], fun _ => ⟨none, false, 0, none⟩⟩ := by
  induction h with
  | init => exact .init
  | step h st ih => exact ih.step (.offline _ _ st)

/-- From everywhere the clients come to rest. -/
theorem rests {b : ℕ} (hb : ∀ k s, Steps T message k s → k ≤ b) {k : ℕ} {s : Rooms σ β ε}
    (h : Steps T message k s) : ∃ k' s', Steps T message k' s' ∧ (¬ ∃ s'', Step T message s' s'') ∧
      ∀ i o, (s.client i).index = some o → (s'.client i).index = some o := by
  by_cases hs : ∃ s', Step T message s s'
  · obtain ⟨s', hs'⟩ := hs
    have := hb _ _ (h.step hs')
    obtain ⟨k', q, h1, h2, h3⟩ := rests hb (h.step hs')
    exact ⟨k', q, h1, h2, fun i o ho => h3 i o (index_kept hs' ho)⟩
  · exact ⟨k, s, h, hs, fun _ _ ho => ho⟩
termination_by b - k

end Verif.Demo.Signing
