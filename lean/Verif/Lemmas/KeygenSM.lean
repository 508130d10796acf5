import Verif.Model.GG20.KeygenSM
import Verif.Lemmas.RoundMachineProps

/-! # `Keygen` behaves like a round machine -/

namespace Verif.GG20.Keygen

open EC Crypto

variable [Crypto]

def Bd : ℕ → Type
  | 1 => KeyGenBroadcastMessage1
  | 2 => KeyGenDecommitMessage1
  | 3 => Vss × Sc
  | 4 => DLogProof
  | _ => Unit

def St : ℕ → Type
  | 0 => Round0
  | 1 => Round1
  | 2 => Round2
  | 3 => Round3
  | 4 => Round4
  | _ => LocalKey

def fn (rnd : KeygenRandomness) :
    (k : ℕ) → St k → List (Bd k) → Res ProceedError (St (k + 1) × List (Msg (Bd (k + 1))))
  | 0, r, _ => Round0.proceed r rnd
  | 1, r, ms => Round1.proceed r ms
  | 2, r, ms => Round2.proceed r ms rnd
  | 3, r, ms => Round3.proceed r ms rnd
  | 4, r, ms => do
    let k ← Round4.proceed r ms
    .ok (k, [])
  | _ + 5, _, _ => .panic

def proto (rnd : KeygenRandomness) : Proto where
  K := 4
  Bd := Bd
  St := St
  Er := ProceedError
  p2p := fun k => decide (k = 3)
  expensive := fun k => decide (k ≠ 1)
  again := fun _ => true
  lateRound := id
  lastBlame := 5
  fn := fn rnd

def absRound (rnd : KeygenRandomness) : R → (proto rnd).Rd
  | .Round0 r => .at 0 r
  | .Round1 r => .at 1 r
  | .Round2 r => .at 2 r
  | .Round3 r => .at 3 r
  | .Round4 r => .at 4 r
  | .Final k => .at 5 k
  | .Gone => .gone

def tagM (rnd : KeygenRandomness) : M → (proto rnd).Body
  | .Round1 m => ⟨1, m⟩
  | .Round2 m => ⟨2, m⟩
  | .Round3 m => ⟨3, m⟩
  | .Round4 m => ⟨4, m⟩

def absStores (s : State) : (k : ℕ) → Option (Store (Bd k))
  | 1 => s.msgs1
  | 2 => s.msgs2
  | 3 => s.msgs3
  | 4 => s.msgs4
  | 0 => none
  | _ + 5 => none

def abs (rnd : KeygenRandomness) (s : State) : (proto rnd).State :=
  ⟨absRound rnd s.round, absStores s, s.msgs_queue.map (Msg.mapBody (tagM rnd))⟩

theorem absStores_none1' (s : State) (r : R) (q : List (Msg M)) :
    absStores { s with round := r, msgs1 := none, msgs_queue := q } =
      Function.update (absStores s) 1 none := by
  funext k
  match k with
  | 0 | 1 | 2 | 3 | 4 | _ + 5 => rfl

theorem absStores_some1 (s : State) (st : Store (Bd 1)) :
    absStores { s with msgs1 := some st } = Function.update (absStores s) 1 (some st) := by
  funext k
  match k with
  | 0 | 1 | 2 | 3 | 4 | _ + 5 => rfl

theorem absStores_none2' (s : State) (r : R) (q : List (Msg M)) :
    absStores { s with round := r, msgs2 := none, msgs_queue := q } =
      Function.update (absStores s) 2 none := by
  funext k
  match k with
  | 0 | 1 | 2 | 3 | 4 | _ + 5 => rfl

theorem absStores_some2 (s : State) (st : Store (Bd 2)) :
    absStores { s with msgs2 := some st } = Function.update (absStores s) 2 (some st) := by
  funext k
  match k with
  | 0 | 1 | 2 | 3 | 4 | _ + 5 => rfl

theorem absStores_none3' (s : State) (r : R) (q : List (Msg M)) :
    absStores { s with round := r, msgs3 := none, msgs_queue := q } =
      Function.update (absStores s) 3 none := by
  funext k
  match k with
  | 0 | 1 | 2 | 3 | 4 | _ + 5 => rfl

theorem absStores_some3 (s : State) (st : Store (Bd 3)) :
    absStores { s with msgs3 := some st } = Function.update (absStores s) 3 (some st) := by
  funext k
  match k with
  | 0 | 1 | 2 | 3 | 4 | _ + 5 => rfl

theorem absStores_none4' (s : State) (r : R) (q : List (Msg M)) :
    absStores { s with round := r, msgs4 := none, msgs_queue := q } =
      Function.update (absStores s) 4 none := by
  funext k
  match k with
  | 0 | 1 | 2 | 3 | 4 | _ + 5 => rfl

theorem absStores_some4 (s : State) (st : Store (Bd 4)) :
    absStores { s with msgs4 := some st } = Function.update (absStores s) 4 (some st) := by
  funext k
  match k with
  | 0 | 1 | 2 | 3 | 4 | _ + 5 => rfl

theorem tag_map1 (rnd : KeygenRandomness) (out : List (Msg KeyGenBroadcastMessage1)) :
    (out.map (Msg.mapBody M.Round1)).map (Msg.mapBody (tagM rnd)) =
      out.map ((proto rnd).tag 1) := by
  rw [List.map_map]; rfl
theorem tag_map2 (rnd : KeygenRandomness) (out : List (Msg KeyGenDecommitMessage1)) :
    (out.map (Msg.mapBody M.Round2)).map (Msg.mapBody (tagM rnd)) =
      out.map ((proto rnd).tag 2) := by
  rw [List.map_map]; rfl
theorem tag_map3 (rnd : KeygenRandomness) (out : List (Msg (Vss × Sc))) :
    (out.map (Msg.mapBody M.Round3)).map (Msg.mapBody (tagM rnd)) =
      out.map ((proto rnd).tag 3) := by
  rw [List.map_map]; rfl
theorem tag_map4 (rnd : KeygenRandomness) (out : List (Msg DLogProof)) :
    (out.map (Msg.mapBody M.Round4)).map (Msg.mapBody (tagM rnd)) =
      out.map ((proto rnd).tag 4) := by
  rw [List.map_map]; rfl

theorem proceed_round_gone {rnd : KeygenRandomness} {mb : Bool} {s : State}
    (h : s.round = .Gone) : proceed_round rnd mb s = (s, .ok ()) := by
  obtain ⟨round, m1, m2, m3, m4, q, i, n⟩ := s
  simp only at h
  subst h
  rw [proceed_round]

theorem proceed_round_final {rnd : KeygenRandomness} {mb : Bool} {s : State} {k : LocalKey}
    (h : s.round = .Final k) : proceed_round rnd mb s = (s, .ok ()) := by
  obtain ⟨round, m1, m2, m3, m4, q, i, n⟩ := s
  simp only at h
  subst h
  rw [proceed_round]

theorem proceed_round_0 {rnd : KeygenRandomness} {mb : Bool} {s : State} {r : Round0}
    (h : s.round = .Round0 r) : proceed_round rnd mb s =
      if (!Round0.is_expensive || mb) = true then
        match r.proceed rnd with
        | .ok no => proceed_round rnd mb { s with
            round := .Round1 no.1
            msgs_queue := s.msgs_queue ++ no.2.map (Msg.mapBody M.Round1) }
        | .err e => ({ s with round := .Gone }, .err (.ProceedRound e))
        | .panic => ({ s with round := .Gone }, .panic)
      else (s, .ok ()) := by
  obtain ⟨round, m1, m2, m3, m4, q, i, n⟩ := s
  simp only at h
  subst h
  rw [proceed_round]
  simp only
  congr 1

theorem proceed_round_1_lit {rnd : KeygenRandomness} {mb : Bool} {s : State} {r : Round1}
    (h : s.round = .Round1 r) : proceed_round rnd mb s =
      if (!wantsMore s.msgs1 && (!Round1.is_expensive || mb)) = true then
        match (finishStore s.msgs1 : Res (SMError ProceedError) _) with
        | .ok msgs =>
          match r.proceed msgs with
          | .ok no => proceed_round rnd mb { s with
              round := .Round2 no.1
              msgs1 := none
              msgs_queue := s.msgs_queue ++ no.2.map (Msg.mapBody M.Round2) }
          | .err e => ({ s with round := .Gone, msgs1 := none }, .err (.ProceedRound e))
          | .panic => ({ s with round := .Gone, msgs1 := none }, .panic)
        | .err e => ({ s with round := .Gone, msgs1 := none }, .err e)
        | .panic => ({ s with round := .Gone, msgs1 := none }, .panic)
      else (s, .ok ()) := by
  obtain ⟨round, m1, m2, m3, m4, q, i, n⟩ := s
  simp only at h
  subst h
  rw [proceed_round]
  simp only
  congr 1

theorem proceed_round_1 {rnd : KeygenRandomness} {mb : Bool} {s : State} {r : Round1}
    (h : s.round = .Round1 r) : proceed_round rnd mb s =
      if (!wantsMore (β := (proto rnd).Bd 1) s.msgs1 && (!Round1.is_expensive || mb)) = true then
        match finishStore (β := (proto rnd).Bd 1) (ε := (proto rnd).Er) s.msgs1 with
        | .ok msgs =>
          match (proto rnd).fn 1 r msgs with
          | .ok no => proceed_round rnd mb { s with
              round := .Round2 no.1
              msgs1 := none
              msgs_queue := s.msgs_queue ++ no.2.map (Msg.mapBody M.Round2) }
          | .err e => ({ s with round := .Gone, msgs1 := none }, .err (.ProceedRound e))
          | .panic => ({ s with round := .Gone, msgs1 := none }, .panic)
        | .err e => ({ s with round := .Gone, msgs1 := none }, .err e)
        | .panic => ({ s with round := .Gone, msgs1 := none }, .panic)
      else (s, .ok ()) := by
  rw [proceed_round_1_lit h]
  rcases hf : (finishStore s.msgs1 : Res (SMError ProceedError) _) with ms | e | _
  · have hf' : finishStore (β := (proto rnd).Bd 1) (ε := (proto rnd).Er) s.msgs1 = .ok ms := hf
    rcases hp : r.proceed ms with no | e | _
    · have hp' : (proto rnd).fn 1 r ms = .ok no := hp
      simp only [hf', hp, hp']
      rfl
    · have hp' : (proto rnd).fn 1 r ms = .err e := hp
      simp only [hf', hp, hp']
      rfl
    · have hp' : (proto rnd).fn 1 r ms = .panic := hp
      simp only [hf', hp, hp']
      rfl
  · have hf' : finishStore (β := (proto rnd).Bd 1) (ε := (proto rnd).Er) s.msgs1 = .err e := hf
    simp only [hf']
    rfl
  · have hf' : finishStore (β := (proto rnd).Bd 1) (ε := (proto rnd).Er) s.msgs1 = .panic := hf
    simp only [hf']
    rfl

theorem proceed_round_2_lit {rnd : KeygenRandomness} {mb : Bool} {s : State} {r : Round2}
    (h : s.round = .Round2 r) : proceed_round rnd mb s =
      if (!wantsMore s.msgs2 && (!Round2.is_expensive || mb)) = true then
        match (finishStore s.msgs2 : Res (SMError ProceedError) _) with
        | .ok msgs =>
          match r.proceed msgs rnd with
          | .ok no => proceed_round rnd mb { s with
              round := .Round3 no.1
              msgs2 := none
              msgs_queue := s.msgs_queue ++ no.2.map (Msg.mapBody M.Round3) }
          | .err e => ({ s with round := .Gone, msgs2 := none }, .err (.ProceedRound e))
          | .panic => ({ s with round := .Gone, msgs2 := none }, .panic)
        | .err e => ({ s with round := .Gone, msgs2 := none }, .err e)
        | .panic => ({ s with round := .Gone, msgs2 := none }, .panic)
      else (s, .ok ()) := by
  obtain ⟨round, m1, m2, m3, m4, q, i, n⟩ := s
  simp only at h
  subst h
  rw [proceed_round]
  simp only
  congr 1
  cases (finishStore m2 : Res (SMError ProceedError) _) with
  | ok ms =>
    simp only
    cases r.proceed ms rnd <;> rfl
  | err e => rfl
  | panic => rfl

theorem proceed_round_2 {rnd : KeygenRandomness} {mb : Bool} {s : State} {r : Round2}
    (h : s.round = .Round2 r) : proceed_round rnd mb s =
      if (!wantsMore (β := (proto rnd).Bd 2) s.msgs2 && (!Round2.is_expensive || mb)) = true then
        match finishStore (β := (proto rnd).Bd 2) (ε := (proto rnd).Er) s.msgs2 with
        | .ok msgs =>
          match (proto rnd).fn 2 r msgs with
          | .ok no => proceed_round rnd mb { s with
              round := .Round3 no.1
              msgs2 := none
              msgs_queue := s.msgs_queue ++ no.2.map (Msg.mapBody M.Round3) }
          | .err e => ({ s with round := .Gone, msgs2 := none }, .err (.ProceedRound e))
          | .panic => ({ s with round := .Gone, msgs2 := none }, .panic)
        | .err e => ({ s with round := .Gone, msgs2 := none }, .err e)
        | .panic => ({ s with round := .Gone, msgs2 := none }, .panic)
      else (s, .ok ()) := by
  rw [proceed_round_2_lit h]
  rcases hf : (finishStore s.msgs2 : Res (SMError ProceedError) _) with ms | e | _
  · have hf' : finishStore (β := (proto rnd).Bd 2) (ε := (proto rnd).Er) s.msgs2 = .ok ms := hf
    rcases hp : r.proceed ms rnd with no | e | _
    · have hp' : (proto rnd).fn 2 r ms = .ok no := hp
      simp only [hf', hp, hp']
      rfl
    · have hp' : (proto rnd).fn 2 r ms = .err e := hp
      simp only [hf', hp, hp']
      rfl
    · have hp' : (proto rnd).fn 2 r ms = .panic := hp
      simp only [hf', hp, hp']
      rfl
  · have hf' : finishStore (β := (proto rnd).Bd 2) (ε := (proto rnd).Er) s.msgs2 = .err e := hf
    simp only [hf']
    rfl
  · have hf' : finishStore (β := (proto rnd).Bd 2) (ε := (proto rnd).Er) s.msgs2 = .panic := hf
    simp only [hf']
    rfl

theorem proceed_round_3_lit {rnd : KeygenRandomness} {mb : Bool} {s : State} {r : Round3}
    (h : s.round = .Round3 r) : proceed_round rnd mb s =
      if (!wantsMore s.msgs3 && (!Round3.is_expensive || mb)) = true then
        match (finishStore s.msgs3 : Res (SMError ProceedError) _) with
        | .ok msgs =>
          match r.proceed msgs rnd with
          | .ok no => proceed_round rnd mb { s with
              round := .Round4 no.1
              msgs3 := none
              msgs_queue := s.msgs_queue ++ no.2.map (Msg.mapBody M.Round4) }
          | .err e => ({ s with round := .Gone, msgs3 := none }, .err (.ProceedRound e))
          | .panic => ({ s with round := .Gone, msgs3 := none }, .panic)
        | .err e => ({ s with round := .Gone, msgs3 := none }, .err e)
        | .panic => ({ s with round := .Gone, msgs3 := none }, .panic)
      else (s, .ok ()) := by
  obtain ⟨round, m1, m2, m3, m4, q, i, n⟩ := s
  simp only at h
  subst h
  rw [proceed_round]
  simp only
  congr 1
  cases (finishStore m3 : Res (SMError ProceedError) _) with
  | ok ms =>
    simp only
    cases r.proceed ms rnd <;> rfl
  | err e => rfl
  | panic => rfl

theorem proceed_round_3 {rnd : KeygenRandomness} {mb : Bool} {s : State} {r : Round3}
    (h : s.round = .Round3 r) : proceed_round rnd mb s =
      if (!wantsMore (β := (proto rnd).Bd 3) s.msgs3 && (!Round3.is_expensive || mb)) = true then
        match finishStore (β := (proto rnd).Bd 3) (ε := (proto rnd).Er) s.msgs3 with
        | .ok msgs =>
          match (proto rnd).fn 3 r msgs with
          | .ok no => proceed_round rnd mb { s with
              round := .Round4 no.1
              msgs3 := none
              msgs_queue := s.msgs_queue ++ no.2.map (Msg.mapBody M.Round4) }
          | .err e => ({ s with round := .Gone, msgs3 := none }, .err (.ProceedRound e))
          | .panic => ({ s with round := .Gone, msgs3 := none }, .panic)
        | .err e => ({ s with round := .Gone, msgs3 := none }, .err e)
        | .panic => ({ s with round := .Gone, msgs3 := none }, .panic)
      else (s, .ok ()) := by
  rw [proceed_round_3_lit h]
  rcases hf : (finishStore s.msgs3 : Res (SMError ProceedError) _) with ms | e | _
  · have hf' : finishStore (β := (proto rnd).Bd 3) (ε := (proto rnd).Er) s.msgs3 = .ok ms := hf
    rcases hp : r.proceed ms rnd with no | e | _
    · have hp' : (proto rnd).fn 3 r ms = .ok no := hp
      simp only [hf', hp, hp']
      rfl
    · have hp' : (proto rnd).fn 3 r ms = .err e := hp
      simp only [hf', hp, hp']
      rfl
    · have hp' : (proto rnd).fn 3 r ms = .panic := hp
      simp only [hf', hp, hp']
      rfl
  · have hf' : finishStore (β := (proto rnd).Bd 3) (ε := (proto rnd).Er) s.msgs3 = .err e := hf
    simp only [hf']
    rfl
  · have hf' : finishStore (β := (proto rnd).Bd 3) (ε := (proto rnd).Er) s.msgs3 = .panic := hf
    simp only [hf']
    rfl

theorem proceed_round_4_lit {rnd : KeygenRandomness} {mb : Bool} {s : State} {r : Round4}
    (h : s.round = .Round4 r) : proceed_round rnd mb s =
      if (!wantsMore s.msgs4 && (!Round4.is_expensive || mb)) = true then
        match (finishStore s.msgs4 : Res (SMError ProceedError) _) with
        | .ok msgs =>
          match r.proceed msgs with
          | .ok no => proceed_round rnd mb { s with round := .Final no, msgs4 := none }
          | .err e => ({ s with round := .Gone, msgs4 := none }, .err (.ProceedRound e))
          | .panic => ({ s with round := .Gone, msgs4 := none }, .panic)
        | .err e => ({ s with round := .Gone, msgs4 := none }, .err e)
        | .panic => ({ s with round := .Gone, msgs4 := none }, .panic)
      else (s, .ok ()) := by
  obtain ⟨round, m1, m2, m3, m4, q, i, n⟩ := s
  simp only at h
  subst h
  rw [proceed_round]
  simp only
  congr 1

theorem proceed_round_4_lit2 {rnd : KeygenRandomness} {mb : Bool} {s : State} {r : Round4}
    (h : s.round = .Round4 r) : proceed_round rnd mb s =
      if (!wantsMore s.msgs4 && (!Round4.is_expensive || mb)) = true then
        match (finishStore s.msgs4 : Res (SMError ProceedError) _) with
        | .ok msgs =>
          match (r.proceed msgs >>= fun k => .ok (k, []) :
              Res ProceedError (LocalKey × List (Msg Unit))) with
          | .ok no => proceed_round rnd mb { s with round := .Final no.1, msgs4 := none }
          | .err e => ({ s with round := .Gone, msgs4 := none }, .err (.ProceedRound e))
          | .panic => ({ s with round := .Gone, msgs4 := none }, .panic)
        | .err e => ({ s with round := .Gone, msgs4 := none }, .err e)
        | .panic => ({ s with round := .Gone, msgs4 := none }, .panic)
      else (s, .ok ()) := by
  rw [proceed_round_4_lit h]
  congr 1
  cases (finishStore s.msgs4 : Res (SMError ProceedError) _) with
  | ok ms =>
    simp only
    cases r.proceed ms <;> rfl
  | err e => rfl
  | panic => rfl

theorem proceed_round_4 {rnd : KeygenRandomness} {mb : Bool} {s : State} {r : Round4}
    (h : s.round = .Round4 r) : proceed_round rnd mb s =
      if (!wantsMore (β := (proto rnd).Bd 4) s.msgs4 && (!Round4.is_expensive || mb)) = true then
        match finishStore (β := (proto rnd).Bd 4) (ε := (proto rnd).Er) s.msgs4 with
        | .ok msgs =>
          match (proto rnd).fn 4 r msgs with
          | .ok no => proceed_round rnd mb { s with round := .Final no.1, msgs4 := none }
          | .err e => ({ s with round := .Gone, msgs4 := none }, .err (.ProceedRound e))
          | .panic => ({ s with round := .Gone, msgs4 := none }, .panic)
        | .err e => ({ s with round := .Gone, msgs4 := none }, .err e)
        | .panic => ({ s with round := .Gone, msgs4 := none }, .panic)
      else (s, .ok ()) := by
  rw [proceed_round_4_lit2 h]
  rcases hf : (finishStore s.msgs4 : Res (SMError ProceedError) _) with ms | e | _
  · have hf' : finishStore (β := (proto rnd).Bd 4) (ε := (proto rnd).Er) s.msgs4 = .ok ms := hf
    rcases hp : (r.proceed ms >>= fun k => .ok (k, []) : Res ProceedError (LocalKey × List (Msg Unit))) with no | e | _
    · have hp' : (proto rnd).fn 4 r ms = .ok no := hp
      simp only [hf', hp, hp']
      rfl
    · have hp' : (proto rnd).fn 4 r ms = .err e := hp
      simp only [hf', hp, hp']
      rfl
    · have hp' : (proto rnd).fn 4 r ms = .panic := hp
      simp only [hf', hp, hp']
      rfl
  · have hf' : finishStore (β := (proto rnd).Bd 4) (ε := (proto rnd).Er) s.msgs4 = .err e := hf
    simp only [hf']
    rfl
  · have hf' : finishStore (β := (proto rnd).Bd 4) (ε := (proto rnd).Er) s.msgs4 = .panic := hf
    simp only [hf']
    rfl

theorem no_out {rnd : KeygenRandomness} {r : Round4} {ms : List DLogProof}
    {no : (proto rnd).St (4 + 1) × List (Msg ((proto rnd).Bd (4 + 1)))}
    (h : (proto rnd).fn 4 r ms = .ok no) : no.2 = [] := by
  have h' : (Round4.proceed r ms >>= fun k => .ok (k, []) :
    Res ProceedError (LocalKey × List (Msg Unit))) = .ok no := h
  obtain ⟨k, -, hk⟩ := Res.bind_eq_ok.mp h'
  injection hk with hk
  rw [← hk]
  rfl

theorem sim_1 {rnd : KeygenRandomness} {mb : Bool} {s : State} {d : ℕ} {r : Round1}
    (ih : ∀ m < d, ∀ (s : State), s.round.left = m →
      (proto rnd).proceedRound mb (abs rnd s) =
        (abs rnd (proceed_round rnd mb s).1, (proceed_round rnd mb s).2))
    (hd : s.round.left = d) (hs : s.round = .Round1 r) :
    (proto rnd).proceedRound mb (abs rnd s) =
      (abs rnd (proceed_round rnd mb s).1, (proceed_round rnd mb s).2) := by
  have habs : (abs rnd s).round = .at 1 r := by simp only [abs, hs, absRound]
  rw [Proto.proceedRound_at (s := abs rnd _) (hr := habs), proceed_round_1 hs]
  by_cases hc : (!wantsMore (β := (proto rnd).Bd 1) s.msgs1 && (!Round1.is_expensive || mb)) = true
  · have hr : (proto rnd).ready mb (abs rnd s) 1 = true := by
      simpa [Proto.ready, proto, abs, absStores, Round1.is_expensive] using hc
    rw [if_pos hr, if_pos hc]
    have htake : (proto rnd).take { abs rnd s with round := .gone } 1 =
        (abs rnd { s with round := .Gone, msgs1 := none }, finishStore (β := (proto rnd).Bd 1) s.msgs1) := by
      simp only [Proto.take, if_neg (show ¬ (1 : ℕ) = 0 by decide), abs, absStores_none1']
      rfl
    rw [htake]
    simp only
    cases (finishStore (β := (proto rnd).Bd 1) s.msgs1 : Res (SMError (proto rnd).Er) _) with
    | ok ms =>
      simp only
      cases (proto rnd).fn 1 r ms with
      | ok no =>
        have := ih _ (by subst hd; rw [hs]; simp [R.left]) { s with
          round := .Round2 no.1
          msgs1 := none
          msgs_queue := s.msgs_queue ++ no.2.map (Msg.mapBody M.Round2) } rfl
        simp only
        rw [if_pos (show (proto rnd).again 1 = true from rfl)]
        refine Eq.trans ?_ this
        congr 1
        simp only [abs, List.map_append, absStores_none1']
        rw [show List.map (Msg.mapBody (tagM rnd)) (List.map (Msg.mapBody M.Round2) no.2) =
          List.map ((proto rnd).tag (1 + 1)) no.2 from tag_map2 rnd no.2]
        rfl
      | err e => rfl
      | panic => rfl
    | err e => rfl
    | panic => rfl
  · have hr : ¬ (proto rnd).ready mb (abs rnd s) 1 = true := by
      simpa [Proto.ready, proto, abs, absStores, Round1.is_expensive] using hc
    rw [if_neg hr, if_neg hc]
    rfl

theorem sim_2 {rnd : KeygenRandomness} {mb : Bool} {s : State} {d : ℕ} {r : Round2}
    (ih : ∀ m < d, ∀ (s : State), s.round.left = m →
      (proto rnd).proceedRound mb (abs rnd s) =
        (abs rnd (proceed_round rnd mb s).1, (proceed_round rnd mb s).2))
    (hd : s.round.left = d) (hs : s.round = .Round2 r) :
    (proto rnd).proceedRound mb (abs rnd s) =
      (abs rnd (proceed_round rnd mb s).1, (proceed_round rnd mb s).2) := by
  have habs : (abs rnd s).round = .at 2 r := by simp only [abs, hs, absRound]
  rw [Proto.proceedRound_at (s := abs rnd _) (hr := habs), proceed_round_2 hs]
  by_cases hc : (!wantsMore (β := (proto rnd).Bd 2) s.msgs2 && (!Round2.is_expensive || mb)) = true
  · have hr : (proto rnd).ready mb (abs rnd s) 2 = true := by
      simpa [Proto.ready, proto, abs, absStores, Round2.is_expensive] using hc
    rw [if_pos hr, if_pos hc]
    have htake : (proto rnd).take { abs rnd s with round := .gone } 2 =
        (abs rnd { s with round := .Gone, msgs2 := none }, finishStore (β := (proto rnd).Bd 2) s.msgs2) := by
      simp only [Proto.take, if_neg (show ¬ (2 : ℕ) = 0 by decide), abs, absStores_none2']
      rfl
    rw [htake]
    simp only
    cases (finishStore (β := (proto rnd).Bd 2) s.msgs2 : Res (SMError (proto rnd).Er) _) with
    | ok ms =>
      simp only
      cases (proto rnd).fn 2 r ms with
      | ok no =>
        have := ih _ (by subst hd; rw [hs]; simp [R.left]) { s with
          round := .Round3 no.1
          msgs2 := none
          msgs_queue := s.msgs_queue ++ no.2.map (Msg.mapBody M.Round3) } rfl
        simp only
        rw [if_pos (show (proto rnd).again 2 = true from rfl)]
        refine Eq.trans ?_ this
        congr 1
        simp only [abs, List.map_append, absStores_none2']
        rw [show List.map (Msg.mapBody (tagM rnd)) (List.map (Msg.mapBody M.Round3) no.2) =
          List.map ((proto rnd).tag (2 + 1)) no.2 from tag_map3 rnd no.2]
        rfl
      | err e => rfl
      | panic => rfl
    | err e => rfl
    | panic => rfl
  · have hr : ¬ (proto rnd).ready mb (abs rnd s) 2 = true := by
      simpa [Proto.ready, proto, abs, absStores, Round2.is_expensive] using hc
    rw [if_neg hr, if_neg hc]
    rfl

theorem sim_3 {rnd : KeygenRandomness} {mb : Bool} {s : State} {d : ℕ} {r : Round3}
    (ih : ∀ m < d, ∀ (s : State), s.round.left = m →
      (proto rnd).proceedRound mb (abs rnd s) =
        (abs rnd (proceed_round rnd mb s).1, (proceed_round rnd mb s).2))
    (hd : s.round.left = d) (hs : s.round = .Round3 r) :
    (proto rnd).proceedRound mb (abs rnd s) =
      (abs rnd (proceed_round rnd mb s).1, (proceed_round rnd mb s).2) := by
  have habs : (abs rnd s).round = .at 3 r := by simp only [abs, hs, absRound]
  rw [Proto.proceedRound_at (s := abs rnd _) (hr := habs), proceed_round_3 hs]
  by_cases hc : (!wantsMore (β := (proto rnd).Bd 3) s.msgs3 && (!Round3.is_expensive || mb)) = true
  · have hr : (proto rnd).ready mb (abs rnd s) 3 = true := by
      simpa [Proto.ready, proto, abs, absStores, Round3.is_expensive] using hc
    rw [if_pos hr, if_pos hc]
    have htake : (proto rnd).take { abs rnd s with round := .gone } 3 =
        (abs rnd { s with round := .Gone, msgs3 := none }, finishStore (β := (proto rnd).Bd 3) s.msgs3) := by
      simp only [Proto.take, if_neg (show ¬ (3 : ℕ) = 0 by decide), abs, absStores_none3']
      rfl
    rw [htake]
    simp only
    cases (finishStore (β := (proto rnd).Bd 3) s.msgs3 : Res (SMError (proto rnd).Er) _) with
    | ok ms =>
      simp only
      cases (proto rnd).fn 3 r ms with
      | ok no =>
        have := ih _ (by subst hd; rw [hs]; simp [R.left]) { s with
          round := .Round4 no.1
          msgs3 := none
          msgs_queue := s.msgs_queue ++ no.2.map (Msg.mapBody M.Round4) } rfl
        simp only
        rw [if_pos (show (proto rnd).again 3 = true from rfl)]
        refine Eq.trans ?_ this
        congr 1
        simp only [abs, List.map_append, absStores_none3']
        rw [show List.map (Msg.mapBody (tagM rnd)) (List.map (Msg.mapBody M.Round4) no.2) =
          List.map ((proto rnd).tag (3 + 1)) no.2 from tag_map4 rnd no.2]
        rfl
      | err e => rfl
      | panic => rfl
    | err e => rfl
    | panic => rfl
  · have hr : ¬ (proto rnd).ready mb (abs rnd s) 3 = true := by
      simpa [Proto.ready, proto, abs, absStores, Round3.is_expensive] using hc
    rw [if_neg hr, if_neg hc]
    rfl

theorem sim_4 {rnd : KeygenRandomness} {mb : Bool} {s : State} {d : ℕ} {r : Round4}
    (ih : ∀ m < d, ∀ (s : State), s.round.left = m →
      (proto rnd).proceedRound mb (abs rnd s) =
        (abs rnd (proceed_round rnd mb s).1, (proceed_round rnd mb s).2))
    (hd : s.round.left = d) (hs : s.round = .Round4 r) :
    (proto rnd).proceedRound mb (abs rnd s) =
      (abs rnd (proceed_round rnd mb s).1, (proceed_round rnd mb s).2) := by
  have habs : (abs rnd s).round = .at 4 r := by simp only [abs, hs, absRound]
  rw [Proto.proceedRound_at (s := abs rnd _) (hr := habs), proceed_round_4 hs]
  by_cases hc : (!wantsMore (β := (proto rnd).Bd 4) s.msgs4 && (!Round4.is_expensive || mb)) = true
  · have hr : (proto rnd).ready mb (abs rnd s) 4 = true := by
      simpa [Proto.ready, proto, abs, absStores, Round4.is_expensive] using hc
    rw [if_pos hr, if_pos hc]
    have htake : (proto rnd).take { abs rnd s with round := .gone } 4 =
        (abs rnd { s with round := .Gone, msgs4 := none }, finishStore (β := (proto rnd).Bd 4) s.msgs4) := by
      simp only [Proto.take, if_neg (show ¬ (4 : ℕ) = 0 by decide), abs, absStores_none4']
      rfl
    rw [htake]
    simp only
    cases (finishStore (β := (proto rnd).Bd 4) s.msgs4 : Res (SMError (proto rnd).Er) _) with
    | ok ms =>
      simp only
      cases hno : (proto rnd).fn 4 r ms with
      | ok no =>
        have := ih _ (by subst hd; rw [hs]; simp [R.left]) { s with
          round := .Final no.1
          msgs4 := none } rfl
        simp only
        rw [if_pos (show (proto rnd).again 4 = true from rfl)]
        refine Eq.trans ?_ this
        congr 1
        simp only [abs, absStores_none4', show no.2 = [] from no_out hno, List.map_nil,
          List.append_nil]
        rfl
      | err e => rfl
      | panic => rfl
    | err e => rfl
    | panic => rfl
  · have hr : ¬ (proto rnd).ready mb (abs rnd s) 4 = true := by
      simpa [Proto.ready, proto, abs, absStores, Round4.is_expensive] using hc
    rw [if_neg hr, if_neg hc]
    rfl

theorem sim_proceed (rnd : KeygenRandomness) (mb : Bool) (s : State) :
    (proto rnd).proceedRound mb (abs rnd s) =
      (abs rnd (proceed_round rnd mb s).1, (proceed_round rnd mb s).2) := by
  induction hd : s.round.left using Nat.strong_induction_on generalizing s with
  | _ d ih =>
    cases hs : s.round with
    | Gone =>
      rw [Proto.proceedRound_gone (s := abs rnd _) (hr := by simp only [abs, hs, absRound]),
        proceed_round_gone hs]
      rfl
    | Final k =>
      have habs : (abs rnd s).round = .at 5 k := by simp only [abs, hs, absRound]
      rw [Proto.proceedRound_at (s := abs rnd _) (hr := habs), proceed_round_final hs,
        if_neg (show ¬ (proto rnd).ready mb (abs rnd s) 5 = true by simp [Proto.ready, proto])]
      rfl
    | Round0 r =>
      have habs : (abs rnd s).round = .at 0 r := by simp only [abs, hs, absRound]
      rw [Proto.proceedRound_at (s := abs rnd _) (hr := habs), proceed_round_0 hs]
      cases mb with
      | false =>
        rw [if_neg (show ¬ (proto rnd).ready false (abs rnd s) 0 = true by simp [Proto.ready, proto]),
          if_neg (by simp [Round0.is_expensive])]
        rfl
      | true =>
        rw [if_pos (by simp [Proto.ready, proto, abs, absStores, wantsMore]), if_pos (by simp)]
        simp only [Proto.take, if_true]
        have hfn : (proto rnd).fn 0 r [] = Round0.proceed r rnd := rfl
        rw [hfn]
        cases hp : Round0.proceed r rnd with
        | ok no =>
          have := ih _ (by subst hd; rw [hs]; simp [R.left]) { s with
            round := .Round1 no.1
            msgs_queue := s.msgs_queue ++ no.2.map (Msg.mapBody M.Round1) } rfl
          simp only
          rw [if_pos (show (proto rnd).again 0 = true from rfl)]
          refine Eq.trans ?_ this
          congr 1
          simp only [abs, List.map_append, tag_map1]
          rfl
        | err e => rfl
        | panic => rfl
    | Round1 r => exact sim_1 ih hd hs
    | Round2 r => exact sim_2 ih hd hs
    | Round3 r => exact sim_3 ih hd hs
    | Round4 r => exact sim_4 ih hd hs

def untag : (Σ k, Bd k) → Option M
  | ⟨1, m⟩ => some (.Round1 m)
  | ⟨2, m⟩ => some (.Round2 m)
  | ⟨3, m⟩ => some (.Round3 m)
  | ⟨4, m⟩ => some (.Round4 m)
  | _ => none

theorem tagM_inj (rnd : KeygenRandomness) : Function.Injective (tagM rnd) := by
  have h : ∀ m, untag (tagM rnd m) = some m := by
    intro m
    cases m <;> rfl
  intro a b hab
  have := congrArg untag hab
  rw [h, h] at this
  exact Option.some.inj this

theorem current_abs (rnd : KeygenRandomness) (s : State) :
    current_round s = (proto rnd).currentRound (abs rnd s) := by
  unfold current_round Proto.currentRound abs
  cases s.round <;> rfl

theorem sim_handle (rnd : KeygenRandomness) (s : State) (m : Msg M) :
    (proto rnd).handle (abs rnd s) (m.mapBody (tagM rnd)) =
      (abs rnd (handle_incoming rnd s m).1, (handle_incoming rnd s m).2) := by
  obtain ⟨snd, rcv, body⟩ := m
  unfold Proto.handle handle_incoming
  cases body with
  | Round1 b =>
    have e : (abs rnd s).stores 1 = s.msgs1 := rfl
    simp only [Msg.mapBody, tagM, e]
    cases s.msgs1 with
    | none => simp only [current_abs rnd]; rfl
    | some st =>
      simp only
      cases hp : st.push_msg ⟨snd, rcv, b⟩ with
      | ok st' =>
        have hp' : Store.push_msg (β := (proto rnd).Bd 1) st ⟨snd, rcv, b⟩ = .ok st' := hp
        simp only [hp']
        refine Eq.trans ?_ (sim_proceed rnd false { s with msgs1 := some st' })
        congr 1
        exact congrArg (fun x => Proto.State.mk (P := proto rnd) (absRound rnd s.round) x
          (s.msgs_queue.map (Msg.mapBody (tagM rnd)))) (absStores_some1 s st').symm
      | err e =>
        have hp' : Store.push_msg (β := (proto rnd).Bd 1) st ⟨snd, rcv, b⟩ = .err e := hp
        simp only [hp']
        rfl
      | panic =>
        have hp' : Store.push_msg (β := (proto rnd).Bd 1) st ⟨snd, rcv, b⟩ = .panic := hp
        simp only [hp']
        rfl
  | Round2 b =>
    have e : (abs rnd s).stores 2 = s.msgs2 := rfl
    simp only [Msg.mapBody, tagM, e]
    cases s.msgs2 with
    | none => simp only [current_abs rnd]; rfl
    | some st =>
      simp only
      cases hp : st.push_msg ⟨snd, rcv, b⟩ with
      | ok st' =>
        have hp' : Store.push_msg (β := (proto rnd).Bd 2) st ⟨snd, rcv, b⟩ = .ok st' := hp
        simp only [hp']
        refine Eq.trans ?_ (sim_proceed rnd false { s with msgs2 := some st' })
        congr 1
        exact congrArg (fun x => Proto.State.mk (P := proto rnd) (absRound rnd s.round) x
          (s.msgs_queue.map (Msg.mapBody (tagM rnd)))) (absStores_some2 s st').symm
      | err e =>
        have hp' : Store.push_msg (β := (proto rnd).Bd 2) st ⟨snd, rcv, b⟩ = .err e := hp
        simp only [hp']
        rfl
      | panic =>
        have hp' : Store.push_msg (β := (proto rnd).Bd 2) st ⟨snd, rcv, b⟩ = .panic := hp
        simp only [hp']
        rfl
  | Round3 b =>
    have e : (abs rnd s).stores 3 = s.msgs3 := rfl
    simp only [Msg.mapBody, tagM, e]
    cases s.msgs3 with
    | none => simp only [current_abs rnd]; rfl
    | some st =>
      simp only
      cases hp : st.push_msg ⟨snd, rcv, b⟩ with
      | ok st' =>
        have hp' : Store.push_msg (β := (proto rnd).Bd 3) st ⟨snd, rcv, b⟩ = .ok st' := hp
        simp only [hp']
        refine Eq.trans ?_ (sim_proceed rnd false { s with msgs3 := some st' })
        congr 1
        exact congrArg (fun x => Proto.State.mk (P := proto rnd) (absRound rnd s.round) x
          (s.msgs_queue.map (Msg.mapBody (tagM rnd)))) (absStores_some3 s st').symm
      | err e =>
        have hp' : Store.push_msg (β := (proto rnd).Bd 3) st ⟨snd, rcv, b⟩ = .err e := hp
        simp only [hp']
        rfl
      | panic =>
        have hp' : Store.push_msg (β := (proto rnd).Bd 3) st ⟨snd, rcv, b⟩ = .panic := hp
        simp only [hp']
        rfl
  | Round4 b =>
    have e : (abs rnd s).stores 4 = s.msgs4 := rfl
    simp only [Msg.mapBody, tagM, e]
    cases s.msgs4 with
    | none => simp only [current_abs rnd]; rfl
    | some st =>
      simp only
      cases hp : st.push_msg ⟨snd, rcv, b⟩ with
      | ok st' =>
        have hp' : Store.push_msg (β := (proto rnd).Bd 4) st ⟨snd, rcv, b⟩ = .ok st' := hp
        simp only [hp']
        refine Eq.trans ?_ (sim_proceed rnd false { s with msgs4 := some st' })
        congr 1
        exact congrArg (fun x => Proto.State.mk (P := proto rnd) (absRound rnd s.round) x
          (s.msgs_queue.map (Msg.mapBody (tagM rnd)))) (absStores_some4 s st').symm
      | err e =>
        have hp' : Store.push_msg (β := (proto rnd).Bd 4) st ⟨snd, rcv, b⟩ = .err e := hp
        simp only [hp']
        rfl
      | panic =>
        have hp' : Store.push_msg (β := (proto rnd).Bd 4) st ⟨snd, rcv, b⟩ = .panic := hp
        simp only [hp']
        rfl

/-- `Keygen` behaves like the round machine of `proto`. -/
def sim (rnd : KeygenRandomness) : (proto rnd).Sim (machine rnd) where
  abs := abs rnd
  tagB := tagM rnd
  tag_inj := tagM_inj rnd
  handle := sim_handle rnd
  proceed := sim_proceed rnd true
  queue := fun _ => rfl
  clear := fun _ => rfl
  pick := by
    rintro ⟨round, m1, m2, m3, m4, q, i, n⟩
    cases round <;> rfl
  wants := by
    intro s
    simp only [machine, wants_to_proceed, Proto.machine, abs]
    cases s.round <;> rfl
  finished := by
    intro s
    simp only [machine, is_finished, Proto.machine, abs]
    cases s.round <;> rfl
  current := current_abs rnd
  blame := by
    intro s
    simp only [machine, round_blame, Proto.blame, abs]
    cases s.round <;> rfl

end Verif.GG20.Keygen
