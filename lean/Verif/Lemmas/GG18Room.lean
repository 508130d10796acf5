import Verif.Lemmas.Post
import Verif.Lemmas.DemoKeygen
import Verif.Lemmas.DemoSign

/-! Helper lemmas on the GG18 demo clients as programs. -/

namespace Verif.Demo

open EC Crypto GG18 Spec Prog

variable [Crypto] {V : Type}

omit [Crypto] in
theorem after_ok {τ α : Type} {a : Res Empty τ} {x : τ} (h : a = .ok x) (f : τ → Prog V (Res Empty α)) :
    after a f = f x := by
  rw [h]
  rfl

namespace Keygen

variable (A : Aead) (C : Codecs A V) {t n : ℕ} {rnd : ℕ → Rand}

/-- What is sent in the five rounds -/
noncomputable def rounds (t n : ℕ) (rnd : ℕ → Rand) : List (String × Vals V) :=
  [("round1", .bcast fun j => C.c1.enc (kBc rnd j)), ("round2", .bcast fun j => C.c2.enc (kDec rnd j)),
    ("round3", .p2p fun i j => C.c3.enc (kCt A rnd i j)), ("round4", .bcast fun j => C.c4.enc (kVss t n rnd j)),
    ("round5", .bcast fun j => C.c5.enc (kPf n rnd j))]

theorem follows (ht : t < n) (hon : ∀ k < n, Spec.GG18.HonestKeygenRand t (rnd (k + 1))) (uuid : String)
    {k : ℕ} (hk : k < n) :
    Follows (program A C t n rnd uuid (k + 1)) (trace n uuid k 0 (rounds A C t n rnd))
      (.ok (kFile t n rnd k)) := by
  unfold program
  dsimp only
  refine follows_bcast (f := kBc rnd) ?_
  rw [show (start (k + 1) (rnd (k + 1))).1 = ⟨kKeys rnd k, kBc rnd k, kDec rnd k⟩ from rfl,
    after_ok (round2_ok hk)]
  refine follows_bcast (f := kDec rnd) ?_
  rw [after_ok (round3_ok A ht (fun k hk => ⟨t, hon k hk⟩) hk)]
  refine follows_p2p (f := kCt A rnd) ?_
  rw [after_ok (round4_ok A (fun k hk => ⟨t, hon k hk⟩) hk)]
  refine follows_bcast (f := kVss t n rnd) ?_
  rw [after_ok (round5_ok (k := k))]
  refine follows_bcast (f := kPf n rnd) ?_
  rw [finish_ok]
  exact .done _

end Keygen

namespace Sign

variable (C : Codecs V) {t n : ℕ} {d : Sc} {x : ℕ → Sc} {dk : ℕ → DecKey} {s_l : List ℕ}
  {key : ℕ → Demo.Keygen.KeyFile} {rnd : ℕ → Demo.Sign.Rand}

/-- What is sent in the ten rounds -/
noncomputable def rounds (Y : Pt) (x : ℕ → Sc) (dk : ℕ → DecKey) (s_l : List ℕ)
    (key : ℕ → Demo.Keygen.KeyFile) (rnd : ℕ → Demo.Sign.Rand) (msg : ℤ) (X : ℕ) : List (String × Vals V) :=
  [("round0", .bcast fun j => C.c0.enc (key (j + 1)).party_id),
    ("round1", .bcast fun j => C.c1.enc (cCom rnd j, cMA dk s_l rnd j)),
    ("round2", .p2p fun i j => C.c2.enc (cB x dk s_l rnd i j)),
    ("round3", .bcast fun j => C.c3.enc (GG20.Sign.oDelta s_l (conv rnd) j)),
    ("round4", .bcast fun j => C.c4.enc (cDec rnd j)),
    ("round5", .bcast fun j => C.c5.enc (cC1 x s_l rnd msg X j)),
    ("round6", .bcast fun j => C.c6.enc (cOpen x s_l rnd msg X j)),
    ("round7", .bcast fun j => C.c7.enc (cC2 x Y s_l rnd msg X j)),
    ("round8", .bcast fun j => C.c8.enc (cD2 x Y s_l rnd msg X j)),
    ("round9", .bcast fun j => C.c9.enc (cS x s_l rnd msg X j))]

theorem follows (h : Spec.GG18.HonestRoom n (d • G) x dk s_l key rnd) (msg : ℤ) {X yy : ℕ}
    (hR : coords (GG20.Sign.oR s_l (conv rnd)) = some (X, yy))
    (hs : (∑ j ∈ Finset.range s_l.length, cS x s_l rnd msg X j) • GG20.Sign.oR s_l (conv rnd) =
      (msg : Sc) • G + (X : Sc) • d • G)
    (hne : ∑ j ∈ Finset.range s_l.length, cS x s_l rnd msg X j ≠ 0) (uuid : String)
    {k : ℕ} (hk : k < s_l.length) :
    Follows (program C (s_l.length - 1) msg rnd uuid key (k + 1))
      (trace s_l.length uuid k 0 (rounds C (d • G) x dk s_l key rnd msg X))
      (.ok ⟨(X : Sc), normS (∑ j ∈ Finset.range s_l.length, cS x s_l rnd msg X j),
        recidOf (∑ j ∈ Finset.range s_l.length, cS x s_l rnd msg X j) yy⟩) := by
  have he := GG20.Sign.ecdsaEq_of_eq hR hne hs
  unfold program
  rw [Nat.sub_add_cancel (by omega)]
  dsimp only
  refine follows_bcast (f := fun j => (key (j + 1)).party_id) ?_
  rw [show (start (k + 1) (key (k + 1))).1 = key (k + 1) from rfl, after_ok (round1_ok h hk)]
  refine follows_bcast (f := fun j => (cCom rnd j, cMA dk s_l rnd j)) ?_
  rw [after_ok (round2_ok h hk)]
  refine follows_p2p (f := cB x dk s_l rnd) ?_
  rw [after_ok (round3_ok h hk)]
  refine follows_bcast (f := GG20.Sign.oDelta s_l (conv rnd)) ?_
  rw [after_ok (round4_ok h hk)]
  refine follows_bcast (f := cDec rnd) ?_
  rw [after_ok (round5_ok h msg hR hk)]
  refine follows_bcast (f := cC1 x s_l rnd msg X) ?_
  rw [after_ok (round6_ok msg hk)]
  refine follows_bcast (f := cOpen x s_l rnd msg X) ?_
  rw [after_ok (round7_ok msg hR hk)]
  refine follows_bcast (f := cC2 x (d • G) s_l rnd msg X) ?_
  rw [after_ok (round8_ok msg hk)]
  refine follows_bcast (f := cD2 x (d • G) s_l rnd msg X) ?_
  rw [after_ok (round9_ok msg hk hs)]
  refine follows_bcast (f := cS x s_l rnd msg X) ?_
  rw [finish_ok msg hR hk he]
  exact .done _

end Sign

end Verif.Demo
