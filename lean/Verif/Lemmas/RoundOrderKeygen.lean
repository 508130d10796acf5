import Verif.Lemmas.RoundOrder
import Verif.Lemmas.KeygenAgree
import Verif.Lemmas.KeygenSMSpec

/-! # What a party has checked when it enters round 3 of key generation -/

namespace Verif.GG20.Keygen

open EC Crypto Spec

variable [Crypto]

theorem valid_of_round3 {rnd : KeygenRandomness} {k t n : ℕ} (ht : t < n) (hk : k < n)
    {v : (j : ℕ) → List ((proto rnd).Bd j)} {b1 : ℕ → KeyGenBroadcastMessage1}
    {b2 : ℕ → KeyGenDecommitMessage1} (e1 : v 1 = (peers (k + 1) n).map b1)
    (e2 : v 2 = (peers (k + 1) n).map b2)
    {x : (proto rnd).St 3 × List (Msg (proto rnd).Body)}
    (hx : (proto rnd).straight (⟨k + 1, t, n⟩ : Round0) v 3 = .ok x) {p : ℕ} (p1 : 1 ≤ p) (p2 : p ≤ n)
    (p3 : p ≠ k + 1) : ValidBroadcast (b1 p) (b2 p) := by
  simp only [Proto.straight, Res.bind_eq_ok] at hx
  obtain ⟨⟨r2, q2⟩, ⟨⟨r1, q1⟩, ⟨w, hw, ⟨r1', o1⟩, c1, d1⟩, ⟨r2', o2⟩, c2, d2⟩, ⟨r3, o3⟩, c3, -⟩ := hx
  obtain rfl := Res.ok.inj hw
  simp only [Res.ok.injEq, Prod.mk.injEq] at d1 d2
  obtain ⟨rfl, -⟩ := d1
  obtain ⟨rfl, -⟩ := d2
  change Round0.proceed ⟨k + 1, t, n⟩ rnd = .ok (r1', o1) at c1
  change Round1.proceed r1' (v 1) = .ok (r2', o2) at c2
  change Round2.proceed r2' (v 2) rnd = .ok (r3, o3) at c3
  rw [e1] at c2
  rw [e2] at c3
  simp only [Round0.proceed, Res.ok.injEq] at c1
  obtain ⟨rfl, rfl⟩ := c1
  simp only [Round1.proceed, Res.ok.injEq, intoVec_peers hk] at c2
  obtain ⟨rfl, rfl⟩ := c2
  simp only [Round2.proceed, intoVec_peers hk, Res.bind_eq_ok, Res.mapErr_eq_ok] at c3
  obtain ⟨vr, hvr, -⟩ := c3
  rcases phase1_cases (Keys.create (k + 1) rnd.u rnd.dk rnd.aux) ht rnd.coefs
    (assemble_length n k ((Keys.create (k + 1) rnd.u rnd.dk rnd.aux).phase1_broadcast rnd.blind
      rnd.cd1 rnd.cd2).2 b2)
    (assemble_length n k ((Keys.create (k + 1) rnd.u rnd.dk rnd.aux).phase1_broadcast rnd.blind
      rnd.cd1 rnd.cd2).1 b1) with ⟨h, -⟩ | ⟨_, _, _, _, ⟨-, hc⟩ | ⟨-, hc⟩⟩
  · obtain ⟨bc, decom, g1, g2, hval⟩ := h (p - 1) (by omega)
    rw [assemble_get _ _ (by omega), if_neg (by omega), Nat.sub_add_cancel p1, Option.some.injEq]
      at g1 g2
    rw [g1, g2]
    exact hval
  · rw [hc] at hvr; cases hvr
  · rw [hc] at hvr; cases hvr

end Verif.GG20.Keygen
