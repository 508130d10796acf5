import Verif.Props.FreshNonces

/-!
# C140 for whole GG20 sessions
-/

namespace Verif.Props

open EC Crypto Spec GG20 GG20.Sign

section
variable [Crypto]

/-- In an honest session the recovery id recovers the key, if the coordinates of the nonce point are below the group
order. -/
theorem session_recovers (hp : p < 2 * q) {t n : ℕ} {x : ℕ → Sc} {d : Sc} {dk : ℕ → DecKey}
    {sts : List DLogStatement} {s_l : List ℕ} {key : ℕ → LocalKey} {rnd : ℕ → SignRandomness}
    (h : HonestSigners n (d • G) x dk sts s_l key rnd) (hx : Reconstructs t n x d) (hlen : t + 1 ≤ s_l.length)
    {message : ℤ} {xr y : ℕ} (hc : coords ((∑ j ∈ Finset.range s_l.length, (rnd j).k)⁻¹ • (G : Pt)) = some (xr, y))
    (hx0 : (xr : Sc) ≠ 0) (hm : (message : Sc) + (xr : Sc) * d ≠ 0) (hxq : xr < q) (hyq : y < q) :
    ∃ cs sig, offline s_l key rnd = .ok cs ∧ online message cs = .ok (List.replicate s_l.length sig) ∧
      Recovers sig.r sig.s sig.recid message (d • G) := by
  have hd := signShare_sum h.members h.nodup hx hlen
  have hR := oR_eq h.gamma_sum
  rw [← hR] at hc
  have hs : ∑ i ∈ Finset.range s_l.length, ((message : Sc) * (rnd i).k + (xr : Sc) * oSigma x s_l rnd i) =
      (∑ i ∈ Finset.range s_l.length, (rnd i).k) * ((message : Sc) + (xr : Sc) * d) := by
    rw [Finset.sum_add_distrib, ← Finset.mul_sum, ← Finset.mul_sum, oSigma_sum, hd]
    ring
  have hs0 : ∑ i ∈ Finset.range s_l.length, ((message : Sc) * (rnd i).k + (xr : Sc) * oSigma x s_l rnd i) ≠ 0 := by
    rw [hs]; exact mul_ne_zero h.k_sum hm
  have heq : (∑ i ∈ Finset.range s_l.length, ((message : Sc) * (rnd i).k + (xr : Sc) * oSigma x s_l rnd i)) •
      oR s_l rnd = (message : Sc) • G + (xr : Sc) • (d • (G : Pt)) := by
    rw [hs, hR, ← mul_smul, ← mul_smul, ← add_smul]
    congr 1
    rw [mul_comm _ (∑ i ∈ Finset.range s_l.length, (rnd i).k)⁻¹, ← mul_assoc, inv_mul_cancel₀ h.k_sum, one_mul]
  have he := ecdsaEq_of_eq hc hs0 heq
  refine ⟨_, _, offline_eq h hd rfl, by rw [online_eq hc he, List.map_const', List.length_range], ?_⟩
  let st : LocalSignature := ⟨(xr : Sc), oR s_l rnd, ∑ i ∈ Finset.range s_l.length, ((message : Sc) * (rnd i).k +
    (xr : Sc) * oSigma x s_l rnd i), message, d • G⟩
  refine (C04_gg20_recid_iff hp st [] _ xr y hc hx0 (by simpa [st] using heq)
    ((gg20_output_ok_iff st [] hc _).2 ⟨by simpa [st] using he, ?_⟩)).2 ⟨hxq, hyq⟩
  simp [st]

/-- **C140**, whole GG20 sessions. All signers follow the program. For all but at most `4 + 5 (p - q)` of the nonce
shares of one signer - with the nonce shares of the others fixed, and whatever all other samples are - all signers
output one signature, and its recovery id recovers the key. -/
theorem C140_gg20_session (h3 : ThreePerY) (hp : p < 2 * q) {s : Gg20Session} (hs : s.Fits) (hd : s.d ≠ 0) (m : ℤ) :
    chance (fun u : {z : Sc // z ≠ 0} => ∃ rnd, HonestSigners s.n (s.d • G) s.x s.dk s.sts s.s_l s.key rnd ∧
      (rnd s.pos).k = u.1 ∧ (∀ j < s.s_l.length, j ≠ s.pos → (rnd j).k = s.k j) ∧
      ¬ ∃ cs sig, offline s.s_l s.key rnd = .ok cs ∧ online m cs = .ok (List.replicate s.s_l.length sig) ∧
        Recovers sig.r sig.s sig.recid m (s.d • G)) ≤ (4 + 5 * (p - q : ℕ)) / ((q : ℚ) - 1) := by
  have h := few_large (f := fun u => (u.1 + ∑ j ∈ (Finset.range s.s_l.length).erase s.pos, s.k j)⁻¹ • (G : Pt)) h3
    (fun u v e => Subtype.ext (add_right_cancel (inv_injective ((smul_G_inj).1 e))))
    [0, (-(m : Sc) / s.d).val]
    (event := fun u : {z : Sc // z ≠ 0} => ∃ rnd, HonestSigners s.n (s.d • G) s.x s.dk s.sts s.s_l s.key rnd ∧
      (rnd s.pos).k = u.1 ∧ (∀ j < s.s_l.length, j ≠ s.pos → (rnd j).k = s.k j) ∧
      ¬ ∃ cs sig, offline s.s_l s.key rnd = .ok cs ∧ online m cs = .ok (List.replicate s.s_l.length sig) ∧
        Recovers sig.r sig.s sig.recid m (s.d • G)) (by
      rintro u ⟨rnd, hh, hu, hk, hn⟩
      have hsum := sum_update hs.pos_lt (fun j => (rnd j).k) _ hk
      have hne : (∑ j ∈ Finset.range s.s_l.length, (rnd j).k)⁻¹ • (G : Pt) ≠ 0 := fun h0 =>
        inv_ne_zero hh.k_sum (smul_G_eq_zero.1 h0)
      obtain ⟨x, y, hc⟩ := exists_coords hne
      refine ⟨x, y, by rw [← hc, hsum, hu], ?_⟩
      by_contra hcon
      push Not at hcon
      obtain ⟨hl, hx, hy⟩ := hcon
      simp only [List.mem_cons, List.not_mem_nil, or_false, not_or] at hl
      refine hn (session_recovers hp hh hs.shares hs.enough hc ?_ (fun h0 => hl.2 ?_) hx hy)
      · rw [Ne, ZMod.natCast_eq_zero_iff]
        exact fun h => hl.1 (Nat.eq_zero_of_dvd_of_lt h hx)
      · rw [← x_of_zero hd h0, Nat.mod_eq_of_lt hx])
  norm_num at h
  norm_num
  exact h

end

section Examples
attribute [local instance] Toy.crypto

example := C140_gg20_session toy_threePerY (by decide) toyGg20_fits (by decide) 10

end Examples

end Verif.Props
