import Verif.Ext.Sigma

/-! # The challenges of the sigma proofs, for any property of hashes of points -/

namespace Verif

open EC Crypto

variable [Crypto] {R : List Pt → List Pt → Prop} (hR : ∀ l l' : List Pt, hashPts l = hashPts l' → R l l')
include hR

theorem dlog_challenge : ∃ challenge : Pt → Pt → Sc,
    (∀ pf : DLogProof, pf.verify = true ↔
      pf.challenge_response • G + challenge pf.pk_t_rand_commitment pf.pk • pf.pk =
        pf.pk_t_rand_commitment) ∧
    ∀ T pk T' pk', challenge T pk = challenge T' pk' → R [T, G, pk] [T', G, pk'] :=
  ⟨fun T pk => hashPts [T, G, pk], fun pf => pf.verify_iff, fun _ _ _ _ h => hR _ _ h⟩

theorem pedersen_challenge : ∃ challenge : Pt → Pt → Pt → Sc,
    (∀ pf : PedersenProof, pf.verify = true ↔
      pf.z1 • G + pf.z2 • H = pf.a1 + pf.a2 + challenge pf.com pf.a1 pf.a2 • pf.com) ∧
    ∀ com a1 a2 com' a1' a2', challenge com a1 a2 = challenge com' a1' a2' →
      R [G, H, com, a1, a2] [G, H, com', a1', a2'] :=
  ⟨fun com a1 a2 => hashPts [G, H, com, a1, a2], fun pf => pf.verify_iff,
    fun _ _ _ _ _ _ h => hR _ _ h⟩

theorem elgamal_challenge : ∃ challenge : HomoElGamalStatement → Pt → Pt → Sc,
    (∀ (pf : HomoElGamalProof) (st : HomoElGamalStatement), pf.verify st = true ↔
      pf.z1 • st.H + pf.z2 • st.Y = pf.T + challenge st pf.T pf.A3 • st.D ∧
      pf.z2 • st.G = pf.A3 + challenge st pf.T pf.A3 • st.E) ∧
    ∀ st T A st' T' A', challenge st T A = challenge st' T' A' →
      R [T, A, st.G, st.H, st.Y, st.D, st.E] [T', A', st'.G, st'.H, st'.Y, st'.D, st'.E] :=
  ⟨fun st T A => hashPts [T, A, st.G, st.H, st.Y, st.D, st.E],
    fun pf st => by simp [HomoElGamalProof.verify], fun _ _ _ _ _ _ h => hR _ _ h⟩

theorem ecddh_challenge : ∃ challenge : ECDDHStatement → Pt → Pt → Sc,
    (∀ (pf : ECDDHProof) (st : ECDDHStatement), pf.verify st = true ↔
      pf.z • st.g1 = pf.a1 + challenge st pf.a1 pf.a2 • st.h1 ∧
      pf.z • st.g2 = pf.a2 + challenge st pf.a1 pf.a2 • st.h2) ∧
    ∀ st a1 a2 st' a1' a2', challenge st a1 a2 = challenge st' a1' a2' →
      R [st.g1, st.h1, st.g2, st.h2, a1, a2] [st'.g1, st'.h1, st'.g2, st'.h2, a1', a2'] :=
  ⟨fun st a1 a2 => hashPts [st.g1, st.h1, st.g2, st.h2, a1, a2],
    fun pf st => by simp [ECDDHProof.verify], fun _ _ _ _ _ _ h => hR _ _ h⟩

end Verif
