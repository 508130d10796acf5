import Verif.Spec.SignSM

/-! # What a finished offline stage has checked -/

namespace Verif.Spec

open EC Crypto GG20 GG20.Sign

variable [Crypto]

/-- The messages a signer broadcasts. -/
structure OwnMsgs where
  m1 : MessageA × SignBroadcastPhase1
  m3 : TMsg
  m4 : SignDecommitPhase1
  m5 : Pt × List PDLwSlackProof
  m6 : Pt × HomoElGamalProof

/-- The signer at position `k` (from 0) of `s_l` broadcast `own`, received `b` (numbered from 1) and its
offline stage ended with `c`: everything that has to hold for that. -/
structure OfflineChecks (s_l : List ℕ) (k : ℕ) (key : LocalKey) (b : SignerMsgs) (own : OwnMsgs)
    (c : CompletedOfflineStage) : Prop where
  /-- every other signer's encrypted nonce carries one valid range proof for each party of the key -/
  ranges : ∀ j < s_l.length, j ≠ k → ∃ N, key.paillier_key_vec[s_l.getD j 0 - 1]? = some N ∧
    (b.b1 (j + 1)).1.range_proofs.length = key.h1_h2_n_tilde_vec.length ∧
    ∀ x ∈ (b.b1 (j + 1)).1.range_proofs.zip key.h1_h2_n_tilde_vec,
      x.1.verify (b.b1 (j + 1)).1.c N x.2 = some true
  /-- both answers of every other signer are consistent with their proofs -/
  answers : ∀ j < s_l.length, j ≠ k → ∃ x y,
    (b.b2 (j + 1)).1.verify_proofs_get_alpha key.paillier_dk c.k_i = .ok x ∧
    (b.b2 (j + 1)).2.verify_proofs_get_alpha key.paillier_dk c.k_i = .ok y
  /-- the second answer is about the key share of its sender -/
  share : ∃ gws : List Pt, (SignKeys.g_w_vec key.pk_vec (s_l.map (· - 1)) : Res SignError (List Pt)) = .ok gws ∧
    ∀ j < s_l.length, j ≠ k → gws[j]? = some (b.b2 (j + 1)).2.b_proof.pk
  /-- every `T` comes with a valid proof of knowledge of an opening -/
  pedersen : ∀ j < s_l.length, j ≠ k →
    (b.b3 (j + 1)).t_i = (b.b3 (j + 1)).t_i_proof.com ∧ (b.b3 (j + 1)).t_i_proof.verify = true
  /-- every revealed point opens the commitment and is the one of the first answer -/
  reveals : ∀ j < s_l.length, j ≠ k →
    (b.b2 (j + 1)).1.b_proof.pk = (b.b4 (j + 1)).g_gamma_i ∧
    hashCom (ser (b.b4 (j + 1)).g_gamma_i) (b.b4 (j + 1)).blind_factor = (b.b1 (j + 1)).2.com
  /-- the nonce point is the sum of the revealed points divided by the sum of the deltas -/
  nonce_point : own.m3.delta_i + ((peers (k + 1) s_l.length).map (fun p => (b.b3 p).delta_i)).sum ≠ 0 ∧
    (own.m3.delta_i + ((peers (k + 1) s_l.length).map (fun p => (b.b3 p).delta_i)).sum) • c.R =
      own.m4.g_gamma_i + ((peers (k + 1) s_l.length).map (fun p => (b.b4 p).g_gamma_i)).sum
  /-- every other signer's PDL proofs are accepted -/
  pdl : ∀ j < s_l.length, j ≠ k → ∃ N, key.paillier_key_vec[s_l.getD j 0 - 1]? = some N ∧
    phase5_verify_pdl (b.b5 (j + 1)).2 (b.b5 (j + 1)).1 c.R (b.b1 (j + 1)).1.c N key.h1_h2_n_tilde_vec
      (s_l.map (· - 1)) j = .ok ()
  /-- the points `k_i R` add up to the generator -/
  nonce_check : own.m5.1 = c.k_i • c.R ∧
    own.m5.1 + ((peers (k + 1) s_l.length).map (fun p => (b.b5 p).1)).sum = G
  /-- every `S` is about the value in the sender's `T` -/
  elgamal : ∀ j < s_l.length, j ≠ k →
    (b.b6 (j + 1)).2.verify ⟨c.R, H, G, (b.b3 (j + 1)).t_i, (b.b6 (j + 1)).1⟩ = true
  /-- the points `sigma_i R` add up to the public key -/
  key_check : own.m6.1 = c.sigma_i • c.R ∧ c.y_sum_s = key.y_sum_s ∧
    own.m6.1 + ((peers (k + 1) s_l.length).map (fun p => (b.b6 p).1)).sum = c.y_sum_s

end Verif.Spec
