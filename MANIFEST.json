{
 "claims": [
  {
   "property": "C01",
   "status": "proved",
   "theorems": [
    "Verif.Props.C01_gg20_verify"
   ],
   "note": "Accept, reject and panic sets characterised."
  },
  {
   "property": "C02",
   "status": "proved",
   "theorems": [
    "Verif.Props.C02_gg18_verify"
   ],
   "note": ""
  },
  {
   "property": "C03",
   "status": "proved",
   "theorems": [
    "Verif.Props.C03_gg20_output_valid",
    "Verif.Props.C03_gg18_output_valid",
    "Verif.Props.C03_output_complete"
   ],
   "note": ""
  },
  {
   "property": "C04",
   "status": "partial",
   "theorems": [
    "Verif.Props.C04_gg20_recid_partial",
    "Verif.Props.C04_gg20_recid_iff",
    "Verif.Props.C04_recid_flipped_by_cosigner",
    "Verif.Props.C04_wrong_recid_real",
    "Verif.Props.C04_gg18_recid_iff",
    "Verif.Props.C04_gg18_recid_flipped"
   ],
   "note": "Violated: coordinates >= q (shown on secp256k1 itself) and dishonest co-signers; both proved."
  },
  {
   "property": "C05",
   "status": "partial",
   "theorems": [
    "Verif.Props.C05_l17_sound_partial",
    "Verif.Props.C05_l17_complete_partial",
    "Verif.Props.C05_l17_verify_ok_iff",
    "Verif.Props.C05_l17_rejects_valid",
    "Verif.Props.C05_l17_negative_s",
    "Verif.Props.C05_l17_panics_iff",
    "Verif.Props.C05_rejects_valid_real"
   ],
   "note": "Violated: x >= q rejected, negative s accepted, panics; all characterised."
  },
  {
   "property": "C06",
   "status": "partial",
   "theorems": [
    "Verif.Props.C06_cclst_sound_partial",
    "Verif.Props.C06_cclst_complete_partial",
    "Verif.Props.C06_cclst_verify",
    "Verif.Props.C06_cclst_rejects_valid",
    "Verif.Props.C06_cclst_panics_iff"
   ],
   "note": "As C05."
  },
  {
   "property": "C07",
   "status": "proved",
   "theorems": [
    "Verif.Props.C07_message_mod_q",
    "Verif.Props.C07_two_messages"
   ],
   "note": ""
  },
  {
   "property": "C08",
   "status": "proved",
   "theorems": [
    "Verif.Props.C08_gg_malleable",
    "Verif.Props.C08_two_party_not_malleable"
   ],
   "note": ""
  },
  {
   "property": "C09",
   "status": "proved",
   "theorems": [
    "Verif.Props.C09_share_validates",
    "Verif.Props.C09_shares_reconstruct"
   ],
   "note": ""
  },
  {
   "property": "C10",
   "status": "proved",
   "theorems": [
    "Verif.Props.C10_honest_keygen",
    "Verif.Props.honestRandomness_exists"
   ],
   "note": ""
  },
  {
   "property": "C11",
   "status": "partial",
   "theorems": [
    "Verif.Props.C11_accepts_iff",
    "Verif.Props.C11_blames_first_partial",
    "Verif.Props.C11_later_offender_missing"
   ],
   "note": "Acceptance proved; the accusation names only the first offender, proved and witnessed."
  },
  {
   "property": "C12",
   "status": "partial",
   "theorems": [
    "Verif.Props.C12_accepts_iff",
    "Verif.Props.C12_blames_first_partial",
    "Verif.Props.C12_later_offender_missing"
   ],
   "note": "Acceptance proved; only the first offender is named."
  },
  {
   "property": "C13",
   "status": "partial",
   "theorems": [
    "Verif.Props.C13_accepts_iff_partial",
    "Verif.Props.C13_wrong_count",
    "Verif.Props.C13_later_offender_missing"
   ],
   "note": "Needs commitment vectors no longer than the first; only the first offender is named."
  },
  {
   "property": "C14",
   "status": "partial",
   "theorems": [
    "Verif.Props.C14_honest_shares_usable_partial",
    "Verif.Props.C14_honest_shares_usable_party_one",
    "Verif.Props.C14_threshold_raised"
   ],
   "note": "Needs commitment vectors of length at most t+1, which the code does not check (or only the vector of party 1: a longer one of another party makes the last round panic); without it the property is violated, proved."
  },
  {
   "property": "C15",
   "status": "partial",
   "theorems": [
    "Verif.Props.C15_machine_panics",
    "Verif.Props.C15_round1_panics_iff",
    "Verif.Props.C15_round3_panics_iff",
    "Verif.Props.C15_round4_panics_iff",
    "Verif.Props.C15_peer_panics_round3",
    "Verif.Props.C15_peer_panics_round4",
    "Verif.Props.C15_no_panic_partial",
    "Verif.Props.C15_gg18_no_panic",
    "Verif.Props.C15_gg18_shares_panic_iff",
    "Verif.Props.C15_gg18_client_panics",
    "Verif.Props.C15_short_proof_panics",
    "Verif.Props.C15_bad_parameters_panic"
   ],
   "note": "Violated: exact panic conditions proved for the GG20 rounds and the GG18 functions; the GG18 client also panics on the point at infinity."
  },
  {
   "property": "C17",
   "status": "proved",
   "theorems": [
    "Verif.Props.C17_t_shares_reveal_nothing"
   ],
   "note": ""
  },
  {
   "property": "C18",
   "status": "proved",
   "theorems": [
    "Verif.Props.C18_update_shifts_secret",
    "Verif.Props.C18_refresh_shifts_public_key",
    "Verif.Props.C18_gg18_update_shifts_secret",
    "Verif.Props.C18_gg18_refresh_shifts_public_key"
   ],
   "note": ""
  },
  {
   "property": "C19",
   "status": "proved",
   "theorems": [
    "Verif.Props.C19_new_accepts",
    "Verif.Props.C19_new_errors",
    "Verif.Props.C19_new_state"
   ],
   "note": ""
  },
  {
   "property": "C20",
   "status": "proved",
   "theorems": [
    "Verif.Props.C20_any_schedule",
    "Verif.Props.C20_when_quiet",
    "Verif.Props.C20_schedule_independent"
   ],
   "note": ""
  },
  {
   "property": "C21",
   "status": "proved",
   "theorems": [
    "Verif.Props.C21_refused",
    "Verif.Props.C21_accepted"
   ],
   "note": ""
  },
  {
   "property": "C22",
   "status": "proved",
   "theorems": [
    "Verif.Props.C22_at_most_one_output",
    "Verif.Props.C22_output_correct",
    "Verif.Props.C22_second_pick"
   ],
   "note": ""
  },
  {
   "property": "C23",
   "status": "proved",
   "theorems": [
    "Verif.Props.C23_keygen_blame",
    "Verif.Props.C23_keygen_blame_none",
    "Verif.Props.C23_offline_blame",
    "Verif.Props.C23_offline_blame_none"
   ],
   "note": "Both state machines."
  },
  {
   "property": "C24",
   "status": "partial",
   "theorems": [
    "Verif.Props.C24_keygen_late",
    "Verif.Props.C24_keygen_late_reported",
    "Verif.Props.C24_offline_late_partial",
    "Verif.Props.C24_offline_late_reported",
    "Verif.Props.C24_offline_violated"
   ],
   "note": "Holds for key generation. Violated by the offline stage: late messages of rounds 3 to 6 are reported as round 2; proved."
  },
  {
   "property": "C25",
   "status": "proved",
   "theorems": [
    "Verif.Props.C25_terminates"
   ],
   "note": ""
  },
  {
   "property": "C26",
   "status": "partial",
   "theorems": [
    "Verif.Props.C26_honest_mta_partial",
    "Verif.Props.C26_accepts_iff",
    "Verif.Props.C26_honest_rejected"
   ],
   "note": "Violated when beta_tag + a*b wraps modulo N: exact acceptance condition and a witness are proved."
  },
  {
   "property": "C27",
   "status": "proved",
   "theorems": [
    "Verif.Props.C27_accepts_iff",
    "Verif.Props.C27_shares_sum",
    "Verif.Props.C27_gg18_same"
   ],
   "note": ""
  },
  {
   "property": "C28",
   "status": "partial",
   "theorems": [
    "Verif.Props.C28_answers_iff",
    "Verif.Props.C28_refuses",
    "Verif.Props.C28_refuses_iff",
    "Verif.Props.C28_no_statements",
    "Verif.Props.C28_panics_iff",
    "Verif.Props.C28_panics"
   ],
   "note": "Answers, errors and panics characterised exactly. Violated by the panics: a range proof with a negative challenge and a non-invertible commitment aborts the verification; proved for all ciphertexts and statements. Such a proof can be sent as JSON, where integers carry a sign."
  },
  {
   "property": "C29",
   "status": "partial",
   "theorems": [
    "Verif.Props.C29_accepts_iff",
    "Verif.Props.C29_honest_partial",
    "Verif.Props.C29_honest_rejected"
   ],
   "note": "Violated near the range bound: exact acceptance condition and a witness are proved."
  },
  {
   "property": "C30",
   "status": "partial",
   "theorems": [
    "Verif.Props.C30_accepted_transcript",
    "Verif.Props.C30_special_soundness_partial",
    "Verif.Props.C30_any_ciphertext_accepted"
   ],
   "note": "Violated: a constant proof is accepted for every invertible ciphertext; special soundness holds for invertible responses."
  },
  {
   "property": "C31",
   "status": "partial",
   "theorems": [
    "Verif.Props.C31_bob_accepts_iff",
    "Verif.Props.C31_bob_ext_accepts_iff",
    "Verif.Props.C31_ext_binds",
    "Verif.Props.C31_ext_extracts",
    "Verif.Props.C31_accepted_transcript"
   ],
   "note": "Exact acceptance of honest proofs and extraction of the exponent; completeness fails beyond the range bound."
  },
  {
   "property": "C32",
   "status": "proved",
   "theorems": [
    "Verif.Props.C32_honest"
   ],
   "note": ""
  },
  {
   "property": "C33",
   "status": "partial",
   "theorems": [
    "Verif.Props.C33_accepted_transcript",
    "Verif.Props.C33_dlog",
    "Verif.Props.C33_plaintext_partial",
    "Verif.Props.C33_any_ciphertext_accepted",
    "Verif.Props.C33_verify_panics"
   ],
   "note": "Violated: with s2 = 0 every invertible ciphertext is accepted, and a non-invertible z panics; proved for invertible responses."
  },
  {
   "property": "C34",
   "status": "proved",
   "theorems": [
    "Verif.Props.C34_honest",
    "Verif.Props.C34_finalize_iff",
    "Verif.Props.C34_challenge_opened_iff",
    "Verif.Props.C34_prover_answers_iff",
    "Verif.Props.C34_wrong_ciphertext_rejected",
    "Verif.Props.C34_challenge_encoding_ambiguous"
   ],
   "note": "The range proof is a dependency; its acceptance is a hypothesis of the honest run."
  },
  {
   "property": "C35",
   "status": "proved",
   "theorems": [
    "Verif.Props.C35_gg20",
    "Verif.Props.C35_gg20_total",
    "Verif.Props.C35_lindell"
   ],
   "note": ""
  },
  {
   "property": "C36",
   "status": "proved",
   "theorems": [
    "Verif.Props.C36_paillier",
    "Verif.Props.C36_open",
    "Verif.Props.C36_party_decrypt"
   ],
   "note": ""
  },
  {
   "property": "C38",
   "status": "proved",
   "theorems": [
    "Verif.Props.C38_signing_shares",
    "Verif.Props.C38_too_few"
   ],
   "note": ""
  },
  {
   "property": "C39",
   "status": "proved",
   "theorems": [
    "Verif.Props.C39_honest_signing",
    "Verif.Props.C39_keygen_then_sign"
   ],
   "note": "All rounds of the offline stage and the online stage, run on delivered messages; wrap-around and range-proof overflow (C26, C29) are excluded as the property says."
  },
  {
   "property": "C40",
   "status": "partial",
   "theorems": [
    "Verif.Props.C40_nonce_point_iff",
    "Verif.Props.C40_blames_first_partial",
    "Verif.Props.C40_second_offender_not_named",
    "Verif.Props.C40_binding"
   ],
   "note": "Acceptance proved; only the first offender is named, proved."
  },
  {
   "property": "C41",
   "status": "proved",
   "theorems": [
    "Verif.Props.C41_checks_force_signature"
   ],
   "note": ""
  },
  {
   "property": "C42",
   "status": "partial",
   "theorems": [
    "Verif.Props.C42_pdl_check_partial",
    "Verif.Props.C42_panics_iff"
   ],
   "note": "Acceptance and accusation proved; a proof can also make the check panic, exact condition proved."
  },
  {
   "property": "C43",
   "status": "partial",
   "theorems": [
    "Verif.Props.C43_reuse_discloses_key",
    "Verif.Props.C43_reuse_discloses_shares",
    "Verif.Props.C43_one_signer_reuse",
    "Verif.Props.C43_same_message_partial"
   ],
   "note": "Violated: two different messages disclose the key to everybody who sees the signatures; proved. If only one honest signer makes partial signatures for two messages, the other signers compute the key from their own presignatures; proved for honest sessions of any size."
  },
  {
   "property": "C37",
   "status": "partial",
   "theorems": [
    "Verif.Props.C37_new_accepts_partial",
    "Verif.Props.C37_new_errors",
    "Verif.Props.C37_never_too_many",
    "Verif.Props.C37_new_state",
    "Verif.Props.C37_too_few_signers_accepted",
    "Verif.Props.C37_foreign_key_accepted"
   ],
   "note": "Exact acceptance condition proved; the signer count is not compared with t and the key's owner is not compared with s_l[i-1], proved."
  },
  {
   "property": "C44",
   "status": "proved",
   "theorems": [
    "Verif.Props.C44_any_schedule",
    "Verif.Props.C44_when_quiet",
    "Verif.Props.C44_schedule_independent"
   ],
   "note": ""
  },
  {
   "property": "C50",
   "status": "proved",
   "theorems": [
    "Verif.Props.C50_at_most_one",
    "Verif.Props.C50_output_correct",
    "Verif.Props.C50_second_pick",
    "Verif.Props.C21_offline_refused",
    "Verif.Props.C21_offline_accepted"
   ],
   "note": "The offline counterpart of C21 is proved too."
  },
  {
   "property": "C45",
   "status": "partial",
   "theorems": [
    "Verif.Props.C45_panic_causes_partial",
    "Verif.Props.C45_no_panic_partial",
    "Verif.Props.C45_panics_foreign_share",
    "Verif.Props.C45_panics_commitment",
    "Verif.Props.C45_panics_delta",
    "Verif.Props.C45_panics_pdl"
   ],
   "note": "Violated: four single-peer panics proved on the state machine; these and two causes that need a negative challenge or a zero hash are proved to be the only ones."
  },
  {
   "property": "C46",
   "status": "proved",
   "theorems": [
    "Verif.Props.C46_exact",
    "Verif.Props.C46_someone_blamed",
    "Verif.Props.C46_panics_iff"
   ],
   "note": "The case m G + r Y = 0, in which completion panics (C41), is stated in the theorem."
  },
  {
   "property": "C47",
   "status": "partial",
   "theorems": [
    "Verif.Props.C47_honest_not_blamed_partial",
    "Verif.Props.C47_honest_signer_framed"
   ],
   "note": "Violated: the opened mask is not compared with the point proved in the answer, so an honest signer can be framed; proved. Holds when the comparison is added."
  },
  {
   "property": "C48",
   "status": "partial",
   "theorems": [
    "Verif.Props.C48_honest_not_blamed_partial",
    "Verif.Props.C48_framed_by_opening",
    "Verif.Props.C48_framed_by_ciphertext"
   ],
   "note": "Violated in two ways, both proved: an opening shifted by N and a ciphertext shifted by N^2. Holds when the two missing comparisons are added."
  },
  {
   "property": "C49",
   "status": "proved",
   "theorems": [
    "Verif.Props.C49_phase5",
    "Verif.Props.C49_positions",
    "Verif.Props.C49_phase6",
    "Verif.Props.C49_short_opening_panics"
   ],
   "note": "Placement for all signers that open enough values; a signer that opens too few makes the collection panic, exact condition proved."
  },
  {
   "property": "C66",
   "status": "proved",
   "theorems": [
    "Verif.Props.C66_nonce_blame_finds_someone"
   ],
   "note": ""
  },
  {
   "property": "C67",
   "status": "proved",
   "theorems": [
    "Verif.Props.C67_key_blame_finds_someone",
    "Verif.Props.C67_ecddh_one_challenge"
   ],
   "note": "The alternative (an accepted proof for a false statement) is limited to one challenge per first message."
  },
  {
   "property": "C68",
   "status": "proved",
   "theorems": [
    "Verif.Props.C68_finished_has_checked",
    "Verif.Props.C68_line_checks"
   ],
   "note": ""
  },
  {
   "property": "C16",
   "status": "proved",
   "theorems": [
    "Verif.Props.C16_honest_keygen",
    "Verif.Props.C16_signing_shares"
   ],
   "note": "Run of the key generation clients, which call the GG18 functions; secrets are non-zero, as sampled."
  },
  {
   "property": "C51",
   "status": "proved",
   "theorems": [
    "Verif.Props.C51_honest_signing",
    "Verif.Props.C51_keygen_then_sign"
   ],
   "note": "Run of the signing clients, which call the GG18 functions; wrap-around (C26) and m + r d = 0 are excluded."
  },
  {
   "property": "C52",
   "status": "proved",
   "theorems": [
    "Verif.Props.C52_phase5",
    "Verif.Props.C52_released_valid"
   ],
   "note": ""
  },
  {
   "property": "C62",
   "status": "proved",
   "theorems": [
    "Verif.Props.C62_reassemble"
   ],
   "note": ""
  },
  {
   "property": "C69",
   "status": "partial",
   "theorems": [
    "Verif.Props.C69_openings_iff",
    "Verif.Props.C69_shares_iff",
    "Verif.Props.C69_dlog_iff_partial",
    "Verif.Props.C69_dlog_unbound",
    "Verif.Props.C69_any_key_size"
   ],
   "note": "Violated in two respects, both proved: the final proofs are not compared with the public shares, and the size of the Paillier key is not checked. The rest is proved as equivalences."
  },
  {
   "property": "C70",
   "status": "partial",
   "theorems": [
    "Verif.Props.C70_phase4_iff_partial",
    "Verif.Props.C70_surplus_unchecked"
   ],
   "note": "Proved for one opening per proof; surplus openings are added unchecked and can move the result to any point, proved."
  },
  {
   "property": "C71",
   "status": "partial",
   "theorems": [
    "Verif.Props.C71_phase5c_iff",
    "Verif.Props.C71_extract",
    "Verif.Props.C71_rho_proof_unbound"
   ],
   "note": "Acceptance and extraction of s, l proved; the proof of knowledge of rho is not tied to A, proved."
  },
  {
   "property": "C53",
   "status": "proved",
   "theorems": [
    "Verif.Props.C53_keygen",
    "Verif.Props.C53_share_proofs",
    "Verif.Props.C53_nonces",
    "Verif.Props.C53_sign",
    "Verif.Props.C53_recid",
    "Verif.Props.C53_recid_same"
   ],
   "note": "Key correctness and composite discrete-log proofs are dependencies (completeness assumed); acceptance by verify for nonce points with x below q (C05)."
  },
  {
   "property": "C54",
   "status": "partial",
   "theorems": [
    "Verif.Props.C54_keygen_accepts_iff",
    "Verif.Props.C54_keygen_binding_partial",
    "Verif.Props.C54_proof_not_committed",
    "Verif.Props.C54_party_two_share_unproved",
    "Verif.Props.C54_nonce_accepts_iff",
    "Verif.Props.C54_nonce_binding"
   ],
   "note": "Binding of the share and of the nonce proved (or the two openings collide; down to the bytes in C87); the proof itself is not committed to and not compared with the share, proved. CCLST19 is the same code."
  },
  {
   "property": "C55",
   "status": "proved",
   "theorems": [
    "Verif.Props.C55_refresh",
    "Verif.Props.C55_refresh_then_sign"
   ],
   "note": ""
  },
  {
   "property": "C56",
   "status": "partial",
   "theorems": [
    "Verif.Props.C56_accepts_iff",
    "Verif.Props.C56_accepted_partial",
    "Verif.Props.C56_base_unchecked",
    "Verif.Props.C56_panics",
    "Verif.Props.C56_bad_parameters_panic"
   ],
   "note": "Acceptance proved as an equivalence; the base point is not checked and a proof can make the check panic, both proved."
  },
  {
   "property": "C57",
   "status": "proved",
   "theorems": [
    "Verif.Props.C57_keygen",
    "Verif.Props.C57_nonces",
    "Verif.Props.C57_sign",
    "Verif.Props.C57_accepts_iff"
   ],
   "note": "The class-group scheme is a dependency; its laws are listed in Ext/CL.lean."
  },
  {
   "property": "C72",
   "status": "partial",
   "theorems": [
    "Verif.Props.C72_party_two_panics_iff",
    "Verif.Props.C72_party_one_panics_iff",
    "Verif.Props.C72_zero_nonce_accepted"
   ],
   "note": "Violated: the identity is accepted as the peer's nonce point and then both computations panic; proved to be the only cause."
  },
  {
   "property": "C73",
   "status": "partial",
   "theorems": [
    "Verif.Props.C73_output",
    "Verif.Props.C73_parity_oracle"
   ],
   "note": "Violated: party one outputs whatever the plaintext gives, and a crafted ciphertext discloses the parity of its share; proved."
  },
  {
   "property": "C74",
   "status": "partial",
   "theorems": [
    "Verif.Props.C74_simulated_partial",
    "Verif.Props.C74_within_partial",
    "Verif.Props.C74_share_extracted"
   ],
   "note": "Violated: with the forged proof of C33 an encryption of q^3 is accepted and one partial signature discloses the whole share; proved. For an honestly encrypted share the partial signature is shown equal to one computed from the final signature, with shifted samples, and hence within 1/q of it in distribution."
  },
  {
   "property": "C75",
   "status": "partial",
   "theorems": [
    "Verif.Props.C75_additive_shares_partial"
   ],
   "note": "Exact acceptance condition proved; an honest run is rejected when x1 x2 + beta_tag reaches the modulus (as C26)."
  },
  {
   "property": "C58",
   "status": "partial",
   "theorems": [
    "Verif.Props.C58_first_subscriber",
    "Verif.Props.C58_later_subscriber",
    "Verif.Props.C58_delivery_partial",
    "Verif.Props.C58_orphaned_subscriber",
    "Verif.Props.C58_unwatched_message_lost",
    "Verif.Props.C58_event_number_wraps"
   ],
   "note": "Proved for a room that keeps a subscriber and whose first subscription is complete; violated otherwise in three ways, all proved: two first subscriptions at once, a message in a room nobody watches, and more than 65535 events."
  },
  {
   "property": "C59",
   "status": "partial",
   "theorems": [
    "Verif.Props.C59_indices_partial",
    "Verif.Props.C59_indices_from_one_partial",
    "Verif.Props.C59_same_index_twice",
    "Verif.Props.C59_index_reused"
   ],
   "note": "Proved under the same condition; violated by two requests that both create the room and after the room was dropped, both proved."
  },
  {
   "property": "C60",
   "status": "partial",
   "theorems": [
    "Verif.Props.C60_serial_partial",
    "Verif.Props.C60_distinct_partial",
    "Verif.Props.C60_race",
    "Verif.Props.C60_lost_reply"
   ],
   "note": "Proved for sign-ups of a kind that do not overlap; overlapping ones get the same number, and a lost reply uses up a number, both proved."
  },
  {
   "property": "C61",
   "status": "proved",
   "theorems": [
    "Verif.Props.C61_keys_distinct",
    "Verif.Props.C61_not_a_counter"
   ],
   "note": "For round names without dash that are not numbers, as all round names of the demos."
  },
  {
   "property": "C63",
   "status": "partial",
   "theorems": [
    "Verif.Props.C63_collected",
    "Verif.Props.C63_same_index_partial",
    "Verif.Props.C63_signature_partial",
    "Verif.Props.C63_other_index",
    "Verif.Props.C63_other_index_result",
    "Verif.Props.C63_swapped_rooms_fail"
   ],
   "note": "Holds when a signer has the same index in both rooms; violated otherwise, proved for every such case and with a run in which both signers fail."
  },
  {
   "property": "C76",
   "status": "proved",
   "theorems": [
    "Verif.Props.C76_keygen",
    "Verif.Props.C76_share_matches",
    "Verif.Props.C76_release",
    "Verif.Props.C76_result"
   ],
   "note": ""
  },
  {
   "property": "C77",
   "status": "partial",
   "theorems": [
    "Verif.Props.C77_reads_own_messages_iff",
    "Verif.Props.C77_deaf",
    "Verif.Props.C77_other_index_no_key"
   ],
   "note": "Holds exactly when the index issued by the server is the one on the command line; otherwise the party never gets a key; proved."
  },
  {
   "property": "C78",
   "status": "proved",
   "theorems": [
    "Verif.Props.C78_poll",
    "Verif.Props.C78_only_what_was_sent",
    "Verif.Props.C78_post"
   ],
   "note": "A post without any reply may have been stored or not; the client panics then."
  },
  {
   "property": "C79",
   "status": "partial",
   "theorems": [
    "Verif.Props.C79_key_check",
    "Verif.Props.C79_accepted",
    "Verif.Props.C79_short_proof_panics"
   ],
   "note": "Acceptance and refusal exactly as stated, and what acceptance means for the modulus; but a panic of the dependency's verification is passed on: exact condition proved, and that a proof of fewer than eleven roots causes it."
  },
  {
   "property": "C64",
   "status": "proved",
   "theorems": [
    "Verif.Props.C64_prime_order",
    "Verif.Props.C64_interface"
   ],
   "note": "Mathlib's group law on y^2 = x^3 + 7; the laws of the interface used by all other theorems are proved for this curve."
  },
  {
   "property": "C65",
   "status": "proved",
   "theorems": [
    "Verif.Props.C65_keygen_sound",
    "Verif.Props.C65_keygen_no_deadlock",
    "Verif.Props.C65_keygen_completes",
    "Verif.Props.C65_offline_sound",
    "Verif.Props.C65_offline_no_deadlock",
    "Verif.Props.C65_offline_completes",
    "Verif.Props.C65_offline_then_sign"
   ],
   "note": "Signing samples as in C39 (no range-proof or MtA wrap-around failure)."
  },
  {
   "property": "C80",
   "status": "partial",
   "theorems": [
    "Verif.Props.C80_few_keys_partial",
    "Verif.Props.C80_zero_r",
    "Verif.Props.C80_universal_signature"
   ],
   "note": "Proved for r other than 0. Violated by r = 0, which verification does not refuse: on secp256k1 every message has a pair (0, s) that verifies under every key; proved."
  },
  {
   "property": "C81",
   "status": "partial",
   "theorems": [
    "Verif.Props.C81_check_iff",
    "Verif.Props.C81_written_signature_valid",
    "Verif.Props.C81_signature_written_partial",
    "Verif.Props.C81_signature_lost"
   ],
   "note": "Written signatures are valid (full). Every signature is written if the message fits in 32 bytes, r is not 0 and the key is finite. Violated otherwise: a message of more than 32 bytes panics in the final check after the partial signature was released; proved."
  },
  {
   "property": "C82",
   "status": "partial",
   "theorems": [
    "Verif.Props.C82_gg20_distinct_partial",
    "Verif.Props.C82_gg18_distinct_partial",
    "Verif.Props.C82_gg20_collision",
    "Verif.Props.C82_gg18_hex_collision",
    "Verif.Props.C82_gg18_zero_collision"
   ],
   "note": "Proved for data of at most 31 bytes without leading zero bytes (and, for GG18, not hexadecimal). Violated in general, because the data is not hashed: two printable texts with the same signatures on secp256k1, every text and its hexadecimal spelling, leading 00; proved."
  },
  {
   "property": "C84",
   "status": "partial",
   "theorems": [
    "Verif.Props.C84_keys_fit_partial",
    "Verif.Props.C84_keys_fit_party_one",
    "Verif.Props.C84_public_keys_differ",
    "Verif.Props.C84_auxiliary_data_differ"
   ],
   "note": "Public key, shares and the honest parties' own data agree if no commitment vector is longer than t + 1, in particular if party 1 is honest. Violated in general: party 1 can make every other party finish with a public key of party 1's choice relative to the others, and different Paillier keys and auxiliary parameters can be announced to different parties; both proved for all t, n."
  },
  {
   "property": "C85",
   "status": "proved",
   "theorems": [
    "Verif.Props.C85_machines_make_signatures"
   ],
   "note": "For messages and nonces with m + r d other than 0 and samples as in C39; that key generation can always be completed is C65_keygen_completes."
  },
  {
   "property": "C83",
   "status": "proved",
   "theorems": [
    "Verif.Props.C83_key",
    "Verif.Props.C83_keys_agree",
    "Verif.Props.C83_share_delivered"
   ],
   "note": "For any cipher whose decryption inverts encryption under 32-byte keys."
  },
  {
   "property": "C86",
   "status": "partial",
   "theorems": [
    "Verif.Props.C86_accepted_partial",
    "Verif.Props.C86_range_unchecked"
   ],
   "note": "Acceptance proved equivalent to the opening of the right point and a verifying range proof; violated: the range is chosen by the prover, and any positive number congruent to the discrete logarithm is accepted, proved."
  },
  {
   "property": "C87",
   "status": "partial",
   "theorems": [
    "Verif.Props.C87_gg20_keygen",
    "Verif.Props.C87_gg18_keygen",
    "Verif.Props.C87_gg20_sign",
    "Verif.Props.C87_gg18_sign",
    "Verif.Props.C87_gg18_phase5a",
    "Verif.Props.C87_gg18_phase5c",
    "Verif.Props.C87_two_party_keygen",
    "Verif.Props.C87_two_party_nonce",
    "Verif.Props.C87_pdl",
    "Verif.Props.C87_number_not_bound"
   ],
   "note": "On secp256k1 with SHA-256. Full for commitments to a point. For the three commitments to a digest of points there is one more exception: one digest without its leading zero bytes is a proper prefix of the other. The general commitment function to numbers is not binding, proved."
  },
  {
   "property": "C88",
   "status": "partial",
   "theorems": [
    "Verif.Props.C88_points",
    "Verif.Props.C88_dlog",
    "Verif.Props.C88_pedersen",
    "Verif.Props.C88_elgamal",
    "Verif.Props.C88_ecddh",
    "Verif.Props.C88_ints_partial",
    "Verif.Props.C88_bob_ambiguous",
    "Verif.Props.C88_alice_ambiguous",
    "Verif.Props.C88_pdl_ambiguous",
    "Verif.Props.C88_alice_parameters",
    "Verif.Props.C88_pdl_key"
   ],
   "note": "On secp256k1 with SHA-256. Holds for the proofs about points. Violated for the proofs about integers: numbers are concatenated without separators (explicit pairs), and the auxiliary parameters, and for PDL the Paillier key, are not hashed; proved. Holds for numbers of the same encoded lengths."
  },
  {
   "property": "C89",
   "status": "partial",
   "theorems": [
    "Verif.Props.C89_plaintext_partial",
    "Verif.Props.C89_within_partial",
    "Verif.Props.C89_answer",
    "Verif.Props.C89_residue_leaks",
    "Verif.Props.C89_secret_recovered",
    "Verif.Props.C89_gg20_residues",
    "Verif.Props.C89_gg18_residues",
    "Verif.Props.C89_two_party_residue"
   ],
   "note": "The plaintext of the answer alone is uniform for a uniform mask, whatever the secret; proved. The whole answer is within a q / N of one computed from Alice's plaintext a and the public point, so little is disclosed if a is small; proved for any challenges of the two proofs. Violated in general because the answer also contains the mask's point: with a crafted first message, accepted because of C30, Alice computes the secret modulo a small number, and the whole secret from several answers; proved for GG20 signing, the GG18 demo and the two-party conversion."
  },
  {
   "property": "C90",
   "status": "partial",
   "theorems": [
    "Verif.Props.C90_accepted_partial",
    "Verif.Props.C90_many_factors",
    "Verif.Props.C90_smooth_key_gg20",
    "Verif.Props.C90_smooth_key_two_party"
   ],
   "note": "On secp256k1 with SHA-256. Acceptance implies the size, no prime factor up to 6370 and eleven roots. Violated: products of any number of primes above 6370 have accepted proofs; a 2048-bit modulus with all prime factors below 12740 is accepted by GG20 key generation and by party two of Lindell17; proved."
  },
  {
   "property": "C91",
   "status": "partial",
   "theorems": [
    "Verif.Props.C91_hidden_partial",
    "Verif.Props.C91_two_challenges_partial",
    "Verif.Props.C91_range_proof_leaks",
    "Verif.Props.C91_pdl_leaks",
    "Verif.Props.C91_gg20_nonce_leaks",
    "Verif.Props.C91_statement_false",
    "Verif.Props.C91_leaking_parameters_accepted"
   ],
   "note": "On secp256k1 with SHA-256. Parameters for which the second statement is true hide perfectly (blinding below a multiple of the order of h2). Violated: explicit 2047-bit parameters for which the statement is false, with accepted proofs (challenges that are multiples of 65537), make every honest signer disclose its nonce share modulo 65537 in its first message; proved."
  },
  {
   "property": "C92",
   "status": "partial",
   "theorems": [
    "Verif.Props.C92_offline_partial",
    "Verif.Props.C92_keygen_stray"
   ],
   "note": "Holds for the offline stage as long as every peer's messages come in in the order of the rounds. Violated by key generation, whose errors are all critical: while the client waits, any single message that is not expected ends its run with an error; proved."
  },
  {
   "property": "C93",
   "status": "partial",
   "theorems": [
    "Verif.Props.C93_keygen_returns",
    "Verif.Props.C93_offline_returns_partial",
    "Verif.Props.C93_offline_hangs"
   ],
   "note": "Full for key generation. Holds for the offline stage if every peer's messages come in in the order of the rounds. Violated otherwise: with two signers, if the peer's round-5 message comes in before its round-4 message, the client waits forever although it has all messages; proved for all keys and messages."
  },
  {
   "property": "C94",
   "status": "proved",
   "theorems": [
    "Verif.Props.C94_keygen",
    "Verif.Props.C94_offline"
   ],
   "note": "Full, for clients whose index issued by the server is their party number (C77 shows what happens otherwise) and a server that is not restarted. Contains the event loop of AsyncProtocol, the filter of incoming messages and the order in which the server hands out messages."
  },
  {
   "property": "C95",
   "status": "proved",
   "theorems": [
    "Verif.Props.C95_dealing_simulated",
    "Verif.Props.C95_shares_uniform",
    "Verif.Props.C95_gg20_distribute",
    "Verif.Props.C95_gg18_distribute"
   ],
   "note": "For fewer parties than the group order."
  },
  {
   "property": "C96",
   "status": "partial",
   "theorems": [
    "Verif.Props.C96_dlog",
    "Verif.Props.C96_elgamal",
    "Verif.Props.C96_ecddh",
    "Verif.Props.C96_pedersen_discloses",
    "Verif.Props.C96_pedersen_separates",
    "Verif.Props.C96_pedersen_partial",
    "Verif.Props.C96_offline_discloses"
   ],
   "note": "Full for the three other proofs. Violated by the proof about a Pedersen commitment of the curv library: its two nonce points are sent separately, so that the point of the committed value can be computed from the proof; in the offline stage of GG20 every signer that completes has disclosed the point of its sigma share in round 3; proved. The Pedersen proof discloses nothing beyond that point."
  },
  {
   "property": "C97",
   "status": "proved",
   "theorems": [
    "Verif.Props.C97_alice",
    "Verif.Props.C97_alice_generate",
    "Verif.Props.C97_bob",
    "Verif.Props.C97_bob_generate",
    "Verif.Props.C97_pdl",
    "Verif.Props.C97_pdl_prove",
    "Verif.Props.C97_sampling",
    "Verif.Props.C97_challenge_range"
   ],
   "note": "For each fixed challenge (honest-verifier zero knowledge; that the hash of the first message serves as such a challenge is the random oracle assumption, not modelled). Well formed: two units, the first a power of the second. C91 shows what malformed parameters lead to."
  },
  {
   "property": "C98",
   "status": "partial",
   "theorems": [
    "Verif.Props.C98_signing_partial",
    "Verif.Props.C98_violated"
   ],
   "note": "Termination is proved for all clients, the signature for every client that gets the same index in both rooms; violated for the others: a client filters the online room by the index it got there, while partial signatures are posted under the indices of the offline room, so it takes its own partial signature and leaves out another one. C98_signing_partial also says exactly when such a client gets a signature nevertheless; C98_violated is a run of two honest clients that both end without one."
  },
  {
   "property": "C99",
   "status": "proved",
   "theorems": [
    "Verif.Props.C99_keygen",
    "Verif.Props.C99_signing",
    "Verif.Props.C99_other_session",
    "Verif.Props.C99_signups"
   ],
   "note": "Sign-up itself is C60; keys of other sessions are those with another id of the same length (C99_other_session) and the sign-up counters (C99_signups). A client whose request fails twice in a row panics (postb gives up); that case is left out."
  },
  {
   "property": "C100",
   "status": "partial",
   "theorems": [
    "Verif.Props.C100_files_fit_partial",
    "Verif.Props.C100_equivocation",
    "Verif.Props.C100_files_do_not_fit",
    "Verif.Props.C100_threshold_raised"
   ],
   "note": "Holds if every dishonest dealer shows all honest clients the same polynomial commitments, at most t+1 of them. Violated otherwise, both proved for all parameters and honest samples: a dealer that shows different commitments with the same constant term adds any offset it likes to each client's share without being noticed, and one that commits to a polynomial of degree t+1 makes the key unusable for every t+1 clients. The final proofs of knowledge are not compared with anything."
  },
  {
   "property": "C101",
   "status": "proved",
   "theorems": [
    "Verif.Props.C101_signing_rarely_fails",
    "Verif.Props.C101_gg18_rarely_fails",
    "Verif.Props.C101_secp256k1"
   ],
   "note": "Counted are the draws that can make a run fail: the nonce and masking scalars (Scalar::random, never zero), the Paillier random numbers (sample_below N, not checked to be units), the masks of the share conversion (sample_below N) and the masks of the range proofs (sample_below q^3). All other random values may be any that an honest party draws. For the message 0 and the key 0 every run fails."
  },
  {
   "property": "C102",
   "status": "proved",
   "theorems": [
    "Verif.Props.C102_shares_uniform"
   ],
   "note": "Nearly: between ((N - q^2) / q)^(2h) and (N / q + 1)^(2h) of the N^(2h) draws, where N is the Paillier modulus of one honest signer and h the number of other honest signers; only their masks towards that signer are drawn. That the ciphertexts exchanged between honest signers hide the masks is the security of Paillier encryption, not modelled. Runs in which dishonest signers make an honest one abort whatever the masks are excluded by hypothesis."
  },
  {
   "property": "C103",
   "status": "proved",
   "theorems": [
    "Verif.Demo.Wakeup.C103_no_lost_wakeup",
    "Verif.Demo.Wakeup.C103_prefix",
    "Verif.Demo.Wakeup.C103_delivery",
    "Verif.Demo.Wakeup.C103_needs_creation_semantics"
   ],
   "note": "Uses the documented behaviour of tokio that notify_waiters wakes every future made by notified() before the call, also those not polled yet; C103_needs_creation_semantics shows that without it the code would lose messages. Event numbers are natural numbers here; their overflow, and rooms that are dropped or created twice, are in C58."
  },
  {
   "property": "C104",
   "status": "proved",
   "theorems": [
    "Verif.Props.C104_keygen_order",
    "Verif.Props.C104_shares_after_checks",
    "Verif.Props.C104_keygen_round",
    "Verif.Props.C104_offline_order",
    "Verif.Props.C104_offline_round"
   ],
   "note": "A machine that failed reports the same round number as one that is finished (5 and 7), so the number alone does not tell them apart."
  },
  {
   "property": "C105",
   "status": "partial",
   "theorems": [
    "Verif.Props.C105_keygen_replay",
    "Verif.Props.C105_keygen_replay_one",
    "Verif.Props.C105_offline_replay",
    "Verif.Props.C105_first_rounds_replayed",
    "Verif.Props.C105_gg18_replay_accepted"
   ],
   "note": "Full for GG20. The exception in the offline stage is a peer whose two proofs were about the neutral point. C105_first_rounds_replayed shows that the messages of the first three rounds of key generation are accepted in another session, so the replay is noticed in the last round only. Violated by the GG18 library: all of its checks pass again on the recorded messages, because the last proofs are compared with nothing; proved."
  },
  {
   "property": "C106",
   "status": "partial",
   "theorems": [
    "Verif.Props.C106_keygen_contributions",
    "Verif.Props.C106_key_not_chosen",
    "Verif.Props.C106_key_fixed",
    "Verif.Props.C106_keygen_secp",
    "Verif.Props.C106_gg18_keygen",
    "Verif.Props.C106_nonce_contributions",
    "Verif.Props.C106_nonce_fixed",
    "Verif.Props.C106_gg18_nonce",
    "Verif.Props.C106_gamma_disclosed",
    "Verif.Props.C106_gg18_gamma_disclosed"
   ],
   "note": "The last sentence is violated in signing: the point that is committed to in round 1 and opened in round 4 is already contained in the answers of round 2, in GG20 and in GG18, so the others know it when they announce their delta in round 3; proved for all sessions, with a history in which only first messages have been accepted. Everything else is proved in full."
  },
  {
   "property": "C107",
   "status": "proved",
   "theorems": [
    "Verif.Props.C107_dlog",
    "Verif.Props.C107_pedersen",
    "Verif.Props.C107_elgamal",
    "Verif.Props.C107_ecddh",
    "Verif.Props.C107_ecddh_list",
    "Verif.Props.C107_gg20_key_shares",
    "Verif.Props.C107_lindell_nonce"
   ],
   "note": "The hash function that makes the challenges is a uniformly drawn function on the lists of points of the length that the proof hashes (random oracle); lists of other lengths are hashed by a fixed function, and other hash functions by theirs. The prover is deterministic; a randomised one is covered for each of its random tapes. The theorems give two runs from which the secret is computed, not a bound on the time to find them."
  },
  {
   "property": "C108",
   "status": "proved",
   "theorems": [
    "Verif.Props.C108_commitment",
    "Verif.Props.C108_two_commitments",
    "Verif.Props.C108_gg20_keygen",
    "Verif.Props.C108_gg18_keygen",
    "Verif.Props.C108_two_party_keygen",
    "Verif.Props.C108_cclst_keygen",
    "Verif.Props.C108_two_party_nonce",
    "Verif.Props.C108_gg20_sign",
    "Verif.Props.C108_gg18_sign"
   ],
   "note": "The hash function of the commitments is drawn uniformly from all functions of byte strings of at most 65 bytes to 256-bit numbers (random oracle), the blinding factor from the numbers below 2^256, as BigInt::sample(256) does. The encoding is the one of the code: message and blinding factor without leading zeros, concatenated. The other hash functions of the model stay fixed. What later messages show is the subject of C106."
  },
  {
   "property": "C109",
   "status": "partial",
   "theorems": [
    "Verif.Props.C109_gg20_authentic_partial",
    "Verif.Props.C109_gg20_impersonation",
    "Verif.Props.C109_gg18_overwritten"
   ],
   "note": "Violated, proved: nobody checks who posts a message. In the GG20 demo, somebody who is not a party plays all other parties for a client, with messages that depend on nothing the client keeps secret; the client returns a key, whatever the real parties post later. In the GG18 demo, the value last posted under a message's name replaces the earlier ones. What holds: among clients that post in their own name only, the names are right."
  },
  {
   "property": "C110",
   "status": "partial",
   "theorems": [
    "Verif.Props.C110_gg20_filtered_partial",
    "Verif.Props.C110_gg20_disclosed",
    "Verif.Props.C110_gg20_at_rest"
   ],
   "note": "Violated, proved: the shares are posted unencrypted in a room that every subscriber reads; as soon as all are posted, the private key is a sum of interpolations of what is in the room, whenever fewer than all parties are needed to sign. What holds: the clients drop the messages that are not addressed to them before the protocol sees them. The GG18 demo encrypts the shares (C83)."
  },
  {
   "property": "C111",
   "status": "partial",
   "theorems": [
    "Verif.Props.C111_small_mask_partial",
    "Verif.Props.C111_probe",
    "Verif.Props.C111_probe_gg18",
    "Verif.Props.C111_nonce_oracle"
   ],
   "note": "Violated, proved: responses carry no range proof, so a responder may use any mask. With a mask N - B b it learns whether the asker's secret is below a bound B of its choice. In a whole GG20 signing this tells one signer whether another's nonce share is below B: if it is, the signing ends with a valid signature, if not, with an error that names nobody. What holds: responses with masks of at most N - q^2 are accepted for all secrets."
  },
  {
   "property": "C112",
   "status": "partial",
   "theorems": [
    "Verif.Props.C112_not_itself",
    "Verif.Props.C112_honest_not_accused_partial",
    "Verif.Props.C112_anyone_can_be_framed"
   ],
   "note": "Violated in the last round, proved: in a key generation of honest parties, a single changed message, the polynomial commitments that party 1 sends to one party, makes that party accuse any third party, chosen by party 1, although the third party did nothing wrong and nobody else notices. What holds: a party never accuses itself; in rounds 2 and 3 it never accuses an honest party; in the last round it accuses no honest party that received the same commitments of all dealers."
  },
  {
   "property": "C113",
   "status": "partial",
   "theorems": [
    "Verif.Props.C113_keygen_names_one",
    "Verif.Props.C113_offline_names_partial",
    "Verif.Props.C113_opening_evidence",
    "Verif.Props.C113_nobody_named",
    "Verif.Props.C113_anonymous_errors_occur"
   ],
   "note": "Key generation: full. Signing: violated, proved: five errors name nobody (wrong range proof or count, wrong response of the share conversion, wrong proof for T, wrong sum of the R parts, wrong sum of the S parts); each can be brought about by one signer, and in particular one signer stops every signing of honest signers with a first message without range proofs, without being named. All other errors name signers; the one about openings names a signer whose own messages contradict each other. The blame functions of blame.rs (C47, C48, C66, C67) could find the culprit of the two wrong sums, but the state machine never calls them."
  },
  {
   "property": "C114",
   "status": "partial",
   "theorems": [
    "Verif.Props.C114_honest_not_named_partial",
    "Verif.Props.C114_not_itself",
    "Verif.Props.C114_accuse_each_other"
   ],
   "note": "Proved for all deviations of the others if the two honest signers received the same broadcasts of rounds 3 and 4 (errors of rounds 1 to 4 need no such assumption); no honest signer names itself, without assumptions. Violated without it, proved with three signers: one that tells the two others different shares of delta in round 3, which nothing checks, makes them name each other in round 5, and is itself named by nobody."
  },
  {
   "property": "C115",
   "status": "partial",
   "theorems": [
    "Verif.Props.C115_share_extracted",
    "Verif.Props.C115_class_group_partial"
   ],
   "note": "Violated by Lindell17, proved for all shares, nonces and messages: party one decrypts whatever it is sent and does not check its own result, so party two learns one bit of the share per signing from whether the result is a valid signature, and the whole share from as many signings as a scalar has bits (an adaptive continuation of C73; the program of party two is Spec/ShareAttack). For CCLST19: for every linear combination of the encrypted share, whether the result is valid is the same for all shares but at most three; ciphertexts made in another way are not covered. The condition on random values (RegularSigning) excludes zero nonces and three unlucky coincidences (x-coordinate at least q, zero s, and one value of s that depends on N)."
  },
  {
   "property": "C116",
   "status": "partial",
   "theorems": [
    "Verif.Props.C116_same_signing_partial",
    "Verif.Props.C116_party_one_reuse",
    "Verif.Props.C116_party_two_reuse",
    "Verif.Props.C116_cclst_reuse",
    "Verif.Props.C116_gg18_reuse"
   ],
   "note": "Violated, proved: if party one uses an ephemeral key pair twice, the other party computes party one's share up to one bit from the two signatures, also if party two's own nonces differ; if party two does so, party one computes party two's share exactly. Both for Lindell17 and CCLST19, unless m r' = m' r. In GG18, as in GG20 (C43), two messages signed with the same nonce shares disclose the key to everybody. What holds: repeating the same signing gives the same signature, whatever the other random values are."
  },
  {
   "property": "C117",
   "status": "partial",
   "theorems": [
    "Verif.Props.C117_keygen",
    "Verif.Props.C117_gg18_keygen",
    "Verif.Props.C117_nonce",
    "Verif.Props.C117_gg18_nonce",
    "Verif.Props.C117_lindell_keygen",
    "Verif.Props.C117_two_party_nonce",
    "Verif.Props.C117_cclst_party_two_partial",
    "Verif.Props.C117_cclst_party_one"
   ],
   "note": "Violated only by the key generation of CCLST19: party one divides the number it draws by three, so with party two's share fixed only a third of all public keys can occur (proved). Everything else holds in full, among honest parties; that malicious parties cannot make their contribution depend on the others' is C106. In GG18 the signature shows only r, which at most four nonce points share."
  },
  {
   "property": "C118",
   "status": "partial",
   "theorems": [
    "Verif.Props.C118_restored",
    "Verif.Props.C118_lindell",
    "Verif.Props.C118_all_parties_partial",
    "Verif.Props.C118_gg18_all_parties_partial",
    "Verif.Props.C118_backups_insufficient",
    "Verif.Props.C118_gg18_backups_insufficient"
   ],
   "note": "Holds for Lindell17. Violated by GG18 and GG20, proved for all thresholds: the backup contains the party's summand u_i of the key, not its signing share x_i. The backups of all parties but one fit every other public key, and a party's own backup fits every other signing share of that party; only the backups of all n parties together restore the key. CCLST19 has no backups."
  },
  {
   "property": "C119",
   "status": "proved",
   "theorems": [
    "Verif.Props.C119_refresh",
    "Verif.Props.C119_gg18_refresh",
    "Verif.Props.C119_update",
    "Verif.Props.C119_gg18_update",
    "Verif.Props.C119_lindell_one_then_two",
    "Verif.Props.C119_lindell_two_then_one"
   ],
   "note": "About the secrets that the parties hold; public data determine the public key anyway. The parties choose factors that add up to zero (multiply to one), as C18 and C55 require for keeping the key. In GG18 for every key but two, because parties draw non-zero secrets. CCLST19 has no refresh."
  },
  {
   "property": "C120",
   "status": "proved",
   "theorems": [
    "Verif.Props.C120_same_nonce_point",
    "Verif.Props.C120_machines",
    "Verif.Props.C120_gg18_same_nonce_point"
   ],
   "note": "Up to a coincidence that is spelled out: in every proof of the honest peer the answer that the peer computes from its own random numbers is zero modulo the group order, and the hash that makes the challenge has the same value for the two nonce points. The conditions on the honest peer: a nonce share other than zero, invertible random numbers, Paillier primes of at least q, and hash values below the modulus, as for SHA-256. GG18 is stated for the library functions."
  },
  {
   "property": "C121",
   "status": "partial",
   "theorems": [
    "Verif.Props.C121_unique",
    "Verif.Props.C121_gg20_partial",
    "Verif.Props.C121_gg18_partial",
    "Verif.Props.C121_machines_partial",
    "Verif.Props.C121_recid_differs"
   ],
   "note": "Proved for r and s, the latter unless the x-coordinate of the nonce point is at least q or below p - q (never met in practice). Violated for the recovery id (C121_recid_differs): a signer that waits for the others' partial signatures can make two honest signers output the same (r, s) with opposite recovery ids."
  },
  {
   "property": "C122",
   "status": "partial",
   "theorems": [
    "Verif.Props.C122_unnoticed",
    "Verif.Props.C122_gg18_unnoticed",
    "Verif.Props.C122_crash"
   ],
   "note": "Violated. GG20 (C122_unnoticed): if nobody's threshold is above that of party 1, every party gets a key of the same public key, with the party's own threshold recorded in it; but it takes party 1's threshold plus one parties to hold the key. Otherwise no party gets a key: the program crashes in the last round of every party (C122_crash). GG18 demo (C122_gg18_unnoticed): every client stores a key, whatever the thresholds, and it takes the largest one plus one parties to hold it."
  },
  {
   "property": "C123",
   "status": "proved",
   "theorems": [
    "Verif.Props.C123_ends",
    "Verif.Props.C123_one_too_few"
   ],
   "note": "C123_ends covers any number of signers and any shares; C123_one_too_few is the case of exactly t signers of a key of degree exactly t. With fewer than t signers success is decided by the same condition of C123_ends, and C38_too_few shows that the shares then do not determine the key. Randomness is honest in the sense of HonestSigners (no MtA wrap-around, nonce sums not zero)."
  },
  {
   "property": "C124",
   "status": "partial",
   "theorems": [
    "Verif.Props.C124_forgery",
    "Verif.Props.C124_gg20_partial",
    "Verif.Props.C124_gg18_partial",
    "Verif.Props.C124_one_in_q",
    "Verif.Props.C124_lindell_partial",
    "Verif.Props.C124_party_two",
    "Verif.Props.C124_party_one",
    "Verif.Props.C124_cclst"
   ],
   "note": "Violated, proved: in Lindell17 and CCLST19 either party alone makes the other one hold the neutral public key by announcing the neutral point with proofs made from the secret 0; all checks pass. In GG18 and GG20 nothing checks the sum of the public shares either: among honest parties it is neutral exactly if the summands add up to zero, for exactly one of the q values of any one summand; a party that deviates cannot bring it about because it is bound by its commitment before it sees the others' summands (C106). C124_forgery shows what the neutral key means."
  },
  {
   "property": "C125",
   "status": "proved",
   "theorems": [
    "Verif.Props.C125_ends",
    "Verif.Props.C125_one_too_few",
    "Verif.Props.C125_chance",
    "Verif.Props.C125_zero_blinding"
   ],
   "note": "The two exceptions are part of the theorem; C125_chance bounds the chance of the first one by 1/(q-1); C125_zero_blinding shows with concrete values that the first one does happen: clients with too few shares post their partial signatures. Randomness is honest in the sense of HonestRoom (no MtA wrap-around, nonce sums not zero)."
  },
  {
   "property": "C126",
   "status": "partial",
   "theorems": [
    "Verif.Props.C126_cheating_chance_partial",
    "Verif.Props.C126_large_plaintext_convinces"
   ],
   "note": "Proved with the bound 1/(q-1) + |m|/q^2, where m is any integer congruent to the plaintext modulo n: negligible for plaintexts far below q^2 in absolute value, as for those of the honest range, but not in general. Violated for large plaintexts (C126_large_plaintext_convinces): verify takes the range from the proof and nobody compares it with q (C86), so a ciphertext of n - d passes for the discrete logarithm -d always. In the model the prover's first message does not depend on the verifier's hash commitment to its challenge (hiding is C108), and the randomness of the verifier's encryption is invertible modulo n."
  },
  {
   "property": "C127",
   "status": "proved",
   "theorems": [
    "Verif.Props.C127_gg18_ends",
    "Verif.Props.C127_gg18_chance",
    "Verif.Props.C127_gg20_ends",
    "Verif.Props.C127_gg20_few"
   ],
   "note": "For GG20 the exact condition for a signature is C127_gg20_ends, for every nonce point whose x-coordinate is determined by its remainder modulo q (all but a fraction of about 2^-128 for secp256k1). Randomness is honest in the sense of HonestRoom and HonestSigners (no MtA wrap-around, nonce sums not zero)."
  },
  {
   "property": "C128",
   "status": "proved",
   "theorems": [
    "Verif.Props.C128_few"
   ],
   "note": "For nonce points whose x-coordinates are determined by their remainders modulo q (all but a fraction of about 2^-128 for secp256k1), and unless message + x d = 0, when the first session gives no signature anyway. Randomness is honest in the sense of HonestSigners."
  },
  {
   "property": "C129",
   "status": "proved",
   "theorems": [
    "Verif.Props.C129_share",
    "Verif.Props.C129_sum",
    "Verif.Props.C129_two",
    "Verif.Props.C129_gg18_share",
    "Verif.Props.C129_gg18_sum",
    "Verif.Props.C129_gg18_distinct",
    "Verif.Props.C129_gg18_same_file",
    "Verif.Props.C129_gg18_two",
    "Verif.Props.C129_gg18_right_numbers"
   ],
   "note": "The completing signer holds the right public shares (pk_vec). With more signers the lists may differ only if the Lagrange coefficients coincide (C129_share). In GG18 numbers are those of parties of the key; C129_gg18_share and C129_gg18_sum ask that the other clients were told distinct ones; C129_gg18_right_numbers is the converse."
  },
  {
   "property": "C130",
   "status": "partial",
   "theorems": [
    "Verif.Props.C130_keygen",
    "Verif.Props.C130_keygen_nothing_else",
    "Verif.Props.C130_offline_partial",
    "Verif.Props.C130_offline_nothing_else",
    "Verif.Props.C130_offline_violated"
   ],
   "note": "Proved in full for key generation and for the rounds 1 to 5 of the offline stage, including that the texts depend on nothing else. The code violates the property for round 6 of the offline stage: its messages are not shown at all (C130_offline_violated). The text is modelled for the format {:?}."
  },
  {
   "property": "C131",
   "status": "proved",
   "theorems": [
    "Verif.Props.C131_largest",
    "Verif.Props.C131_shares",
    "Verif.Props.C131_chance",
    "Verif.Props.C131_same_number",
    "Verif.Props.C131_gg18",
    "Verif.Props.C131_gg18_same_number"
   ],
   "note": "Thresholds may differ too. C131_same_number and C131_gg18_same_number are the converse: with one number and one threshold all parties can get a key."
  },
  {
   "property": "C132",
   "status": "proved",
   "theorems": [
    "Verif.Props.C132_keygen",
    "Verif.Props.C132_keygen_chance",
    "Verif.Props.C132_keygen_exact",
    "Verif.Props.C132_sign",
    "Verif.Props.C132_sign_chance"
   ],
   "note": "For signing one other signer that runs the program and drew a mask gamma other than zero suffices; the two programs have the same Paillier key, as when they read the same key file. GG18 demo clients get their numbers from the manager (C60)."
  },
  {
   "property": "C133",
   "status": "proved",
   "theorems": [
    "Verif.Props.C133_recorded",
    "Verif.Props.C133_same_share",
    "Verif.Props.C133_chance",
    "Verif.Props.C133_fitting_keys",
    "Verif.Props.C133_gg18_recorded",
    "Verif.Props.C133_gg18_same_share",
    "Verif.Props.C133_gg18_chance",
    "Verif.Props.C133_gg18_fitting_files"
   ],
   "note": "C133_recorded is about any two keys with one number of parties; C133_same_share and C133_chance are about keys of two key generations, in either order. C133_fitting_keys and C133_gg18_fitting_files are the converse. In GG18 the two clients are told the same party numbers by the others."
  },
  {
   "property": "C134",
   "status": "proved",
   "theorems": [
    "Verif.Props.C134_nonce_exact",
    "Verif.Props.C134_nonce_check",
    "Verif.Props.C134_nonce_doubled",
    "Verif.Props.C134_key_exact",
    "Verif.Props.C134_session_nonce",
    "Verif.Props.C134_session_key",
    "Verif.Props.C134_session_nonce_check",
    "Verif.Props.C134_session_key_check",
    "Verif.Props.C134_one_cheater_nonce",
    "Verif.Props.C134_one_cheater_key",
    "Verif.Props.C134_right_sums",
    "Verif.Props.C134_nonce_order",
    "Verif.Props.C134_key_order",
    "Verif.Props.C46_exact"
   ],
   "note": "C134_session_nonce and C134_session_key start from signers that hold the key and draw usable values: all messages and opened states are computed as in the simulation of the tests. C134_nonce_doubled is the corruption made by the tests, for every set of signers. C47 and C48 show what can go wrong when signers do not open what they did."
  },
  {
   "property": "C135",
   "status": "proved",
   "theorems": [
    "Verif.Props.C135_shares",
    "Verif.Props.C135_place",
    "Verif.Props.C135_chance",
    "Verif.Props.C135_right_places"
   ],
   "note": "C135_shares is about any two keys with one list of public shares; C135_place and C135_chance are about keys of one key generation. C135_right_places is the converse. What the two signers send each other arrives unchanged or not at all."
  },
  {
   "property": "C136",
   "status": "partial",
   "theorems": [
    "Verif.Props.C136_lindell_partial",
    "Verif.Props.C136_lindell_chance",
    "Verif.Props.C136_lindell_other_message",
    "Verif.Props.C136_cclst_partial",
    "Verif.Props.C136_cclst_chance",
    "Verif.Props.C136_cclst_other_message"
   ],
   "note": "Violated: party one is not given the message and outputs a signature that is valid for the message of party two (C136_*_other_message). Proved: if party one then calls verify with its own message, the call accepts only congruent messages or one further class (C136_*_partial), which for two given messages happens for at most two of the q - 1 nonces of party one (C136_*_chance). Both are for nonce points whose x-coordinate is below the group order; for the others the library's verify rejects valid signatures anyway (C05)."
  },
  {
   "property": "C137",
   "status": "proved",
   "theorems": [
    "Verif.Props.C137_lindell_key",
    "Verif.Props.C137_lindell_chance",
    "Verif.Props.C137_lindell_fitting",
    "Verif.Props.C137_lindell_opposite",
    "Verif.Props.C137_cclst_key",
    "Verif.Props.C137_cclst_chance",
    "Verif.Props.C137_cclst_fitting"
   ],
   "note": "For nonce points whose x-coordinate is below the group order. C137_lindell_opposite shows why the zero message is an exception. A party two that still holds a ciphertext under an earlier Paillier key of party one is outside the statement: the model says nothing about decrypting with another key."
  },
  {
   "property": "C138",
   "status": "proved",
   "theorems": [
    "Verif.Props.C138_lindell_crossed",
    "Verif.Props.C138_lindell_chance",
    "Verif.Props.C138_lindell_same",
    "Verif.Props.C138_cclst_crossed",
    "Verif.Props.C138_cclst_chance",
    "Verif.Props.C138_cclst_same"
   ],
   "note": "For nonce points of party one's session whose x-coordinate is below the group order. The nonces of the session of party two itself, up to sign, are among the four."
  },
  {
   "property": "C139",
   "status": "proved",
   "theorems": [
    "Verif.Props.C139_lindell_valid",
    "Verif.Props.C139_lindell_accepted",
    "Verif.Props.C139_cclst_valid",
    "Verif.Props.C139_cclst_accepted",
    "Verif.Props.C139_secp256k1"
   ],
   "note": "The Paillier random numbers of the session are taken to be units modulo the key (LindellSession.Fair); the code draws them without checking that."
  },
  {
   "property": "C140",
   "status": "proved",
   "theorems": [
    "Verif.Props.C140_lindell",
    "Verif.Props.C140_gg20",
    "Verif.Props.C140_gg20_session",
    "Verif.Props.C140_gg18",
    "Verif.Props.C140_secp256k1"
   ],
   "note": "For curves on which at most three points share a y-coordinate (proved for secp256k1). C140_gg20_session is about whole honest sessions; in C140_gg20 and C140_gg18 the partial signatures are supposed to add up to the signature with the nonce point R, as those of honest signers do (C39, C51); a dishonest co-signer can flip the recovery id (C04). CCLST19 returns no recovery id."
  },
  {
   "property": "C141",
   "status": "proved",
   "theorems": [
    "Verif.Props.C141_lindell",
    "Verif.Props.C141_cclst",
    "Verif.Props.C141_gg20",
    "Verif.Props.C141_gg18",
    "Verif.Props.C141_secp256k1"
   ],
   "note": "The nonces of the other signers are fixed, the other samples arbitrary; that dishonest signers cannot adapt theirs is C106. For GG20 r is read off the nonce point, for the others off the signature; in GG18 nonces with m + r d = 0, which give no signature, are excluded."
  },
  {
   "property": "C142",
   "status": "proved",
   "theorems": [
    "Verif.Props.C142_gg20",
    "Verif.Props.C142_gg18",
    "Verif.Props.C142_lindell",
    "Verif.Props.C142_cclst",
    "Verif.Props.C142_cclst_party_two",
    "Verif.Props.C142_secp256k1"
   ],
   "note": "The draws of the other parties are fixed; that dishonest parties cannot adapt theirs is a matter of the commitments (C106). Draws are nonzero. For CCLST19 the key as party one computes it; that party two computes the same is C57_keygen."
  }
 ]
}