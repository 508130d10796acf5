{"id": "C01", "title": "GG20 verification is the ECDSA equation", "statement": "GG20 `verify(sig, y, m)` returns Ok exactly when s is non-zero mod q and the point (m/s)G + (r/s)y is finite with x-coordinate congruent to r mod q; it returns Err when that point is finite and the x-coordinate differs; it panics (never returns) exactly when s = 0 or that point is the identity.", "quantifier": "every signature (r,s), public key point and message integer", "why_tests_cant": "The accept, reject and panic sets partition 2^512 signatures times every key and message; tests sample a handful of accepting runs.", "anchors": ["src/protocols/multi_party_ecdsa/gg_2020/party_i.rs: verify"]}
{"id": "C02", "title": "GG18 verification is total and is the ECDSA equation", "statement": "GG18 `verify` never panics, and returns Ok exactly when s is non-zero mod q and (m/s)G + (r/s)y is finite with x-coordinate congruent to r mod q; otherwise it returns InvalidSig.", "quantifier": "every signature, public key and message", "why_tests_cant": "Totality and the exact accept set range over all inputs.", "anchors": ["src/protocols/multi_party_ecdsa/gg_2018/party_i.rs: verify"]}
{"id": "C03", "title": "A returned signature always verifies and is low-s", "statement": "Whatever partial signatures arrive from the other signers (any number, any values, honest or not), if GG20 `LocalSignature::output_signature` / `SignManual::complete` or GG18 `output_signature` returns a signature, that signature satisfies the ECDSA equation under the joint public key for the message and has s at most (q-1)/2.", "quantifier": "every vector of peer partial signatures, every local state and every message", "why_tests_cant": "Adversarial partial signatures form an unbounded space; the guarantee is about all of them.", "anchors": ["src/protocols/multi_party_ecdsa/gg_2020/party_i.rs: LocalSignature::output_signature", "src/protocols/multi_party_ecdsa/gg_2020/state_machine/sign.rs: SignManual::complete", "src/protocols/multi_party_ecdsa/gg_2018/party_i.rs: LocalSignature::output_signature"]}
{"id": "C04", "title": "The recovery id identifies the signing key", "statement": "The recovery id returned with a signature lets anyone recompute the nonce point from r and hence the public key: recovering with (r, s, recid, m) yields exactly the joint public key.", "quantifier": "every nonce point, key, message and normalised signature", "why_tests_cant": "The claim fails only on a 2^-128 fraction of nonce points, which random tests never reach.", "anchors": ["src/protocols/multi_party_ecdsa/gg_2020/party_i.rs: LocalSignature::output_signature", "src/protocols/multi_party_ecdsa/gg_2018/party_i.rs: LocalSignature::output_signature", "src/protocols/two_party_ecdsa/lindell_2017/party_one.rs: Signature::compute_with_recid"]}
{"id": "C05", "title": "Lindell17 verification accepts exactly the low-s ECDSA signatures", "statement": "Lindell17 `verify` accepts a signature exactly when it satisfies the ECDSA equation under the public key and s is in the lower half, and never panics.", "quantifier": "every (r,s), public key and message", "why_tests_cant": "Boundary points (x-coordinate at or above q, s = 0, negative s, identity) have negligible probability under random testing.", "anchors": ["src/protocols/two_party_ecdsa/lindell_2017/party_one.rs: verify"]}
{"id": "C06", "title": "CCLST19 verification accepts exactly the low-s ECDSA signatures", "statement": "CCLST19 `verify` accepts a signature exactly when it satisfies the ECDSA equation under the public key and s is in the lower half, and never panics.", "quantifier": "every (r,s), public key and message", "why_tests_cant": "As C05.", "anchors": ["src/protocols/two_party_ecdsa/cclst_2019/party_one.rs: verify"]}
{"id": "C07", "title": "Verification sees the message only modulo the group order", "statement": "All four `verify` functions give the same answer for two messages that are congruent mod q, so a signature on m is a signature on m + q; if one signature is accepted by GG20 `verify` for two messages and the verification point has the same x-coordinate for both, then the messages are congruent mod q or their sum is -2rd mod q (d the secret key).", "quantifier": "every signature, key and pair of messages", "why_tests_cant": "Quantifies over pairs of messages.", "anchors": ["src/protocols/multi_party_ecdsa/gg_2020/party_i.rs: verify", "src/protocols/multi_party_ecdsa/gg_2018/party_i.rs: verify", "src/protocols/two_party_ecdsa/lindell_2017/party_one.rs: verify", "src/protocols/two_party_ecdsa/cclst_2019/party_one.rs: verify"]}
{"id": "C08", "title": "Signature malleability is confined to GG18/GG20 verification", "statement": "If (r,s) is accepted by GG18 or GG20 `verify` then so is (r,q-s); Lindell17 and CCLST19 `verify` accept at most one of (r,s),(r,q-s) with 0<s<q.", "quantifier": "every signature, key and message", "why_tests_cant": "Two-sided statement over all accepting signatures.", "anchors": ["src/protocols/multi_party_ecdsa/gg_2020/party_i.rs: verify", "src/protocols/multi_party_ecdsa/gg_2018/party_i.rs: verify", "src/protocols/two_party_ecdsa/lindell_2017/party_one.rs: verify", "src/protocols/two_party_ecdsa/cclst_2019/party_one.rs: verify"]}
{"id": "C09", "title": "A dealt share passes validation exactly when it is the dealer's share", "statement": "For a dealt secret, threshold t and count n, the share handed to party i passes the receiver's validation, and any other scalar offered as party i's share is rejected.", "quantifier": "every t < n, polynomial, party index and candidate share", "why_tests_cant": "Universally quantified over field elements and sizes.", "anchors": ["src/protocols/multi_party_ecdsa/gg_2020/party_i.rs: Keys::phase1_verify_com_phase3_verify_correct_key_verify_dlog_phase2_distribute", "src/protocols/multi_party_ecdsa/gg_2020/party_i.rs: Keys::phase2_verify_vss_construct_keypair_phase3_pok_dlog"]}
{"id": "C10", "title": "Honest GG20 key generation yields one key that any t+1 parties hold", "statement": "When n honest parties run the key generation rounds, every party outputs the same public key and the same vector of public shares, entry j of that vector is party j's secret share times G, and for every set of at least t+1 parties the Lagrange-weighted secret shares add up to the discrete logarithm of the public key.", "quantifier": "every n, t < n, every choice of secrets and polynomials, every set of at least t+1 distinct parties", "why_tests_cant": "Arbitrary n, t, subsets and secrets.", "anchors": ["src/protocols/multi_party_ecdsa/gg_2020/party_i.rs: Keys", "src/protocols/multi_party_ecdsa/gg_2020/state_machine/keygen/rounds.rs: Round1, Round2, Round3, Round4"]}
{"id": "C11", "title": "GG20 key generation round 1 accepts exactly valid openings and names offenders", "statement": "`phase1_verify_com_phase3_verify_correct_key_verify_dlog_phase2_distribute` succeeds exactly when every party's commitment opens to its public share, its Paillier correctness proof and both composite-dlog proofs verify, and its Paillier modulus and N-tilde have 2047 or 2048 bits; otherwise it returns `invalid key` and bad_actors lists every party that failed.", "quantifier": "every vector of broadcast and decommitment messages", "why_tests_cant": "Any subset of parties may misbehave in any way.", "anchors": ["src/protocols/multi_party_ecdsa/gg_2020/party_i.rs: Keys::phase1_verify_com_phase3_verify_correct_key_verify_dlog_phase2_distribute"]}
{"id": "C12", "title": "GG20 share verification accepts exactly consistent shares and names offenders", "statement": "`phase2_verify_vss_construct_keypair_phase3_pok_dlog` succeeds exactly when every received share matches its sender's polynomial commitment and that commitment starts with the sender's announced public share; the resulting secret share then is the sum of the received shares and the public key the sum of the announced shares; otherwise it returns `invalid vss` and bad_actors lists every sender that failed.", "quantifier": "every vector of shares, commitments and announced points", "why_tests_cant": "Any subset of senders may misbehave.", "anchors": ["src/protocols/multi_party_ecdsa/gg_2020/party_i.rs: Keys::phase2_verify_vss_construct_keypair_phase3_pok_dlog"]}
{"id": "C13", "title": "GG20 final key check ties each proof to the dealt polynomials", "statement": "`verify_dlog_proofs_check_against_vss` succeeds exactly when every party's discrete-log proof verifies and proves knowledge of the share determined by the sum of all polynomial commitments at that party's index; otherwise bad_actors lists every party that failed.", "quantifier": "every proof vector and commitment vectors", "why_tests_cant": "Any subset of parties may misbehave.", "anchors": ["src/protocols/multi_party_ecdsa/gg_2020/party_i.rs: Keys::verify_dlog_proofs_check_against_vss", "src/protocols/multi_party_ecdsa/gg_2020/party_i.rs: Keys::get_commitments_to_xi"]}
{"id": "C14", "title": "A completed GG20 key generation is usable by every t+1 parties, whatever the dealers sent", "statement": "If all parties' key generation checks pass, then the secret shares of any t+1 parties reconstruct the discrete logarithm of the output public key, even if some dealers were malicious.", "quantifier": "every set of dealt shares and commitments that passes the checks", "why_tests_cant": "An adversary chooses commitments of any length; tests deal honest ones.", "anchors": ["src/protocols/multi_party_ecdsa/gg_2020/party_i.rs: Keys::phase2_verify_vss_construct_keypair_phase3_pok_dlog", "src/protocols/multi_party_ecdsa/gg_2020/party_i.rs: Keys::get_commitments_to_xi", "src/protocols/multi_party_ecdsa/gg_2020/state_machine/keygen/rounds.rs: Round3, Round4"]}
{"id": "C15", "title": "Key generation never panics on peer data", "statement": "Whatever well-formed messages the other parties send, the GG20 and GG18 key generation checks return Ok or Err rather than panicking.", "quantifier": "every vector of peer messages of the right count", "why_tests_cant": "Malicious messages are not in the test-suite.", "anchors": ["src/protocols/multi_party_ecdsa/gg_2020/party_i.rs: Keys::phase2_verify_vss_construct_keypair_phase3_pok_dlog", "src/protocols/multi_party_ecdsa/gg_2020/party_i.rs: Keys::get_commitments_to_xi", "src/protocols/multi_party_ecdsa/gg_2018/party_i.rs: Keys"]}
{"id": "C16", "title": "Honest GG18 key generation yields one key that any t+1 parties hold", "statement": "The GG18 key generation phases run by n honest parties succeed at every party, give every party the same public key, and for every set of at least t+1 parties the re-shared secret shares w_i add up to its discrete logarithm.", "quantifier": "every n, t < n, secrets, polynomials, signer sets", "why_tests_cant": "Arbitrary sizes and subsets.", "anchors": ["src/protocols/multi_party_ecdsa/gg_2018/party_i.rs: Keys", "src/protocols/multi_party_ecdsa/gg_2018/party_i.rs: SignKeys::create"]}
{"id": "C17", "title": "At most t shares say nothing about the secret", "statement": "For any t parties, any values of their shares and any candidate secret there is exactly one dealer polynomial of degree at most t that produces those shares and that secret.", "quantifier": "every t, set of t distinct indices, share values and candidate secret", "why_tests_cant": "Perfect secrecy quantifies over all polynomials.", "anchors": ["src/protocols/multi_party_ecdsa/gg_2020/party_i.rs: Keys::phase1_verify_com_phase3_verify_correct_key_verify_dlog_phase2_distribute"]}
{"id": "C18", "title": "Refreshing a GG share set shifts the key by the advertised amount", "statement": "Adding factors to private shares (`PartyPrivate::update_private_key`, `refresh_private_key`) changes the additive key and polynomial shares by exactly the factors, so updating all parties with shares of zero keeps the public key and updating with shares of d shifts the private key by d.", "quantifier": "every key state and factor vector", "why_tests_cant": "Algebraic law over all values.", "anchors": ["src/protocols/multi_party_ecdsa/gg_2020/party_i.rs: PartyPrivate::update_private_key, PartyPrivate::refresh_private_key", "src/protocols/multi_party_ecdsa/gg_2018/party_i.rs: PartyPrivate"]}
{"id": "C19", "title": "Keygen::new accepts exactly well-formed parameters", "statement": "`Keygen::new(i,t,n)` succeeds exactly when n >= 2, 1 <= t < n and 1 <= i <= n, and reports TooFewParties, InvalidThreshold or InvalidPartyIndex in that priority otherwise.", "quantifier": "every triple of u16 values", "why_tests_cant": "2^48 triples.", "anchors": ["src/protocols/multi_party_ecdsa/gg_2020/state_machine/keygen.rs: Keygen::new"]}
{"id": "C20", "title": "Key generation output does not depend on the message schedule", "statement": "If each peer sends one message per round, every order of delivery that never delivers a message for a round already left, interleaved with calls to proceed in any way, brings the party to the same outgoing messages, and the same output key or the same error.", "quantifier": "every interleaving of deliveries (early messages included) and proceed calls", "why_tests_cant": "The number of interleavings is super-exponential in the number of parties.", "anchors": ["src/protocols/multi_party_ecdsa/gg_2020/state_machine/keygen.rs: Keygen::handle_incoming, Keygen::proceed, Keygen::proceed_round"]}
{"id": "C21", "title": "Key generation rejects foreign, duplicate and late messages without side effects", "statement": "A message from an unknown sender, from the party itself, addressed wrongly, duplicating an already received one, or for a round already completed is answered with an error, and the round, the stored messages, the outgoing queue and the final output are as if it had never been delivered.", "quantifier": "every state reachable by any history and every such message", "why_tests_cant": "Quantifies over histories.", "anchors": ["src/protocols/multi_party_ecdsa/gg_2020/state_machine/keygen.rs: Keygen::handle_incoming"]}
{"id": "C22", "title": "A key is output at most once and never after a failure", "statement": "Over any history, `pick_output` returns a key at most once, only after all four rounds succeeded, and never after any round function returned an error; a second pick reports DoublePickOutput.", "quantifier": "every history of API calls", "why_tests_cant": "Invariant over all histories.", "anchors": ["src/protocols/multi_party_ecdsa/gg_2020/state_machine/keygen.rs: Keygen::pick_output, Keygen::proceed_round"]}
{"id": "C23", "title": "Blame lists exactly the silent parties", "statement": "While a round waits, `round_blame` returns the number and the identities of exactly those other parties whose message for that round has not been accepted yet.", "quantifier": "every reachable state", "why_tests_cant": "Every subset of parties may be silent.", "anchors": ["src/protocols/multi_party_ecdsa/gg_2020/state_machine/keygen.rs: Keygen::round_blame", "src/protocols/multi_party_ecdsa/gg_2020/state_machine/sign.rs: OfflineStage::round_blame"]}
{"id": "C24", "title": "A late message is reported with its own round", "statement": "When a message arrives for a round whose message store was already consumed, the ReceivedOutOfOrderMessage error carries the current round and the round the message belongs to.", "quantifier": "every state and message, key generation and offline signing", "why_tests_cant": "Needs every round and message variant combination.", "anchors": ["src/protocols/multi_party_ecdsa/gg_2020/state_machine/keygen.rs: Keygen::handle_incoming", "src/protocols/multi_party_ecdsa/gg_2020/state_machine/sign.rs: OfflineStage::handle_incoming"]}
{"id": "C25", "title": "Key generation terminates once all messages are in", "statement": "After all peers' messages of all rounds have been delivered in any order, a single proceed call brings the party to its output or to an error (or into one of the panics of C15); no further message is needed and wants_to_proceed is false afterwards.", "quantifier": "every delivery order", "why_tests_cant": "Liveness over all schedules.", "anchors": ["src/protocols/multi_party_ecdsa/gg_2020/state_machine/keygen.rs: Keygen::proceed_round, Keygen::wants_to_proceed, Keygen::is_finished"]}
{"id": "C26", "title": "Honest MtA turns a product into a sum", "statement": "For secrets a, b, when Alice and Bob follow the MtA exchange, Alice accepts Bob's message and alpha + beta = a*b mod q.", "quantifier": "every a, b, Paillier key of the required size and randomness", "why_tests_cant": "Includes the wrap-around of a*b + beta' modulo N, of negligible probability.", "anchors": ["src/utilities/mta/mod.rs: MessageA::a, MessageB::b, MessageB::verify_proofs_get_alpha"]}
{"id": "C27", "title": "An accepted MtA response is consistent, whatever Bob sent", "statement": "If Alice's `verify_proofs_get_alpha` returns alpha for any message at all, then alpha*G = a*B + B', where B and B' are the points whose discrete logs Bob proved; hence alpha + beta = a*b for Bob's proven b and beta = -log B'.", "quantifier": "every message, including malformed ciphertexts, and every decryption key", "why_tests_cant": "Adversarial ciphertexts.", "anchors": ["src/utilities/mta/mod.rs: MessageB::verify_proofs_get_alpha, MessageB::verify_proofs_get_alpha_gg18"]}
{"id": "C28", "title": "Bob answers only when every range proof checks out", "statement": "`MessageB::b` returns a message only if there is exactly one range proof per supplied statement and each verifies against Alice's ciphertext; otherwise it returns InvalidKey; with no statements it answers any ciphertext.", "quantifier": "every message A and statement list", "why_tests_cant": "Any combination of missing, extra or invalid proofs.", "anchors": ["src/utilities/mta/mod.rs: MessageB::b_with_predefined_randomness"]}
{"id": "C29", "title": "Honest Alice range proofs verify", "statement": "A range proof generated by `AliceProof::generate` for a ciphertext of a value below q is accepted by `AliceProof::verify` for the same ciphertext and statement.", "quantifier": "every value, randomness and statement with invertible bases", "why_tests_cant": "Fails on a negligible fraction of randomness.", "anchors": ["src/utilities/mta/range_proofs.rs: AliceProof::generate, AliceProof::verify"]}
{"id": "C30", "title": "An accepted Alice range proof bounds the plaintext", "statement": "Two accepted Alice transcripts with the same first message and different challenges yield an integer opening of the commitment and ciphertext relations whose size is bounded by the range check.", "quantifier": "every pair of accepting transcripts", "why_tests_cant": "Soundness is a universally quantified implication.", "anchors": ["src/utilities/mta/range_proofs.rs: AliceProof::verify"]}
{"id": "C31", "title": "Honest Bob range proofs verify, and the extended proof binds Bob's point", "statement": "A proof generated by `BobProof::generate`/`BobProofExt` for an honestly computed MtA response is accepted by the matching verify; an accepted BobProofExt always satisfies s1*G = e*X + u.", "quantifier": "every witness, randomness and statement", "why_tests_cant": "Completeness fails only on a negligible set; the binding equation is over all proofs.", "anchors": ["src/utilities/mta/range_proofs.rs: BobProof::generate, BobProof::verify, BobProofExt::verify"]}
{"id": "C32", "title": "Honest PDL-with-slack proofs verify", "statement": "`PDLwSlackProof::verify` accepts every proof made by `PDLwSlackProof::prove` from a matching witness.", "quantifier": "every witness, randomness, Paillier key and auxiliary statement with invertible values", "why_tests_cant": "All randomness and keys.", "anchors": ["src/utilities/zk_pdl_with_slack/mod.rs: PDLwSlackProof::prove, PDLwSlackProof::verify"]}
{"id": "C33", "title": "Two PDL-with-slack transcripts determine the discrete log", "statement": "From two accepting PDL-with-slack transcripts with equal first messages and challenges that differ mod q, the quotient of response differences is the discrete log of Q and the same integer differences satisfy the Paillier and commitment equations.", "quantifier": "every pair of accepting transcripts", "why_tests_cant": "Special soundness over all transcripts.", "anchors": ["src/utilities/zk_pdl_with_slack/mod.rs: PDLwSlackProof::verify"]}
{"id": "C34", "title": "The interactive PDL proof completes honestly and rejects a wrong ciphertext", "statement": "With honest parties, a Paillier modulus of at least 2 q^2 and an accepted range proof for the ciphertext, both the prover's consistency check and the verifier's final check succeed; a prover whose opened point differs from a*Q + b*G is rejected, and the prover answers only challenges it can check against the verifier's commitment.", "quantifier": "every witness, challenge and message", "why_tests_cant": "All challenges.", "anchors": ["src/utilities/zk_pdl/mod.rs: Prover::message1, Prover::message2, Verifier::message1, Verifier::message2, Verifier::finalize"]}
{"id": "C35", "title": "Generated auxiliary parameters satisfy both discrete-log statements", "statement": "The (N~, h1, h2) generated for a party satisfy both statements it then proves: h2 is h1 to the minus the first secret and h1 is h2 to the minus the second secret, modulo N~.", "quantifier": "every pair of primes, h1 coprime to N~ and invertible exponent", "why_tests_cant": "All primes and exponents.", "anchors": ["src/protocols/multi_party_ecdsa/gg_2020/party_i.rs: generate_h1_h2_N_tilde", "src/protocols/multi_party_ecdsa/gg_2020/party_i.rs: Keys::phase1_broadcast_phase3_proof_of_correct_key_proof_of_correct_h1h2", "src/protocols/two_party_ecdsa/lindell_2017/party_one.rs: generate_h1_h2_n_tilde"]}
{"id": "C36", "title": "Paillier operations used by the protocols are homomorphic and invertible", "statement": "Decrypting an encryption returns the plaintext mod N; decrypting the product of ciphertexts returns the sum and the power of a ciphertext the multiple, mod N; the randomness recovered from a ciphertext re-encrypts to it.", "quantifier": "every pair of distinct primes with coprime totient condition, plaintexts and unit randomness", "why_tests_cant": "All keys, plaintexts and randomness.", "anchors": ["src/utilities/mta/mod.rs: MessageB::b_with_predefined_randomness", "src/protocols/multi_party_ecdsa/gg_2020/blame.rs: GlobalStatePhase6::extract_paillier_randomness"]}
{"id": "C37", "title": "OfflineStage::new accepts exactly signer sets that can sign", "statement": "`OfflineStage::new(i, s_l, key)` succeeds exactly when s_l lists at least t+1 distinct parties of the key, i is a position in s_l and the key belongs to the party listed at that position.", "quantifier": "every index, list and local key", "why_tests_cant": "All lists.", "anchors": ["src/protocols/multi_party_ecdsa/gg_2020/state_machine/sign.rs: OfflineStage::new"]}
{"id": "C38", "title": "Signing shares add up to the key for every signer set", "statement": "For every list of at least t+1 distinct signers in any order, the signing shares computed from key generation output add up to the private key, each public signing share computed by the others equals that share times G, and for at most t signers with a generic polynomial they do not.", "quantifier": "every t, n, polynomial, signer list and order", "why_tests_cant": "Arbitrary subsets and orders.", "anchors": ["src/protocols/multi_party_ecdsa/gg_2020/party_i.rs: SignKeys::create, SignKeys::g_w_vec", "src/protocols/multi_party_ecdsa/gg_2020/party_i.rs: Keys::update_commitments_to_xi"]}
{"id": "C39", "title": "Honest GG20 signing produces a valid signature", "statement": "When any t+1 or more honest holders of a GG20 key run offline and online signing, all checks pass at every signer, and every signer outputs the same valid low-s ECDSA signature on the message under the joint public key.", "quantifier": "every t, n, signer list, nonces, randomness (without modular wrap-around (C26), range-proof overflow (C29) or zero denominators) and message", "why_tests_cant": "Arbitrary sizes, subsets, nonces and messages.", "anchors": ["src/protocols/multi_party_ecdsa/gg_2020/party_i.rs: SignKeys, LocalSignature", "src/protocols/multi_party_ecdsa/gg_2020/state_machine/sign/rounds.rs", "src/utilities/mta/mod.rs"]}
{"id": "C40", "title": "The nonce point is formed only from opened commitments", "statement": "GG20 `phase4` returns a nonce point only if every other signer's revealed Gamma opens its commitment and equals the point used in its MtA response, and then it is delta^-1 times the sum of all revealed Gammas; otherwise bad_actors names every offender.", "quantifier": "every vector of decommitments, proofs and commitments", "why_tests_cant": "Any subset may misbehave.", "anchors": ["src/protocols/multi_party_ecdsa/gg_2020/party_i.rs: SignKeys::phase4", "src/protocols/multi_party_ecdsa/gg_2018/party_i.rs: SignKeys::phase4"]}
{"id": "C41", "title": "The two public consistency checks force a correct signature", "statement": "If the shares R'_i = k_i R pass `phase5_check_R_dash_sum` and the shares S_i = sigma_i R pass `phase6_check_S_i_sum`, then partial signatures m k_i + r sigma_i combine to a valid signature, whatever happened before, except when m G + r Y is the identity, where no signature with this r exists and the combination panics.", "quantifier": "every k_i, sigma_i, R and key", "why_tests_cant": "All (possibly maliciously produced) intermediate values.", "anchors": ["src/protocols/multi_party_ecdsa/gg_2020/party_i.rs: LocalSignature::phase5_check_R_dash_sum, LocalSignature::phase6_check_S_i_sum, LocalSignature::phase7_local_sig, LocalSignature::output_signature"]}
{"id": "C42", "title": "Nonce consistency proofs are demanded from every signer", "statement": "`phase5_verify_pdl` succeeds for signer i exactly when it supplied one proof per other signer and each verifies against that signer's ciphertext, R'_i, R and the right auxiliary parameters; a failure blames i and nobody else.", "quantifier": "every proof vector", "why_tests_cant": "Any proofs may be missing or invalid.", "anchors": ["src/protocols/multi_party_ecdsa/gg_2020/party_i.rs: LocalSignature::phase5_verify_pdl"]}
{"id": "C43", "title": "A completed offline stage may be used for several messages", "statement": "The documentation says a completed offline stage \"can be used for one-round signing multiple times\"; users need that signing two messages with it does not disclose the key.", "quantifier": "every key, nonce and pair of messages", "why_tests_cant": "A disclosure algorithm must be shown to work for all keys, or shown not to exist.", "anchors": ["src/protocols/multi_party_ecdsa/gg_2020/state_machine/sign.rs: OfflineStage (doc), SignManual::new, SignManual::complete, CompletedOfflineStage"]}
{"id": "C44", "title": "Offline signing output does not depend on the message schedule", "statement": "If each other signer sends one message per round, every order of delivery that never delivers a message for a round already left, interleaved with proceed calls, brings the signer to the same completed offline stage or the same error once proceed has been called until wants_to_proceed is false.", "quantifier": "every interleaving of deliveries and proceed calls", "why_tests_cant": "Super-exponentially many interleavings.", "anchors": ["src/protocols/multi_party_ecdsa/gg_2020/state_machine/sign.rs: OfflineStage::handle_incoming, OfflineStage::proceed, OfflineStage::proceed_round"]}
{"id": "C45", "title": "Offline signing never panics on peer data", "statement": "Whatever messages the other signers send, an offline signer returns Ok or Err rather than panicking.", "quantifier": "every vector of peer messages of the right count", "why_tests_cant": "Malicious messages are not in the test-suite.", "anchors": ["src/protocols/multi_party_ecdsa/gg_2020/state_machine/sign/rounds.rs: Round2::proceed, Round3::proceed, Round4::proceed", "src/protocols/multi_party_ecdsa/gg_2020/party_i.rs: SignKeys::phase3_reconstruct_delta"]}
{"id": "C46", "title": "Online blame is exact", "statement": "`phase7_blame` blames signer i exactly when its partial signature is not m k_i + r sigma_i for the k_i, sigma_i behind its published points; and if the nonce and key checks passed but the combined signature is invalid, at least one signer is blamed.", "quantifier": "every set of published points and partial signatures", "why_tests_cant": "Any subset of signers may misbehave.", "anchors": ["src/protocols/multi_party_ecdsa/gg_2020/blame.rs: GlobalStatePhase7::phase7_blame"]}
{"id": "C47", "title": "Nonce-phase blame never accuses an honest signer", "statement": "When the nonce check fails and signers open their state, `phase5_blame` accuses only signers that deviated.", "quantifier": "every behaviour of the dishonest signers, including what they open", "why_tests_cant": "The adversary chooses openings freely.", "anchors": ["src/protocols/multi_party_ecdsa/gg_2020/blame.rs: GlobalStatePhase5::phase5_blame, GlobalStatePhase5::local_state_to_global_state"]}
{"id": "C48", "title": "Key-phase blame never accuses an honest signer", "statement": "When the key check fails and signers open their state, `phase6_blame` accuses only signers that deviated.", "quantifier": "every behaviour of the dishonest signers, including what they open", "why_tests_cant": "The adversary chooses openings freely.", "anchors": ["src/protocols/multi_party_ecdsa/gg_2020/blame.rs: GlobalStatePhase6::phase6_blame"]}
{"id": "C49", "title": "Blame assembles every opened value in the right place", "statement": "Collecting the local states into the global blame state puts the value that signer a used for signer b at row b, position of a, for every ordered pair, losing and duplicating none, if every signer opens one value per other signer; it panics exactly if one opens fewer.", "quantifier": "every number of signers and every pair", "why_tests_cant": "Index arithmetic for all sizes.", "anchors": ["src/protocols/multi_party_ecdsa/gg_2020/blame.rs: GlobalStatePhase5::local_state_to_global_state, GlobalStatePhase6::local_state_to_global_state"]}
{"id": "C50", "title": "A failed or finished offline stage never yields a second result", "statement": "Over any history the offline stage is picked at most once and never after a round function returned an error.", "quantifier": "every history of API calls", "why_tests_cant": "Invariant over histories.", "anchors": ["src/protocols/multi_party_ecdsa/gg_2020/state_machine/sign.rs: OfflineStage::pick_output, OfflineStage::proceed_round"]}
{"id": "C51", "title": "Honest GG18 signing produces a valid signature", "statement": "When t+1 or more honest holders of a GG18 key run phases 1 to 5, all checks pass and every signer outputs the same valid low-s signature.", "quantifier": "every t, n, signer list, nonces, randomness (without wrap-around or zero denominators) and message", "why_tests_cant": "Arbitrary sizes and values.", "anchors": ["src/protocols/multi_party_ecdsa/gg_2018/party_i.rs: SignKeys, LocalSignature"]}
{"id": "C52", "title": "GG18 phase 5 releases partial signatures only for a valid signature", "statement": "If honest signers reach phase 5d, the final comparison succeeds exactly when the would-be signature satisfies the verification equation or the random blinding sum is zero.", "quantifier": "every s_i, blinding values, R, key and message", "why_tests_cant": "All values.", "anchors": ["src/protocols/multi_party_ecdsa/gg_2018/party_i.rs: LocalSignature::phase5a_broadcast_5b_zkproof, LocalSignature::phase5c, LocalSignature::phase5d"]}
{"id": "C53", "title": "Lindell17 parties derive the same public key and sign validly", "statement": "Honest Lindell17 parties compute the same public key x1 x2 G, and the signature party one outputs from party two's partial signature is valid and low-s for it.", "quantifier": "every x1, x2, k1, k2, rho, Paillier key with N > q^4 and message", "why_tests_cant": "All secrets, randomness and messages.", "anchors": ["src/protocols/two_party_ecdsa/lindell_2017/party_one.rs: compute_pubkey, Signature::compute", "src/protocols/two_party_ecdsa/lindell_2017/party_two.rs: compute_pubkey, PartialSig::compute"]}
{"id": "C54", "title": "Commitment openings cannot be swapped", "statement": "In the two-party protocols, if a committed first message is accepted with two different openings of the public share or proof, the two openings exhibit a collision of the commitment hash.", "quantifier": "every first message and pair of openings", "why_tests_cant": "All openings.", "anchors": ["src/protocols/two_party_ecdsa/lindell_2017/party_two.rs: KeyGenSecondMsg::verify_commitments_and_dlog_proof", "src/protocols/two_party_ecdsa/lindell_2017/party_one.rs: EphKeyGenSecondMsg::verify_commitments_and_dlog_proof", "src/protocols/two_party_ecdsa/cclst_2019/party_two.rs", "src/protocols/two_party_ecdsa/cclst_2019/party_one.rs"]}
{"id": "C55", "title": "Lindell17 refresh keeps the key exactly when the factors cancel", "statement": "Multiplying party one's share by f and party two's by g keeps the public key exactly when f*g = 1 mod q, and signing with refreshed shares is valid under the refreshed public key.", "quantifier": "every share pair and factor pair", "why_tests_cant": "Algebraic law.", "anchors": ["src/protocols/two_party_ecdsa/lindell_2017/party_one.rs: Party1Private::refresh_private_key", "src/protocols/two_party_ecdsa/lindell_2017/party_two.rs: Party2Private::update_private_key"]}
{"id": "C56", "title": "Lindell17 party two accepts only an encryption tied to party one's point", "statement": "`PaillierPublic::pdl_verify` succeeds only if the statement concerns exactly the Paillier key, ciphertext and public share party two holds and the statement's base is the curve generator, and both proofs verify.", "quantifier": "every statement and proof", "why_tests_cant": "Malicious statements.", "anchors": ["src/protocols/two_party_ecdsa/lindell_2017/party_two.rs: PaillierPublic::pdl_verify"]}
{"id": "C57", "title": "CCLST19 parties derive the same public key and sign validly", "statement": "Honest CCLST19 parties compute the same public key, and the signature party one outputs from party two's partial signature is valid and low-s for it.", "quantifier": "every x1, x2, k1, k2 and message, for any linearly homomorphic encryption of scalars", "why_tests_cant": "All secrets and messages.", "anchors": ["src/protocols/two_party_ecdsa/cclst_2019/party_one.rs: compute_pubkey, Signature::compute", "src/protocols/two_party_ecdsa/cclst_2019/party_two.rs: compute_pubkey, PartialSig::compute"]}
{"id": "C58", "title": "The GG20 message server delivers every message once, in order", "statement": "A client subscribed to a room receives exactly the messages published to that room after its position, each once and in publication order.", "quantifier": "every interleaving of publish, subscribe, poll, disconnect and reconnect", "why_tests_cant": "Concurrent histories.", "anchors": ["examples/gg20_sm_manager.rs: Db, Room, Subscription"]}
{"id": "C59", "title": "The GG20 message server never issues the same index twice in a room", "statement": "All indices issued in a room to clients of one computation are different and lie in 1..n for n clients.", "quantifier": "every interleaving of clients joining and leaving", "why_tests_cant": "Concurrent histories; counter wrap.", "anchors": ["examples/gg20_sm_manager.rs: issue_idx, Room::issue_unique_idx, Db::get_room_or_create_empty", "examples/gg20_sm_client.rs: join_computation"]}
{"id": "C60", "title": "The GG18 manager hands out distinct party numbers within a session", "statement": "Parties that sign up concurrently for key generation or signing receive distinct numbers 1..parties within one session id.", "quantifier": "every interleaving of sign-up requests", "why_tests_cant": "Race between the read and the write lock.", "anchors": ["examples/gg18_sm_manager.rs: signup_keygen, signup_sign"]}
{"id": "C61", "title": "Distinct protocol messages use distinct keys in the GG18 manager", "statement": "Two different broadcast or point-to-point messages of the demo clients (different sender, receiver, round or session) never use the same storage key.", "quantifier": "every sender, receiver, round name and session id", "why_tests_cant": "Injectivity of a string encoding over all values.", "anchors": ["examples/common.rs: broadcast, sendp2p, poll_for_broadcasts, poll_for_p2p"]}
{"id": "C62", "title": "Demo clients reassemble vectors in party order", "statement": "Collecting the other parties' messages in ascending order and inserting the own value puts party j's value at position j-1 for every j.", "quantifier": "every n, own index and value", "why_tests_cant": "All sizes and positions.", "anchors": ["examples/common.rs: poll_for_broadcasts", "examples/gg18_sign_client.rs: format_vec_from_reads"]}
{"id": "C63", "title": "The GG20 signing demo collects every other signer's partial signature", "statement": "In the online stage of the signing demo each signer ends up with exactly the partial signatures of all other signers, whatever order signers join the offline and online rooms.", "quantifier": "every assignment of offline and online room indices", "why_tests_cant": "All pairs of join orders.", "anchors": ["examples/gg20_signing.rs: main", "examples/gg20_sm_client.rs: join_computation"]}
{"id": "C64", "title": "The secp256k1 parameters behind the API form a prime-order group", "statement": "The curve y^2 = x^3 + 7 over the 256-bit field used by the library has exactly q points, q prime, so every finite point is a multiple of the generator and scalar arithmetic mod q acts on points.", "quantifier": "every point of the curve", "why_tests_cant": "2^256 points.", "anchors": ["Cargo.toml: curv-kzen (Secp256k1)", "src/protocols/multi_party_ecdsa/gg_2020/party_i.rs: Point<Secp256k1>, Scalar<Secp256k1>"]}
{"id": "C65", "title": "All honest parties together: no deadlock, no failure, one result, whatever the network does", "statement": "If every party runs the key-generation machine (or every signer the offline-stage machine) honestly, and the network only delivers messages their named senders really sent - but may delay, reorder, duplicate and misdeliver them - then no machine panics or reports an error (other than for taking the output twice), each party's only possible output is its result of the round-by-round execution, whenever everything sent was delivered and nobody wants to proceed every party is finished with it, and such a situation can be reached from every reachable one; the presignatures so obtained give one valid low-s signature.", "quantifier": "every number of parties, threshold, honest random values, and every interleaving of calls on all machines, of any length", "why_tests_cant": "Tests run all parties in lock step on a perfect network (round_based's Simulation); the interleavings of several machines are unbounded.", "anchors": ["src/protocols/multi_party_ecdsa/gg_2020/state_machine/keygen.rs: Keygen", "src/protocols/multi_party_ecdsa/gg_2020/state_machine/sign.rs: OfflineStage, SignManual"]}
{"id": "C66", "title": "A failed nonce check leads to somebody being blamed", "statement": "If the points R'_i = k_i R computed from the opened k_i fail the nonce check and blame of the nonce phase reaches a verdict, the verdict is not empty.", "quantifier": "every set of published values and openings, honest or not", "why_tests_cant": "Algebra over all secrets of all signers.", "anchors": ["src/protocols/multi_party_ecdsa/gg_2020/blame.rs: GlobalStatePhase5::phase5_blame", "src/protocols/multi_party_ecdsa/gg_2020/party_i.rs: LocalSignature::phase5_check_R_dash_sum"]}
{"id": "C67", "title": "A failed key check leads to somebody being blamed", "statement": "If the points S_i fail the key check and blame of the key phase reaches a verdict, the verdict is not empty, or some signer got an equality-of-logarithms proof accepted for a false statement about its S_i.", "quantifier": "every set of published values and openings, honest or not", "why_tests_cant": "Algebra over all secrets of all signers; soundness of a proof over all transcripts.", "anchors": ["src/protocols/multi_party_ecdsa/gg_2020/blame.rs: GlobalStatePhase6::phase6_blame", "src/protocols/multi_party_ecdsa/gg_2020/party_i.rs: LocalSignature::phase6_check_S_i_sum"]}
{"id": "C68", "title": "A finished offline stage has passed every public check", "statement": "If an offline stage hands out a result, then for every other signer: its encrypted nonce had a valid range proof for each party of the key; both its answers were consistent with their proofs and the second one was about its key share; its T had a valid opening proof; its revealed point opened its commitment and matched its answer; its PDL proofs were accepted; its S was about the value in its T. The nonce point of the result is the sum of the revealed points divided by the sum of the deltas, the points R' add up to the generator and the points S to the public key.", "quantifier": "every key, list of signers, sequence of calls and every content of the peers' messages", "why_tests_cant": "A dropped or misplaced check is invisible when everybody is honest, and there are unboundedly many dishonest executions.", "anchors": ["src/protocols/multi_party_ecdsa/gg_2020/state_machine/sign.rs: OfflineStage::pick_output", "src/protocols/multi_party_ecdsa/gg_2020/state_machine/sign/rounds.rs: Round1..Round6::proceed"]}
{"id": "C69", "title": "GG18 key generation accepts exactly well-formed data", "statement": "GG18 key generation goes on exactly when every party's opening matches its commitment and its proof of a well-formed Paillier key of the required size verifies, every dealer's share lies on the polynomial it committed to, and every party's final proof of knowledge is about the public share that the commitments assign to it.", "quantifier": "every n, t, and every vector of messages the peers may send", "why_tests_cant": "Malicious messages range over all field values and points.", "anchors": ["src/protocols/multi_party_ecdsa/gg_2018/party_i.rs: Keys::phase1_verify_com_phase3_verify_correct_key_phase2_distribute, Keys::phase2_verify_vss_construct_keypair_phase3_pok_dlog, Keys::verify_dlog_proofs"]}
{"id": "C70", "title": "GG18 builds the nonce point only from checked openings", "statement": "SignKeys::phase4 returns delta^-1 times the sum of the opened points exactly when every opening that enters the sum matches its commitment and the point of the same peer's MtA proof.", "quantifier": "every vectors of proofs, openings and commitments and every delta", "why_tests_cant": "All lengths and values.", "anchors": ["src/protocols/multi_party_ecdsa/gg_2018/party_i.rs: SignKeys::phase4"]}
{"id": "C71", "title": "GG18 phase 5c admits only proved phase 5a openings", "statement": "phase5c goes on exactly when every peer's opening (V, A, B) matches its commitment and its proofs verify; the proofs show knowledge of s, l, rho with V = s R + l G, A = rho G, B = l A.", "quantifier": "every peer message and nonce point", "why_tests_cant": "All values; soundness is a statement about all pairs of transcripts.", "anchors": ["src/protocols/multi_party_ecdsa/gg_2018/party_i.rs: LocalSignature::phase5c"]}
{"id": "C72", "title": "Two-party signing never crashes on the peer's messages", "statement": "A party whose own secrets are non-zero computes a partial signature or a signature without crashing, whatever nonce message and partial signature the peer sent, as long as the nonce exchange accepted the peer's message.", "quantifier": "every accepted nonce message, every partial signature, all secrets and messages", "why_tests_cant": "Malicious peers range over all points and integers; tests use honest peers.", "anchors": ["src/protocols/two_party_ecdsa/lindell_2017/party_one.rs: Signature::compute, EphKeyGenSecondMsg::verify_commitments_and_dlog_proof", "src/protocols/two_party_ecdsa/lindell_2017/party_two.rs: PartialSig::compute, EphKeyGenSecondMsg::verify_and_decommit"]}
{"id": "C73", "title": "Party one only releases valid signatures", "statement": "Whatever partial signature party two sends, party one outputs a signature that is valid under the joint key or an error; in particular the output does not depend on party one's secret share beyond the signature itself.", "quantifier": "every ciphertext party two may send", "why_tests_cant": "There are about N^2 ciphertexts, and the leak is only visible by relating two executions.", "anchors": ["src/protocols/two_party_ecdsa/lindell_2017/party_one.rs: Signature::compute, Signature::compute_with_recid"]}
{"id": "C74", "title": "A partial signature does not disclose party two's share", "statement": "From party two's partial signature party one learns nothing beyond the final signature, whatever encrypted share party one sent, provided party two accepted it.", "quantifier": "every accepted encrypted share, all shares, nonces and messages, all samples", "why_tests_cant": "A statement about all plaintexts and randomness; no test observes what a ciphertext reveals.", "anchors": ["src/protocols/two_party_ecdsa/lindell_2017/party_two.rs: PartialSig::compute, PaillierPublic::pdl_verify"]}
{"id": "C75", "title": "Two-party shares convert to additive shares", "statement": "Converting the multiplicative shares of a two-party key with to_mta_message_b gives two scalars whose sum is the secret key of the same public key, for every honest run.", "quantifier": "all shares, keys and samples", "why_tests_cant": "The failure needs a sample close to the modulus, which tests never draw.", "anchors": ["src/protocols/two_party_ecdsa/lindell_2017/party_one.rs: Party1Private::to_mta_message_b", "src/protocols/two_party_ecdsa/lindell_2017/party_two.rs: Party2Private::to_mta_message_b"]}
{"id": "C77", "title": "The GG20 key generation demo reads the messages for its own party", "statement": "Each key generation client reads exactly the messages addressed to the party it plays, whatever order the clients join the room.", "quantifier": "every join order, party index and message history", "why_tests_cant": "All assignments of room indices to parties; the demo is only ever tried with one.", "anchors": ["examples/gg20_keygen.rs: main", "examples/gg20_sm_client.rs: join_computation"]}
{"id": "C78", "title": "Clients of the GG18 manager receive what was sent", "statement": "A client that polls for a message gets nothing before it was posted and exactly the posted value afterwards, whatever other requests are in progress and however often a post is repeated after a lost reply.", "quantifier": "every interleaving of requests, every pattern of lost requests and replies", "why_tests_cant": "Quantifies over schedules and network failures.", "anchors": ["examples/gg18_sm_manager.rs: get, set", "examples/common.rs: postb, broadcast, sendp2p, poll_for_broadcasts, poll_for_p2p"]}
{"id": "C76", "title": "A GG18 demo client stores a key or releases a partial signature only after all checks", "statement": "Whatever the other parties post: the GG18 key generation client writes a key file only if every opening, Paillier proof, share and final proof it read is valid, and the file contains the sum of the opened points and of the shares; the signing client posts its partial signature only if both answers, the revealed points and both openings of every other signer are valid and the final comparison holds; a signature it prints is valid.", "quantifier": "all messages of all other parties, all samples, all numbers of parties", "why_tests_cant": "Every combination of wrong messages would have to be tried; a missing check shows only against the one message that exploits it.", "anchors": ["examples/gg18_keygen_client.rs: main", "examples/gg18_sign_client.rs: main"]}
{"id": "C79", "title": "Party two of Lindell17 accepts only Paillier keys of sufficient size with a valid proof", "statement": "verify_ni_proof_correct_key succeeds exactly for moduli of at least 2047 bits whose proof of correctness verifies, returns the error otherwise and never panics.", "quantifier": "every modulus and every proof", "why_tests_cant": "An equivalence over all moduli, including the boundary sizes.", "anchors": ["src/protocols/two_party_ecdsa/lindell_2017/party_two.rs: PaillierPublic::verify_ni_proof_correct_key"]}
{"id": "C80", "title": "A signature is valid for few public keys", "statement": "For a fixed message and a fixed signature (r, s), GG18 and GG20 verification succeed for at most four public keys.", "quantifier": "every message, every pair (r, s), all public keys", "why_tests_cant": "A statement about all keys at once; the exceptional r needs a nonce point whose x-coordinate is the group order, which no test hits.", "anchors": ["src/protocols/multi_party_ecdsa/gg_2020/party_i.rs: verify", "src/protocols/multi_party_ecdsa/gg_2018/party_i.rs: verify"]}
{"id": "C81", "title": "The GG18 demo writes exactly the signatures it made", "statement": "A signature that the GG18 signing demo writes to its file is accepted by an independent standard verification (nonzero r, low s); and whenever the protocol run produced a signature, the demo writes it: its final check rejects none.", "quantifier": "every message argument, all messages of all other parties, all samples", "why_tests_cant": "Tests sign short messages; the padding to 32 bytes, r = 0 and the public key at infinity are the cases that matter.", "anchors": ["examples/common.rs: check_sig", "examples/gg18_sign_client.rs: main"]}
{"id": "C82", "title": "Different data are different messages", "statement": "In the signing demos two different data arguments stand for different messages: no signature on one is at the same time a signature on the other.", "quantifier": "every pair of data arguments", "why_tests_cant": "A statement about all pairs of inputs; colliding texts have to be constructed.", "anchors": ["examples/gg20_signing.rs: main", "examples/gg18_sign_client.rs: main"]}
{"id": "C83", "title": "Shares dealt in the GG18 demo reach their receiver unchanged under a common 32-byte key", "statement": "Two key generation clients derive the same 32-byte key from each other's public values; the derivation panics only for the point at infinity; the share that one deals for the other is posted in exactly one message and is decrypted to exactly the same scalar, whatever its byte length.", "quantifier": "all secrets, all shares (also those with leading zero bytes), all messages of the other parties", "why_tests_cant": "Coordinates and shares with leading zero bytes occur with probability 1/256 per byte and need padding; a run of a test rarely hits them.", "anchors": ["examples/gg18_keygen_client.rs: main", "examples/common.rs: aes_encrypt, aes_decrypt"]}
{"id": "C84", "title": "Honest parties agree on the key they generated", "statement": "If at least t + 1 honest parties complete key generation, whatever the other parties sent and to whom, then they hold the same public key, any t + 1 of them hold shares of its private key, and they agree on each party's public key share, Paillier key and auxiliary parameters.", "quantifier": "every set of honest parties, all messages of the others, also different ones for different receivers", "why_tests_cant": "Quantifies over adversaries that send different receivers different messages; tests run one honest program for all parties.", "anchors": ["src/protocols/multi_party_ecdsa/gg_2020/state_machine/keygen.rs: Keygen", "src/protocols/multi_party_ecdsa/gg_2020/state_machine/keygen/rounds.rs: Round1, Round2, Round3, Round4", "src/protocols/multi_party_ecdsa/gg_2020/party_i.rs: Keys"]}
{"id": "C85", "title": "Key generation and signing by machines over a network end in a valid signature", "statement": "In every execution in which honest machines generate a key over a network that delays, reorders and duplicates messages, and any t + 1 or more of the parties then run the offline stage with the resulting keys over such a network, nobody gets stuck, and the resulting presignatures make one valid low-s signature under the generated public key for every message.", "quantifier": "all parameters t < n, all sets of signers, all schedules of both phases, all messages to sign", "why_tests_cant": "Tests run a fixed simulation order for a few t and n.", "anchors": ["src/protocols/multi_party_ecdsa/gg_2020/state_machine/keygen.rs: Keygen", "src/protocols/multi_party_ecdsa/gg_2020/state_machine/sign.rs: OfflineStage, SignManual"]}
{"id": "C86", "title": "An accepted interactive PDL proof shows that the encrypted number is the discrete logarithm and in range", "statement": "If the verifier of the interactive proof finalizes without error, then the ciphertext decrypts to a number between 0 and the group order whose multiple of the base point is the public point.", "quantifier": "all ciphertexts, all messages of the prover, all samples", "why_tests_cant": "A soundness statement over all provers.", "anchors": ["src/utilities/zk_pdl/mod.rs: Prover, Verifier, verify_range_proof"]}
{"id": "C87", "title": "A commitment can be opened in one way only", "statement": "Whoever gets two different values accepted as openings of the same commitment, by the same or by different parties, in key generation or signing of any of the protocols, has found two different byte strings with the same SHA-256 digest.", "quantifier": "all commitments, all pairs of accepted openings, all parties and sessions", "why_tests_cant": "Ranges over all pairs of openings; a second opening of an ambiguous encoding has to be constructed.", "anchors": ["src/protocols/multi_party_ecdsa/gg_2020/party_i.rs: Keys::phase1_verify_com_phase3_verify_correct_key_verify_dlog_phase2_distribute, SignKeys::phase4", "src/protocols/multi_party_ecdsa/gg_2018/party_i.rs: Keys, SignKeys, LocalSignature", "src/protocols/two_party_ecdsa/lindell_2017/party_two.rs: KeyGenSecondMsg::verify_commitments_and_dlog_proof", "src/protocols/two_party_ecdsa/lindell_2017/party_one.rs: EphKeyGenSecondMsg::verify_commitments_and_dlog_proof", "src/utilities/zk_pdl/mod.rs: Verifier::finalize"]}
{"id": "C88", "title": "The challenge of a proof determines its statement and first message", "statement": "Two runs of a non-interactive proof that have the same challenge are about the same statement, with the same public parameters, and have the same first message, unless two different byte strings with the same SHA-256 digest are found.", "quantifier": "all pairs of statements and first messages of the proofs in use", "why_tests_cant": "Ranges over all pairs of inputs; colliding encodings have to be constructed.", "anchors": ["src/utilities/mta/range_proofs.rs: AliceProof, BobProof", "src/utilities/zk_pdl_with_slack/mod.rs: PDLwSlackProof", "src/protocols/multi_party_ecdsa/gg_2020/party_i.rs: SignKeys", "src/protocols/multi_party_ecdsa/gg_2018/party_i.rs: LocalSignature"]}
{"id": "C89", "title": "A response in the share conversion discloses nothing about the responder's secret", "statement": "In the conversion of a product into a sum (MtA), whatever first message Alice sends, the answer she gets tells her no more about Bob's secret than its public point does; in particular no residue of the secret can be computed from it.", "quantifier": "all first messages of Alice, with any Paillier key, all secrets and all samples of Bob", "why_tests_cant": "Ranges over all malicious first messages; the leak needs a crafted plaintext and is invisible to a test of correctness.", "anchors": ["src/utilities/mta/mod.rs: MessageB::b", "src/utilities/mta/range_proofs.rs: AliceProof::verify", "src/protocols/multi_party_ecdsa/gg_2020/state_machine/sign/rounds.rs: Round1::proceed", "examples/gg18_sign_client.rs: main", "src/protocols/two_party_ecdsa/lindell_2017/party_two.rs: Party2Private::to_mta_message_b"]}
{"id": "C90", "title": "An accepted Paillier key is a product of two large primes", "statement": "If a party's Paillier key passes the checks of key generation, its modulus is the product of two primes, none of them small enough to be found by factoring.", "quantifier": "all Paillier moduli and all proofs a party can send", "why_tests_cant": "A statement about all moduli and proofs; an accepted bad key has to be constructed together with its proof.", "anchors": ["src/protocols/multi_party_ecdsa/gg_2020/party_i.rs: Keys::phase1_verify_com_phase3_verify_correct_key_verify_dlog_phase2_distribute", "src/protocols/two_party_ecdsa/lindell_2017/party_two.rs: PaillierPublic::verify_ni_proof_correct_key"]}
{"id": "C91", "title": "Accepted auxiliary parameters hide what is committed with them", "statement": "If the auxiliary parameters (N~, h1, h2) of a party pass the checks of key generation, then commitments h1^a h2^b that other parties compute with them in their proofs disclose nothing about a; in particular, nonce shares stay hidden in signing.", "quantifier": "all parameters and proofs a party can send, all secrets and samples of the other parties", "why_tests_cant": "Bad parameters behave like good ones in every honest run; they have to be constructed together with accepted proofs.", "anchors": ["src/protocols/multi_party_ecdsa/gg_2020/party_i.rs: Keys::phase1_verify_com_phase3_verify_correct_key_verify_dlog_phase2_distribute, generate_h1_h2_N_tilde, LocalSignature::phase5_proof_pdl", "src/utilities/mta/range_proofs.rs: AliceProof::generate", "src/utilities/zk_pdl_with_slack/mod.rs: PDLwSlackProof::prove"]}
{"id": "C92", "title": "A message that a client cannot use changes nothing", "statement": "A client that runs key generation or the offline stage ignores every incoming message that is not to be accepted (from an unknown party or from itself, with a wrong receiver, a duplicate): whatever comes after it, the run sends and returns the same as if that message had not come in.", "quantifier": "all messages, at any point of the run, whatever comes before and after it", "why_tests_cant": "Ranges over all messages and positions; the tests' network delivers only expected messages.", "anchors": ["src/protocols/multi_party_ecdsa/gg_2020/state_machine/keygen.rs: IsCritical for Error", "src/protocols/multi_party_ecdsa/gg_2020/state_machine/sign.rs: IsCritical for Error", "examples/gg20_keygen.rs: main", "examples/gg20_signing.rs: main"]}
{"id": "C93", "title": "A client returns once all its messages came in", "statement": "A client that runs key generation or the offline stage returns once every message of its peers came in, in any order: it returns the output, or the error of the first round that fails, that executing the rounds one after the other leads to.", "quantifier": "all orders of the incoming messages, all contents", "why_tests_cant": "The number of orders is factorial; a lost wake-up shows up in few of them.", "anchors": ["src/protocols/multi_party_ecdsa/gg_2020/state_machine/keygen.rs: Keygen", "src/protocols/multi_party_ecdsa/gg_2020/state_machine/sign.rs: OfflineStage::proceed_round", "examples/gg20_keygen.rs: main", "examples/gg20_signing.rs: main"]}
{"id": "C94", "title": "Demo clients in one room finish", "statement": "When honest clients 1..n run the key generation demo, or the offline stage of the signing demo, in one room of the message server, then however their requests interleave: no client ever returns anything but its key or presignature of the round-by-round execution; the clients take only boundedly many steps; and when none can take a step, every client has returned.", "quantifier": "all numbers of clients and thresholds, all honest random values, all interleavings of posting and reading", "why_tests_cant": "The interleavings of n clients' requests cannot be enumerated, and termination and absence of deadlock are about all of them.", "anchors": ["examples/gg20_keygen.rs: main", "examples/gg20_signing.rs: main", "examples/gg20_sm_client.rs: join_computation", "examples/gg20_sm_manager.rs: broadcast, subscribe", "src/protocols/multi_party_ecdsa/gg_2020/state_machine/keygen.rs: Keygen", "src/protocols/multi_party_ecdsa/gg_2020/state_machine/sign.rs: OfflineStage"]}
{"id": "C95", "title": "Dealing discloses nothing beyond the dealer's public share", "statement": "What any t parties see when another party deals its secret with threshold t, in key generation of GG18 or GG20, is determined by the dealer's public share and the t secret shares they get themselves, and these t shares take every combination of values for exactly one choice of the dealer's random coefficients, whatever the secret is. So it could have been sampled without knowing the secret.", "quantifier": "all thresholds and party counts, all sets of t recipients, all secrets and random coefficients", "why_tests_cant": "A statement about the distribution of views for all secrets and coalitions; a test sees single samples.", "anchors": ["src/protocols/multi_party_ecdsa/gg_2020/party_i.rs: Keys::phase1_verify_com_phase3_verify_correct_key_verify_dlog_phase2_distribute", "src/protocols/multi_party_ecdsa/gg_2018/party_i.rs: Keys::phase1_verify_com_phase3_verify_correct_key_phase2_distribute"]}
{"id": "C96", "title": "A proof about points discloses nothing beyond its statement", "statement": "The proofs about points that the protocols send (knowledge of a discrete logarithm, of an opening of a Pedersen commitment, of an ElGamal pair, equality of logarithms) do not depend on the witness: every proof that the verifier accepts for a true statement is the honest proof for exactly one choice of the prover's random values, whichever witness the prover has. In particular a proof about a Pedersen commitment does not tell which value is committed.", "quantifier": "all statements, witnesses, random values and accepted proofs", "why_tests_cant": "A statement about all witnesses and random values; a leaking proof verifies like any other.", "anchors": ["src/protocols/multi_party_ecdsa/gg_2020/party_i.rs: Keys, SignKeys::phase3_compute_t_i, LocalSignature::phase6_compute_S_i_and_proof_of_consistency", "src/protocols/multi_party_ecdsa/gg_2020/state_machine/sign/rounds.rs: Round2::proceed, Round3::proceed", "src/protocols/multi_party_ecdsa/gg_2018/party_i.rs: LocalSignature::phase5a_broadcast_5b_zkproof", "src/protocols/two_party_ecdsa/lindell_2017/party_one.rs: KeyGenFirstMsg, EphKeyGenFirstMsg"]}
{"id": "C97", "title": "A proof about a ciphertext discloses nothing beyond its statement", "statement": "The range proofs of both sides of the share conversion and the proof that a point and a ciphertext belong together hide the witness, if the auxiliary parameters they are made with are well formed: for any challenge, a proof made with uniform samples from the ranges used cannot be told from one that is computed without the witness with an advantage above 10/q. Units are drawn uniformly.", "quantifier": "all witnesses, all challenges, all well-formed parameters and Paillier keys, all tests applied to the proof", "why_tests_cant": "A statement about the distribution of proofs for all witnesses; sampling ranges that are too small leak without any test failing.", "anchors": ["src/utilities/mta/range_proofs.rs: AliceProof::generate, BobProof::generate, SampleFromMultiplicativeGroup", "src/utilities/zk_pdl_with_slack/mod.rs: PDLwSlackProof::prove"]}
{"id": "C98", "title": "The signing demo ends with one valid signature", "statement": "When honest clients 1..n run the signing demo, both stages with the message server, then however their requests interleave: the clients take only boundedly many steps, and when none can take a step, every client has returned one and the same signature, which is valid for the message under the key and has low s.", "quantifier": "all numbers of signers, honest keys and random values, all messages, all interleavings of the clients' requests in both rooms", "why_tests_cant": "The order in which the clients finish the offline stage, and with it the index each gets in the online room, depends on scheduling.", "anchors": ["examples/gg20_signing.rs: main", "examples/gg20_sm_client.rs: join_computation", "examples/gg20_sm_manager.rs: issue_idx, broadcast, subscribe", "src/protocols/multi_party_ecdsa/gg_2020/state_machine/sign.rs: OfflineStage, SignManual"]}
{"id": "C99", "title": "The GG18 demo clients of one session always finish", "statement": "When honest GG18 demo clients that signed up for one session run key generation, or signing, against the manager, then however their requests interleave with each other and with those of other sessions, and whichever answers to their posts are lost and repeated: no client returns anything but its right result (its key file, or the one signature, valid for the message under the key); the clients make at most 10 n^2 (signing: 20 n^2) successful requests; and as long as one has not returned, one can make a request that succeeds.", "quantifier": "all numbers of parties and thresholds, honest random values, messages, message formats that can be read back, session ids, tables holding messages of other sessions, and interleavings", "why_tests_cant": "The clients poll for messages of peers that may be rounds ahead or behind, under string keys in a table shared with all other sessions; tests run few clients on an idle machine.", "anchors": ["examples/gg18_keygen_client.rs: main", "examples/gg18_sign_client.rs: main", "examples/common.rs: broadcast, sendp2p, poll_for_broadcasts, poll_for_p2p, postb", "examples/gg18_sm_manager.rs: get, set"]}
{"id": "C100", "title": "A GG18 key generation that honest clients finish leaves them with one usable key", "statement": "When GG18 key generation clients that follow the program finish, whatever the other parties post, their key files name the same public key, and any t+1 of these clients hold its discrete logarithm.", "quantifier": "all thresholds and party counts, all honest random values, all values posted by the other parties, also different ones for different clients", "why_tests_cant": "Dishonest dealers with arbitrary values; tests run honest clients only.", "anchors": ["examples/gg18_keygen_client.rs: main", "src/protocols/multi_party_ecdsa/gg_2018/party_i.rs: Keys::phase2_verify_vss_construct_keypair_phase3_pok_dlog, Keys::verify_dlog_proofs"]}
{"id": "C101", "title": "Honest signing fails only for a negligible fraction of the samples", "statement": "When at least t+1 holders of a key sign a message and all follow the program, drawing their random numbers from the ranges the program draws them from, then all of them end with one and the same valid low-s signature, except for a fraction of the draws that is bounded by the number of signers and parties squared divided by the size of the parameters (about 2^253 for secp256k1 and 2048-bit Paillier keys). The same holds for the GG18 demo clients.", "quantifier": "all keys, thresholds, sets of signers, messages, and all ways to draw the random numbers, counted", "why_tests_cant": "A failure rate of 2^-40 would never show in a test but break a service; a sampling range or a bound in a proof that is slightly off raises it.", "anchors": ["src/protocols/multi_party_ecdsa/gg_2020/party_i.rs: SignKeys::create", "src/utilities/mta/mod.rs: MessageA::a, MessageB::b", "src/utilities/mta/range_proofs.rs: AliceProof::generate, AliceProof::verify", "examples/gg18_sign_client.rs: main"]}
{"id": "C102", "title": "The shares that honest signers compute from the share conversion disclose only their sums", "statement": "Let some of the signers follow the program and the others send them whatever they like. The honest signers' additive shares of the product of the nonces (published in round 3) and of nonce times key (from which the partial signatures are computed) say nothing beyond the two sums: with the nonces, key shares and all messages of and masks towards dishonest signers fixed, every pair of vectors with these two sums comes out for nearly the same number of draws of the masks between honest signers, and no other pair comes out.", "quantifier": "all keys, signer sets, subsets of honest signers with at least one other honest signer each, nonces, messages of the dishonest signers", "why_tests_cant": "A statement about the distribution of outcomes for all inputs; masks drawn from too small a range leak the nonces and the key without any test failing.", "anchors": ["src/utilities/mta/mod.rs: MessageB::b, MessageB::verify_proofs_get_alpha", "src/protocols/multi_party_ecdsa/gg_2020/party_i.rs: SignKeys::phase2_delta_i, SignKeys::phase2_sigma_i", "src/protocols/multi_party_ecdsa/gg_2020/state_machine/sign/rounds.rs: Round1::proceed, Round2::proceed"]}
{"id": "C103", "title": "A client waiting for messages of the GG20 server is always woken", "statement": "A subscription never sleeps in front of a message that is stored in its room, except between the moment the message is stored and the moment its publisher wakes all subscribers. When no further requests come in, the room comes to rest after finitely many steps, whatever the order in which tasks are resumed; then exactly the posted messages are stored and every connected client has got all of them from its start on, each once, in order and with its number.", "quantifier": "any number of subscribers and publishers in a room, every interleaving of their steps at the points where a task can be suspended, subscriptions and disconnections at any time", "why_tests_cant": "A lost wake-up needs a message to arrive in the instant between looking for messages and going to sleep; tests hit it by chance or never.", "anchors": ["examples/gg20_sm_manager.rs: Room::publish, Room::subscribe, Subscription::next"]}
{"id": "C104", "title": "A party sends the messages of a round only when the earlier rounds are complete; the reported round means what it says", "statement": "In key generation and in the offline stage, whenever a message of some round has been put out, a message of every other party has been accepted for each earlier round: no commitment is opened before all commitments are in. The shares of a party's secret leave it only after the first two messages of every other party have passed all checks. The round number the machine reports never decreases; it has its maximum (one more than the number of rounds) exactly when the machine is finished, has handed out its result, or has failed; before an error, nothing of a later round has been sent and all earlier rounds have been received completely.", "quantifier": "all key generation and offline-stage machines made by new, all sequences of calls on them with arbitrary messages", "why_tests_cant": "A message put out one step too early shows only for a particular order of arrival; a test would have to look between any two calls for every order.", "anchors": ["src/protocols/multi_party_ecdsa/gg_2020/state_machine/keygen.rs: Keygen::proceed_round, Keygen::handle_incoming, Keygen::current_round", "src/protocols/multi_party_ecdsa/gg_2020/state_machine/keygen/rounds.rs: Round2::proceed", "src/protocols/multi_party_ecdsa/gg_2020/state_machine/sign.rs: OfflineStage::proceed_round, OfflineStage::handle_incoming, OfflineStage::current_round"]}
{"id": "C105", "title": "A recorded session cannot be replayed against a party", "statement": "If a party runs key generation again and gets back the recorded messages that the other parties sent to it in an earlier session, it does not end with a key, unless its freshly drawn secret polynomial happens to take the earlier value at the number of one of the other parties. Even one recorded last message is accepted only if both keys give its sender the same public share. The offline stage of signing does not complete with a recorded second message of another signer unless the nonce share drawn is the earlier one. Messages carry no session number, so the messages of the first rounds are individually accepted in any session.", "quantifier": "all thresholds, party numbers, earlier and new sessions with arbitrary messages and random values, all orders of delivery", "why_tests_cant": "Replays are attacks that tests do not contain, and whether some recorded message is accepted depends on all random values.", "anchors": ["src/protocols/multi_party_ecdsa/gg_2020/state_machine/keygen/rounds.rs: Round1::proceed, Round2::proceed, Round3::proceed, Round4::proceed", "src/protocols/multi_party_ecdsa/gg_2020/party_i.rs: Keys::verify_dlog_proofs_check_against_vss", "src/protocols/multi_party_ecdsa/gg_2020/state_machine/sign/rounds.rs: Round2::proceed", "src/utilities/mta/mod.rs: MessageB::verify_proofs_get_alpha", "src/protocols/multi_party_ecdsa/gg_2018/party_i.rs: Keys::verify_dlog_proofs"]}
{"id": "C106", "title": "No party can choose its contribution to the key or to the nonce after seeing those of the others", "statement": "Every party commits to its point in the first round. Compare two sessions in which a party accepted the same commitments from the others: what the others contribute to the public key (and, in signing, to the point from which the nonce is made) is the same in both, whatever the party itself sampled and whatever is sent later, or somebody opened one commitment in two ways, which on secp256k1 is a collision of SHA-256. So once a party has opened its commitment, all continuations that complete give the same public key or the same nonce point. Nobody shows its point before it has everything on which the others' choices may still depend.", "quantifier": "all thresholds, signer sets, random values, two arbitrary sessions with equal commitments, two arbitrary continuations of a session", "why_tests_cant": "Compares two executions under all strategies of the other parties; a test runs one.", "anchors": ["src/protocols/multi_party_ecdsa/gg_2020/party_i.rs: Keys::phase1_broadcast_phase3_proof_of_correct_key_proof_of_correct_h1h2, Keys::phase1_verify_com_phase3_verify_correct_key_verify_dlog_phase2_distribute, SignKeys::phase1_broadcast, SignKeys::phase4", "src/protocols/multi_party_ecdsa/gg_2020/state_machine/sign/rounds.rs: Round1::proceed, Round3::proceed, Round4::proceed", "src/utilities/mta/mod.rs: MessageB::b", "examples/gg18_keygen_client.rs: main", "examples/gg18_sign_client.rs: main"]}
{"id": "C107", "title": "Whoever gets a proof about points accepted knows what it claims", "statement": "Take any program that computes at most n hashes and ends with a proof for a statement of its choice. If its proofs of knowledge of a logarithm, of the opening of a Pedersen commitment, or of the contents of an ElGamal pair are accepted with a probability above (n+1)/q over the values of the hash function, two runs of the same program give the logarithm, the opening or the contents by a division. A false claim that two points have the same logarithm is accepted with probability at most (n+1)/q, one among m such claims with at most m(n+1)/q. So if the last check of key generation passes with such a probability, whoever made the messages knows every party's share of the key; and the point with which party two of the two-party protocol continues has the same logarithm as its companion.", "quantifier": "all programs, all numbers of hash queries chosen adaptively, all statements, curves of any prime order", "why_tests_cant": "A statement about all cheating programs and about probabilities over hash functions.", "anchors": ["src/utilities/mta/mod.rs: MessageB::verify_proofs_get_alpha", "src/protocols/multi_party_ecdsa/gg_2020/party_i.rs: Keys::verify_dlog_proofs_check_against_vss, LocalSignature::phase6_verify_proof", "src/protocols/multi_party_ecdsa/gg_2020/blame.rs: GlobalStatePhase6::phase6_blame", "src/protocols/multi_party_ecdsa/gg_2018/party_i.rs: Keys::verify_dlog_proofs, LocalSignature::phase5c", "src/protocols/two_party_ecdsa/lindell_2017/party_one.rs: KeyGenSecondMsg::verify_and_decommit, EphKeyGenSecondMsg::verify_commitments_and_dlog_proof", "src/protocols/two_party_ecdsa/lindell_2017/party_two.rs: KeyGenSecondMsg::verify_commitments_and_dlog_proof, EphKeyGenSecondMsg::verify_and_decommit", "src/protocols/two_party_ecdsa/cclst_2019/party_one.rs: KeyGenSecondMsg::verify_and_decommit", "src/protocols/two_party_ecdsa/cclst_2019/party_two.rs: KeyGenSecondMsg::verify_commitments_and_dlog_proof"]}
{"id": "C108", "title": "Before it is opened, a commitment tells nothing about what is committed to", "statement": "Let an observer see the first message of a party, which contains a commitment to its point, and compute at most n hashes of its choice. Whatever it tests, the test succeeds nearly equally often whichever point the party committed to: the probabilities, over the blinding factor and the values of the hash function, differ by at most 2n/2^256, also when the observer knows everything else. This holds for the contributions to the key in GG20 and GG18, for the first message of signing, and, with 4(n+1)/2^256, for the two commitments of party one in key generation and of party two in the nonce exchange of the two-party protocols.", "quantifier": "all observers, all numbers of hash queries chosen adaptively, all pairs of points, all other contents of the messages", "why_tests_cant": "A statement about all observers and about probabilities; with a blinding factor that is too short, constant or reused nothing fails.", "anchors": ["src/protocols/multi_party_ecdsa/gg_2020/party_i.rs: Keys::phase1_broadcast_phase3_proof_of_correct_key_proof_of_correct_h1h2, SignKeys::phase1_broadcast", "src/protocols/multi_party_ecdsa/gg_2018/party_i.rs: Keys::phase1_broadcast_phase3_proof_of_correct_key, SignKeys::phase1_broadcast", "src/protocols/two_party_ecdsa/lindell_2017/party_one.rs: KeyGenFirstMsg::create_commitments", "src/protocols/two_party_ecdsa/lindell_2017/party_two.rs: EphKeyGenFirstMsg::create_commitments", "src/protocols/two_party_ecdsa/cclst_2019/party_one.rs: KeyGenFirstMsg::create_commitments", "src/protocols/two_party_ecdsa/cclst_2019/party_two.rs: EphKeyGenFirstMsg::create_commitments"]}
{"id": "C109", "title": "What a demo client takes for a message of another party was sent by that party", "statement": "If a client of the GG20 or GG18 demo goes on with a message that claims to come from some party, then that party sent it, also when others than the parties can reach the server.", "quantifier": "all parties, rounds, sessions, and everything that anybody posts to the server", "why_tests_cant": "An attacker that speaks for other parties is not in the tests; that all of their messages can be made without them needs an argument over all sessions.", "anchors": ["examples/gg20_sm_client.rs: join_computation", "examples/gg20_sm_manager.rs: broadcast, issue_idx", "examples/gg20_keygen.rs: main", "examples/gg18_sm_manager.rs: set, get", "examples/common.rs: poll_for_broadcasts, poll_for_p2p"]}
{"id": "C110", "title": "Messages addressed to one party tell nothing to others in the room", "statement": "In a key generation with the GG20 demo clients, nobody but the party that a message is addressed to learns its contents; in particular whoever only reads the room does not learn the private key.", "quantifier": "all thresholds, party counts, random values, interleavings of the clients, times at which the room is read", "why_tests_cant": "Secrecy is not observable in a test of the parties' results.", "anchors": ["examples/gg20_sm_client.rs: join_computation", "examples/gg20_sm_manager.rs: subscribe, broadcast", "examples/gg20_keygen.rs: main", "src/protocols/multi_party_ecdsa/gg_2020/state_machine/keygen/rounds.rs: Round2::proceed"]}
{"id": "C111", "title": "Accepting a response of the share conversion tells nothing about the asker's secret", "statement": "In the conversion of a product into a sum that signing uses, whether the asking party accepts the response or stops with an error does not depend on its secret multiplicand, for any response that a dishonest responder can compute. In particular, a signer that sees whether a signing goes on learns nothing about the nonce share of another signer from that.", "quantifier": "all keys, secrets, random values, sets of signers, pairs of asking and responding signers, responses", "why_tests_cant": "Tests make honest responses; with them the failure has a negligible probability.", "anchors": ["src/utilities/mta/mod.rs: MessageB::b, MessageB::verify_proofs_get_alpha, MessageB::verify_proofs_get_alpha_gg18", "src/utilities/mta/range_proofs.rs: BobProof", "src/protocols/multi_party_ecdsa/gg_2020/state_machine/sign/rounds.rs: Round1::proceed, Round2::proceed", "src/protocols/multi_party_ecdsa/gg_2020/state_machine/sign.rs: OfflineStage"]}
{"id": "C112", "title": "Key generation accuses only parties that misbehaved", "statement": "If the key generation of a party ends with an error that names a party, then the named party did not follow the protocol: it is not the party itself, and it is not another party that ran the program and whose messages were delivered as sent. This holds whatever the remaining parties send, also if they send different things to different parties.", "quantifier": "all thresholds and numbers of parties, all random values of honest parties, all messages of dishonest parties (which may differ for each receiver), all accusing and accused parties, all rounds", "why_tests_cant": "A test checks that the cheater it simulates is named; here somebody else must be shown never to be named, for all ways of cheating.", "anchors": ["src/protocols/multi_party_ecdsa/gg_2020/party_i.rs: Keys::phase1_verify_com_phase3_verify_correct_key_verify_dlog_phase2_distribute, Keys::phase2_verify_vss_construct_keypair_phase3_pok_dlog, Keys::verify_dlog_proofs_check_against_vss, Keys::get_commitments_to_xi", "src/protocols/multi_party_ecdsa/gg_2020/mod.rs: ErrorType", "src/protocols/multi_party_ecdsa/gg_2020/state_machine/keygen/rounds.rs: Round2::proceed, Round3::proceed, Round4::proceed, ProceedError"]}
{"id": "C113", "title": "A session that fails names a culprit", "statement": "If key generation or the offline stage of signing ends with an error for some party, the error names at least one of the other parties, whatever was sent. (The Paillier-based protocols of 2020 are known for this: identifiable abort.)", "quantifier": "all thresholds, sets of signers, parties, random values, and all messages of the other parties", "why_tests_cant": "A test provokes a few failures; whether some way of failing leaves no trace is a question about all messages.", "anchors": ["src/protocols/multi_party_ecdsa/gg_2020/mod.rs: ErrorType", "src/protocols/multi_party_ecdsa/gg_2020/state_machine/keygen/rounds.rs: Round2::proceed, Round3::proceed, Round4::proceed", "src/protocols/multi_party_ecdsa/gg_2020/state_machine/sign/rounds.rs: Round1::proceed, Round2::proceed, Round3::proceed, Round4::proceed, Round5::proceed, Round6::proceed, Error", "src/protocols/multi_party_ecdsa/gg_2020/party_i.rs: SignKeys::phase4, LocalSignature::phase5_verify_pdl, LocalSignature::phase5_check_R_dash_sum, LocalSignature::phase6_verify_proof, LocalSignature::phase6_check_S_i_sum"]}
{"id": "C114", "title": "Signing names only signers that misbehaved", "statement": "If the offline stage of a signer ends with an error that names signers, then the named ones did not follow the protocol: the signer itself is not among them, nor is another signer that ran the program and whose messages were delivered as sent. This holds whatever the remaining signers send, also if they send different things to different signers.", "quantifier": "all keys, sets of signers, random values of honest signers, messages of dishonest signers (which may differ for each receiver), naming and named signers, rounds", "why_tests_cant": "A test checks that the cheater it simulates is named; here somebody else must be shown never to be named, for all ways of cheating.", "anchors": ["src/protocols/multi_party_ecdsa/gg_2020/mod.rs: ErrorType", "src/protocols/multi_party_ecdsa/gg_2020/state_machine/sign/rounds.rs: Round4::proceed, Round5::proceed, Round6::proceed, Error", "src/protocols/multi_party_ecdsa/gg_2020/party_i.rs: SignKeys::phase4, LocalSignature::phase5_proof_pdl, LocalSignature::phase5_verify_pdl, LocalSignature::phase6_compute_S_i_and_proof_of_consistency, LocalSignature::phase6_verify_proof"]}
{"id": "C115", "title": "Signing does not disclose party one's share to party two", "statement": "Whatever ciphertexts party two sends in signing sessions, and however many sessions there are, the only thing party one's answers tell party two beyond the signatures themselves is that sessions failed; in particular party two cannot compute party one's share from which sessions failed, in either of the two-party protocols.", "quantifier": "all key shares, Paillier keys, nonces and messages of any number of signing sessions, ciphertexts of party two", "why_tests_cant": "The tests run one session with an honest party two; that a sequence of sessions discloses nothing, whatever is sent, is a statement about all programs party two could run.", "anchors": ["src/protocols/two_party_ecdsa/lindell_2017/party_one.rs: Signature::compute, Party1Private::set_private_key, PaillierKeyPair::generate_keypair_and_encrypted_share, compute_pubkey, verify", "src/protocols/two_party_ecdsa/cclst_2019/party_one.rs: Signature::compute, verify"]}
{"id": "C116", "title": "An ephemeral key pair used for two signings discloses no share", "statement": "The functions of the two-party protocols take ephemeral key pairs by reference and those of GG18 take nonce shares as values; nothing records that they have been used. A user who signs twice with the same one (after a restart, or to save a round) relies on this not disclosing their share of the key to the other party, nor the key to the public.", "quantifier": "all key shares, nonces, messages and random values of two signings in which one party (Lindell17, CCLST19) or all parties (GG18) use the same nonce share", "why_tests_cant": "Tests use fresh nonces in every signing; what two signatures with a common nonce share disclose is a statement about all pairs of messages and all programs of the other party.", "anchors": ["src/protocols/two_party_ecdsa/lindell_2017/party_one.rs: Signature::compute", "src/protocols/two_party_ecdsa/lindell_2017/party_two.rs: PartialSig::compute", "src/protocols/two_party_ecdsa/cclst_2019/party_one.rs: Signature::compute", "src/protocols/two_party_ecdsa/cclst_2019/party_two.rs: PartialSig::compute", "src/protocols/multi_party_ecdsa/gg_2018/party_i.rs: LocalSignature::phase5_local_sig, LocalSignature::output_signature"]}
{"id": "C117", "title": "One good source of random numbers suffices", "statement": "A key or a nonce to which several parties contribute is as random as the contribution of any one of them: fix the secrets (nonce shares) of all parties but one and let that one vary over what it may draw; then every public key (nonce point) that can come out comes out for exactly one of its values, and hardly any key or nonce is impossible.", "quantifier": "all numbers of parties, thresholds, signer sets, positions of the varying party and random values of all parties", "why_tests_cant": "Whether contributions of a party are lost, repeated or restricted shows only over all values of its draw.", "anchors": ["src/protocols/multi_party_ecdsa/gg_2020/party_i.rs: Keys::create, Keys::phase1_verify_com_phase3_verify_correct_key_verify_dlog_phase2_distribute, SignKeys::create, SignKeys::phase4", "src/protocols/multi_party_ecdsa/gg_2018/party_i.rs: Keys::create, SignKeys::create, SignKeys::phase4", "src/protocols/two_party_ecdsa/lindell_2017/party_one.rs: KeyGenFirstMsg::create_commitments, compute_pubkey, EphKeyGenFirstMsg::create", "src/protocols/two_party_ecdsa/lindell_2017/party_two.rs: KeyGenFirstMsg::create, compute_pubkey", "src/protocols/two_party_ecdsa/cclst_2019/party_one.rs: KeyGenFirstMsg::create_commitments, compute_pubkey", "src/protocols/two_party_ecdsa/cclst_2019/party_two.rs: KeyGenFirstMsg::create"]}
{"id": "C118", "title": "Backups of as many parties as sign together restore the key", "statement": "An encrypted backup of a party's secret share, made for a recovery key, gives the holder of the recovery key that secret; and the backups of parties that are able to sign together (both parties of a two-party protocol, any threshold plus one parties otherwise) suffice to restore the private key, and so the ability to sign.", "quantifier": "all sessions of honest parties, numbers of parties, thresholds, recovery keys, base points, segment sizes and numbers with room for a scalar, and random values", "why_tests_cant": "A test of a backup restores one secret and compares it with itself; that other keys fit the same backups is a statement about all other sessions.", "anchors": ["src/protocols/multi_party_ecdsa/gg_2020/party_i.rs: PartyPrivate::to_encrypted_segment, PartyPrivate::set_private", "src/protocols/multi_party_ecdsa/gg_2018/party_i.rs: PartyPrivate::to_encrypted_segment, PartyPrivate::set_private", "src/protocols/two_party_ecdsa/lindell_2017/party_one.rs: Party1Private::to_encrypted_segment", "src/protocols/two_party_ecdsa/lindell_2017/party_two.rs: Party2Private::to_encrypted_segment"]}
{"id": "C119", "title": "Shares stolen before and after a refresh are useless together", "statement": "A refresh makes old shares useless: what at most threshold many parties hold before a refresh, together with what at most threshold many (possibly other) parties hold after it, fits every private key; in the two-party protocol, one party's share before and the other party's share after the refresh fit every key, each for exactly one factor.", "quantifier": "all numbers of parties, thresholds, sets of robbed parties, keys, refresh factors and random values", "why_tests_cant": "That stolen data fit every key is a statement about all other sessions that could have produced them.", "anchors": ["src/protocols/multi_party_ecdsa/gg_2020/party_i.rs: PartyPrivate::refresh_private_key, PartyPrivate::update_private_key", "src/protocols/multi_party_ecdsa/gg_2018/party_i.rs: PartyPrivate::refresh_private_key, PartyPrivate::update_private_key", "src/protocols/two_party_ecdsa/lindell_2017/party_one.rs: Party1Private::refresh_private_key", "src/protocols/two_party_ecdsa/lindell_2017/party_two.rs: Party2Private::update_private_key"]}
{"id": "C120", "title": "Honest signers that finish have the same nonce", "statement": "Two honest signers of one session that both finish the interactive part of signing have the same nonce point, and so sign with the same r, although nothing checks that broadcasts are consistent and the other signers may tell the two different things: an honest signer does not accept the proofs that another one made for a different nonce point.", "quantifier": "all signer sets, all messages of the other signers (different ones to different signers), all schedules and random values", "why_tests_cant": "A test of equivocation tries a few deviations; that no deviation makes two honest signers finish with different nonces is a statement about all of them.", "anchors": ["src/protocols/multi_party_ecdsa/gg_2020/party_i.rs: LocalSignature::phase5_proof_pdl, LocalSignature::phase5_verify_pdl", "src/protocols/multi_party_ecdsa/gg_2020/state_machine/sign/rounds.rs: Round4::proceed, Round5::proceed, Round6::proceed", "src/protocols/multi_party_ecdsa/gg_2018/party_i.rs: LocalSignature::phase5a_broadcast_5b_zkproof, LocalSignature::phase5c"]}
{"id": "C121", "title": "Honest signers of one session output one signature", "statement": "Honest signers of one session that each output a signature of the same message output the same signature (r, s and recovery id), whatever partial signatures the other signers send them.", "quantifier": "all presignatures, messages to sign and lists of partial signatures received (different ones at different signers)", "why_tests_cant": "A test compares the outputs of signers that received the same partial signatures; different ones that both lead to a valid signature must be found or excluded for all of them.", "anchors": ["src/protocols/multi_party_ecdsa/gg_2020/party_i.rs: LocalSignature::output_signature", "src/protocols/multi_party_ecdsa/gg_2020/state_machine/sign.rs: SignManual::new, SignManual::complete", "src/protocols/multi_party_ecdsa/gg_2018/party_i.rs: LocalSignature::output_signature"]}
{"id": "C122", "title": "Parties that were started with different thresholds notice it", "statement": "Every party is told the threshold separately. If the parties of a key generation, all of them honest, are told different ones, no party gets a key.", "quantifier": "all numbers of parties, thresholds told to each of them and random values", "why_tests_cant": "A test starts all parties with one configuration; a theorem must cover every combination of configurations.", "anchors": ["src/protocols/multi_party_ecdsa/gg_2020/state_machine/keygen.rs: Keygen::new", "src/protocols/multi_party_ecdsa/gg_2020/state_machine/keygen/rounds.rs: Round3::proceed, Round4::proceed", "src/protocols/multi_party_ecdsa/gg_2020/party_i.rs: Keys::phase2_verify_vss_construct_keypair_phase3_pok_dlog, Keys::verify_dlog_proofs_check_against_vss, Keys::get_commitments_to_xi", "examples/gg18_keygen_client.rs: main"]}
{"id": "C123", "title": "Signers whose shares do not make up the key are all told, and get no presignature", "statement": "In an offline stage of signers that follow the protocol, every signer gets a presignature for the public key if the shares of the listed parties interpolate to the secret key, and otherwise every one of them gets the error of the last round (which names nobody) and no presignature. In particular `t >= 2` signers of a key of threshold `t`, which `OfflineStage::new` accepts, always end with that error at each of them.", "quantifier": "every list of at least two distinct parties of a key, in every order, every shares, Paillier keys and honestly drawn randomness; for the second part every polynomial of degree exactly t", "why_tests_cant": "A test tries one signer set of the right size; the claim is about all subsets, all sharings and each signer's own outcome.", "anchors": ["src/protocols/multi_party_ecdsa/gg_2020/state_machine/sign.rs: OfflineStage::new", "src/protocols/multi_party_ecdsa/gg_2020/state_machine/sign/rounds.rs: Round6::proceed", "src/protocols/multi_party_ecdsa/gg_2020/party_i.rs: LocalSignature::phase6_check_S_i_sum"]}
{"id": "C124", "title": "A completed key generation does not give the neutral point as public key", "statement": "A party for which key generation ends successfully holds a public key other than the neutral point of the curve (under which everybody can compute accepted signatures).", "quantifier": "every completed key generation of GG18, GG20, Lindell17 and CCLST19, honest or with a peer that sends what it likes", "why_tests_cant": "Honest random runs hit the neutral point with negligible probability; a peer that sends it deliberately is not tested.", "anchors": ["src/protocols/two_party_ecdsa/lindell_2017/party_one.rs: KeyGenSecondMsg::verify_and_decommit, compute_pubkey", "src/protocols/two_party_ecdsa/lindell_2017/party_two.rs: KeyGenSecondMsg::verify_commitments_and_dlog_proof, compute_pubkey", "src/protocols/two_party_ecdsa/cclst_2019/party_one.rs: compute_pubkey", "src/protocols/two_party_ecdsa/cclst_2019/party_two.rs: compute_pubkey", "src/protocols/multi_party_ecdsa/gg_2020/party_i.rs: Keys::phase1_verify_com_phase3_verify_correct_key_verify_dlog_phase2_distribute"]}
{"id": "C125", "title": "GG18 clients whose shares do not make up the key crash before anything is released", "statement": "In a room of GG18 signing clients that follow the protocol, every client posts its partial signature if the shares of the listed parties interpolate to the secret key; otherwise every one of them crashes and nobody posts a partial signature, except when the clients' blinding values sum up to zero or the x-coordinate of the nonce point is zero modulo the group order. In particular clients started with a threshold that is one too small for the key release nothing.", "quantifier": "every number of signers, list of parties, shares, public key, message and honest randomness", "why_tests_cant": "The condition is about all shares, lists and random values; a test runs a few.", "anchors": ["examples/gg18_sign_client.rs: main (lines 36-478)", "src/protocols/multi_party_ecdsa/gg_2018/party_i.rs: LocalSignature::phase5d"]}
{"id": "C126", "title": "A prover of the interactive PDL proof cannot convince the verifier of a wrong ciphertext", "statement": "Whatever a prover does, if the plaintext of the ciphertext is not congruent to the discrete logarithm of the point modulo the group order, the verifier of the interactive PDL proof accepts with a negligible chance over its own random choices, unless the prover opens a hash commitment in two ways.", "quantifier": "every prover strategy (its first message as a function of the ciphertext it gets, its second as a function of the opened challenge), statement, modulus and plaintext", "why_tests_cant": "The bound is a count over all the verifier's random choices, for an arbitrary prover.", "anchors": ["src/utilities/zk_pdl/mod.rs: Verifier::message1, Verifier::message2, Verifier::finalize (lines 112-187)"]}
{"id": "C127", "title": "Signers that were given different messages notice it", "statement": "If honest signers of one session were started with messages that are not all equal modulo the group order, the session ends without a signature. GG18 clients find out before anything is released: every client crashes and none posts its partial signature, except with a chance of at most 1/(q-1) over the blinding values. GG20 signers broadcast their partial signatures, but completing fails at each signer, except for at most two of the q ways to divide the nonce between two signers with different messages.", "quantifier": "every threshold, signer list, key, nonces, messages per signer, and blinding values", "why_tests_cant": "Tests start all signers with one message; a test with two messages would sample a few nonces and could not tell that failure is certain up to a coincidence of the randomness.", "anchors": ["src/protocols/multi_party_ecdsa/gg_2020/state_machine/sign.rs: SignManual::new, SignManual::complete", "src/protocols/multi_party_ecdsa/gg_2020/party_i.rs: LocalSignature::phase7_local_sig, output_signature", "src/protocols/multi_party_ecdsa/gg_2018/party_i.rs: LocalSignature::phase5c, phase5d", "examples/gg18_sign_client.rs: main"]}
{"id": "C128", "title": "Presignatures of different sessions do not combine", "statement": "If some of the signers complete a signature with the result of one offline session and the others with the result of another one (their stores of presignatures are out of step), then no signer gets a signature, except for at most two of the q ways to divide the first session's nonce between one signer of each kind.", "quantifier": "every signer list, key, message, pair of honest sessions and division of the signers between the two sessions", "why_tests_cant": "A test would mix two sampled sessions; that failure is certain up to a coincidence of the nonces is a statement about all of them.", "anchors": ["src/protocols/multi_party_ecdsa/gg_2020/state_machine/sign.rs: SignManual::new, SignManual::complete, CompletedOfflineStage", "src/protocols/multi_party_ecdsa/gg_2020/party_i.rs: LocalSignature::phase7_local_sig, output_signature"]}
{"id": "C129", "title": "Signers that were started with different lists of signers notice it", "statement": "Every signer is told separately who signs, at which place, and with which key; nothing that is sent mentions it. A signer that completes the offline stage has the assurance that every other signer that runs the program signs with the share that belongs to its place in the completing signer's own list; if all of them run the program, the shares they sign with add up to the secret key. Of two signers, one completes only if both were started with the same list, provided that both lists have the other one at its right place and that its key share is not zero. The same holds for GG18 demo clients, which make up the list from what they are told in the first round: a client releases its partial signature only if every other client that runs the program signs with the share that belongs to the number the first one was told. If two of them have the key file of the same party, nobody releases anything.", "quantifier": "all lists, places and keys the signers are started with, all random values, all schedules of calls and deliveries, all behaviour of the remaining signers", "why_tests_cant": "the tests start all signers with one list", "anchors": ["src/protocols/multi_party_ecdsa/gg_2020/state_machine/sign.rs: OfflineStage::new", "src/protocols/multi_party_ecdsa/gg_2020/state_machine/sign/rounds.rs: Round0::proceed, Round2::proceed", "src/protocols/multi_party_ecdsa/gg_2020/party_i.rs: SignKeys::create, SignKeys::g_w_vec", "examples/gg18_sign_client.rs: main"]}
{"id": "C130", "title": "The debug text of a key generation or an offline stage shows the true progress and nothing else", "statement": "Printing a key generation or an offline stage with `{:?}` always succeeds, after any calls. The text tells the current round, for every round how many of the peers' messages have been accepted out of how many, and how many messages are waiting to be sent. All these numbers are right. The text depends on nothing else: two machines with different keys, random values, messages and parties that are equally far print the same text, so that logging it discloses no secret.", "quantifier": "all parameters, keys and random values, and all sequences of calls that do not panic", "why_tests_cant": "A test prints a few states; that the text never depends on a secret is a statement about all pairs of states.", "anchors": ["src/protocols/multi_party_ecdsa/gg_2020/state_machine/keygen.rs: impl Debug for Keygen", "src/protocols/multi_party_ecdsa/gg_2020/state_machine/sign/fmt.rs: OfflineStageProgress, ReceivedMessages"]}
{"id": "C131", "title": "Parties that were started for different numbers of parties get no key", "statement": "Every party is told separately for how many parties a key is generated; nothing checks that all were told the same number. Nevertheless, if all of them run the program, a party gets a key only if each of the parties it takes part with was started for at least as many parties; so a party never gets a key that another participant has no part in. If one of them was started for more parties, the party gets a key only if the shares that the parties unknown to it deal for that one add up to zero, which has chance at most 1/(q-1) over the secret of any one of them, in every schedule. A GG18 demo client writes a key file only if every client it takes part with was started for exactly the same number.", "quantifier": "all numbers of parties and thresholds the parties are started with, all random values, all schedules of calls and deliveries", "why_tests_cant": "The tests start all parties with one number.", "anchors": ["src/protocols/multi_party_ecdsa/gg_2020/state_machine/keygen.rs: Keygen::new", "src/protocols/multi_party_ecdsa/gg_2020/state_machine/keygen/rounds.rs: Round2::proceed, Round3::proceed, Round4::proceed", "src/protocols/multi_party_ecdsa/gg_2020/party_i.rs: Keys::verify_dlog_proofs_check_against_vss", "examples/gg18_keygen_client.rs: main"]}
{"id": "C132", "title": "Two programs started under one number in one session do not both get a result", "statement": "Nothing in the messages tells two programs apart that were started under the same number, for instance a party that crashed, lost its state and joins the running session again with fresh random values. Whatever the other parties accepted in that number's name, and in every schedule: both programs get a key only if the shares they deal agree for each other party (and then they can), and both get a presignature only if they drew the same nonce. Either has chance at most 1/(q-1).", "quantifier": "all random values, thresholds, numbers of parties and lists of signers, all schedules of calls and deliveries; the other parties run the program, and what they accepted in the name of the doubled number is arbitrary", "why_tests_cant": "The tests start one program for each number.", "anchors": ["src/protocols/multi_party_ecdsa/gg_2020/state_machine/keygen.rs: Keygen::new", "src/protocols/multi_party_ecdsa/gg_2020/state_machine/keygen/rounds.rs: Round4::proceed", "src/protocols/multi_party_ecdsa/gg_2020/state_machine/sign.rs: OfflineStage::new", "src/protocols/multi_party_ecdsa/gg_2020/state_machine/sign/rounds.rs: Round1::proceed, Round2::proceed", "src/utilities/mta/mod.rs: MessageB::verify_proofs_get_alpha"]}
{"id": "C133", "title": "Signers whose keys come from different key generations get no presignature", "statement": "A party that missed a refresh, or that reads the wrong key file, can take part in signing with a key that does not belong to the others' keys: nothing names the key generation a key comes from. Nevertheless a signer gets a presignature only if the share of every signer that runs the program is the one that belongs to the public share it has recorded for that party. So if their keys come from two key generations among the same parties, that party must have got the same share in both, which has chance at most 1/(q-1) over one coefficient drawn by any one party, in every schedule and whatever the other signers do. With keys of one key generation they can get presignatures. The same holds for GG18 demo clients with key files of different key generations: no partial signature is released.", "quantifier": "all pairs of key generations (thresholds, numbers of parties, random values), all lists of signers and pairs of signers, all schedules of calls and deliveries; the other signers do anything", "why_tests_cant": "The tests sign with keys of one key generation.", "anchors": ["src/protocols/multi_party_ecdsa/gg_2020/state_machine/sign.rs: OfflineStage::new", "src/protocols/multi_party_ecdsa/gg_2020/state_machine/sign/rounds.rs: Round0::proceed, Round1::proceed, Round2::proceed", "src/protocols/multi_party_ecdsa/gg_2020/party_i.rs: SignKeys::g_w_vec, SignKeys::create", "src/utilities/mta/mod.rs: MessageB::verify_b_against_public", "examples/gg18_sign_client.rs: main"]}
{"id": "C134", "title": "Blame names exactly the cheaters when everybody opens what it did", "statement": "Suppose the signers followed the protocol up to the multiplications, and then each of them published whatever it liked as its delta, its point S or its partial signature. If they open what they did, each of the three blame procedures reaches a verdict, and the verdict names, in increasing order and each once, exactly the signers whose published value is not the right one - any number of them. A signer that cheats alone makes the nonce check or the key check fail and is named alone. In the key phase this is up to a hash value of 0. The nonce check passes only if the published deltas have the right sum, so a wrong delta goes unnoticed only if it does no harm. Whatever is opened, a verdict lists every signer at most once, in increasing order.", "quantifier": "all numbers of signers, all their random values, all published values, all sets of cheating signers", "why_tests_cant": "The tests corrupt two or three fixed sets of signers out of two or four, and only by doubling a value.", "anchors": ["src/protocols/multi_party_ecdsa/gg_2020/blame.rs: GlobalStatePhase5::phase5_blame, GlobalStatePhase6::phase6_blame, GlobalStatePhase7::phase7_blame", "src/protocols/multi_party_ecdsa/gg_2020/party_i.rs: LocalSignature::phase5_check_R_dash_sum", "src/protocols/multi_party_ecdsa/gg_2020/test.rs: sign"]}
{"id": "C135", "title": "A signer that is started at the place of another party gets no presignature", "statement": "A signer is told separately its position in the list of signers, and nothing compares the party the list has there with the key it is given: a program can be started at the place of another party. Nevertheless, for any two signers that run the program with keys of one key generation, one of them gets a presignature only if the share in either key is the share of the party that the list has at its place. So if one of the two is at a wrong place, that one or the other, the chance of a presignature is at most 1/(q-1) over one coefficient drawn by any one party at key generation, in every schedule and whatever the other signers do. Signers at their own places can get presignatures.", "quantifier": "all key generations, all lists of signers, all pairs of places and pairs of keys, all random values, all schedules of calls and deliveries; the other signers do anything", "why_tests_cant": "The tests compute each signer's position from the list.", "anchors": ["src/protocols/multi_party_ecdsa/gg_2020/state_machine/sign.rs: OfflineStage::new", "src/protocols/multi_party_ecdsa/gg_2020/state_machine/sign/rounds.rs: Round0::proceed, Round1::proceed, Round2::proceed", "src/protocols/multi_party_ecdsa/gg_2020/party_i.rs: SignKeys::g_w_vec, SignKeys::create", "src/utilities/mta/mod.rs: MessageB::verify_b_against_public"]}
{"id": "C136", "title": "A party of the two-party protocols signs no message but its own", "statement": "If the two parties of a signing session mean to sign different messages, neither of them ends with a valid signature on a message it did not mean to sign; the session fails or the party notices.", "quantifier": "all keys, shares, nonces, random samples and pairs of messages; honest parties", "why_tests_cant": "The tests give one message to the session, and party one's functions have no argument for it; the share of nonces for which a check by party one would miss a difference cannot be sampled.", "anchors": ["src/protocols/two_party_ecdsa/lindell_2017/party_one.rs: Signature::compute, verify", "src/protocols/two_party_ecdsa/lindell_2017/party_two.rs: PartialSig::compute", "src/protocols/two_party_ecdsa/cclst_2019/party_one.rs: Signature::compute, verify", "src/protocols/two_party_ecdsa/cclst_2019/party_two.rs: PartialSig::compute"]}
{"id": "C137", "title": "Two-party signers whose shares do not belong together get no valid signature", "statement": "Nothing in a two-party signing session compares the share that party two signs with, or the encrypted share of party one that it holds, with the public key that party one has; one of the parties may have missed a refresh. Nevertheless, if the product of the share party two uses and the share in the ciphertext it holds is not the private key of party one's public key, then what party one outputs is not accepted under that key, except for at most four of the q-1 nonces of party one (for the zero message the two private keys must not be opposite). If the product is the private key, the signature is accepted, whatever the single shares are.", "quantifier": "all shares, recorded shares, messages, nonces and random samples; ciphertexts under party one's encryption key", "why_tests_cant": "The tests refresh both parties; the share of nonces that would hide a difference cannot be sampled.", "anchors": ["src/protocols/two_party_ecdsa/lindell_2017/party_one.rs: Signature::compute, verify, compute_pubkey, Party1Private::refresh_private_key", "src/protocols/two_party_ecdsa/lindell_2017/party_two.rs: PartialSig::compute, Party2Private::update_private_key", "src/protocols/two_party_ecdsa/cclst_2019/party_one.rs: Signature::compute, verify, compute_pubkey", "src/protocols/two_party_ecdsa/cclst_2019/party_two.rs: PartialSig::compute"]}
{"id": "C138", "title": "Messages of different two-party sessions do not combine", "statement": "If party one completes, with its ephemeral key of one signing session, the partial signature that party two computed in another session, nothing reports an error and party one outputs a signature; but verification under the joint key accepts it for at most four of the q-1 nonces of party one, whatever the other session was.", "quantifier": "all keys, shares, messages, pairs of sessions, nonces and random samples", "why_tests_cant": "The tests run one session at a time; the share of nonces for which a mixture would pass cannot be sampled.", "anchors": ["src/protocols/two_party_ecdsa/lindell_2017/party_one.rs: Signature::compute, verify", "src/protocols/two_party_ecdsa/lindell_2017/party_two.rs: PartialSig::compute", "src/protocols/two_party_ecdsa/cclst_2019/party_one.rs: Signature::compute, verify", "src/protocols/two_party_ecdsa/cclst_2019/party_two.rs: PartialSig::compute"]}
{"id": "C139", "title": "Honest two-party signing fails only for a negligible fraction of the nonces", "statement": "When both parties of a two-party protocol follow it, then for every key, message and value of the other samples, all but at most four of the q-1 nonces of party one lead to a signature that is valid under the joint key, and all but at most 2(1+p-q) lead to one that the library's own verification accepts. For secp256k1 these fractions are below 2^-253 and 2^-126.", "quantifier": "all shares other than 0, all messages, all nonces of party two and random samples; counted over the nonce of party one", "why_tests_cant": "The failing nonces are too rare to be met by tests.", "anchors": ["src/protocols/two_party_ecdsa/lindell_2017/party_one.rs: Signature::compute, verify", "src/protocols/two_party_ecdsa/lindell_2017/party_two.rs: PartialSig::compute", "src/protocols/two_party_ecdsa/cclst_2019/party_one.rs: Signature::compute, verify", "src/protocols/two_party_ecdsa/cclst_2019/party_two.rs: PartialSig::compute"]}
{"id": "C140", "title": "Recovery ids of honest signatures are wrong only for a negligible fraction of the nonces", "statement": "The recovery id returned with a signature is wrong for some nonce points (C04, C53). But whatever the key, the message, the nonces of the other signers and all other random values are: all but at most 4+5(p-q) of the q-1 nonces of party one of Lindell17 lead to a signature with a recovery id from which standard recovery gets the joint public key, and for all but at most 2+5(p-q) of the nonces of any one signer of GG18 or GG20 every signature completed from partial signatures that add up correctly has such a recovery id. For secp256k1 these fractions are below 2^-124.", "quantifier": "all keys, messages and random values; counted over the nonce of one signer", "why_tests_cant": "The failing nonces are too rare to be met by tests, and a recovery id that is wrong for every thousandth signature would hardly show.", "anchors": ["src/protocols/two_party_ecdsa/lindell_2017/party_one.rs: Signature::compute_with_recid", "src/protocols/multi_party_ecdsa/gg_2020/party_i.rs: LocalSignature::output_signature", "src/protocols/multi_party_ecdsa/gg_2018/party_i.rs: LocalSignature::output_signature"]}
{"id": "C141", "title": "Honest sessions do not use a nonce twice", "statement": "Two signatures with the same nonce disclose the key (C43). Whatever keys, messages, signer sets and nonces of the other signers there are in N signing sessions: if all signers follow the program and in each session one signer draws its nonce independently, the chance that two of the sessions have the same r is at most 2N(N-1)/(q-1), below 2^-126 for 2^64 sessions on secp256k1. This holds for GG18, GG20, Lindell17 and CCLST19.", "quantifier": "all numbers of sessions, keys, messages, signer sets and random values of the others; counted over the nonces of one signer per session", "why_tests_cant": "A lost or repeated contribution to the nonce shows only over all values of the draws.", "anchors": ["src/protocols/multi_party_ecdsa/gg_2020/party_i.rs: SignKeys::create, SignKeys::phase4", "src/protocols/multi_party_ecdsa/gg_2018/party_i.rs: SignKeys::create, SignKeys::phase4, LocalSignature::output_signature", "src/protocols/two_party_ecdsa/lindell_2017/party_one.rs: EphKeyGenFirstMsg::create, Signature::compute", "src/protocols/two_party_ecdsa/cclst_2019/party_one.rs: EphKeyGenFirstMsg::create, Signature::compute"]}
{"id": "C142", "title": "Different key generations give different keys", "statement": "Whatever the numbers of parties, thresholds and random values of the other parties in N key generations: if all parties follow the program and in each key generation one party draws its secret independently, the chance that two of them give the same public key is at most N(N-1)/2 / (q-1) for GG18, GG20, Lindell17 and, when the secret of party two is drawn and party one's number is at least 3, for CCLST19. For CCLST19, when the secret of party one is drawn, it is at most three times that, because party one takes a third of the number it draws. On secp256k1 this is below 2^-127 for 2^64 key generations.", "quantifier": "all numbers of key generations, sizes, thresholds and random values of the others; counted over the secrets of one party per key generation", "why_tests_cant": "A lost contribution to the key, or a secret cut to fewer values, shows only over all values of the draws.", "anchors": ["src/protocols/multi_party_ecdsa/gg_2020/party_i.rs: Keys::create", "src/protocols/multi_party_ecdsa/gg_2020/state_machine/keygen.rs: Keygen", "examples/gg18_keygen_client.rs: main", "src/protocols/two_party_ecdsa/lindell_2017/party_one.rs: KeyGenFirstMsg::create_commitments, compute_pubkey", "src/protocols/two_party_ecdsa/cclst_2019/party_one.rs: KeyGenFirstMsg::create_commitments, compute_pubkey"]}
