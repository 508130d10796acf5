# Formal model of ZenGo-X/multi-party-ecdsa in Lean 4

The source in `/repo` is read as text. Nothing is compiled or run. This file says
what is modelled, how each property in `properties.jsonl` is proved, what is trusted,
and where the code does not have the property.

## 1. Layout

| directory | contents |
|---|---|
| `lean/Verif/Base` | outcome type (`Res`: ok / err / panic), the elliptic-curve interface `EC`, big-integer operations |
| `lean/Verif/Ext` | dependencies that are not in `/repo`: Paillier, Feldman VSS, sigma proofs, `round_based` message stores |
| `lean/Verif/Model` | the model of the code in `/repo`, function by function, each definition citing file and lines |
| `lean/Verif/Spec` | small independent specifications (ECDSA equation, Shamir sharing, abstract queue, ...) |
| `lean/Verif/Lemmas` | helper lemmas |
| `lean/Verif/Props` | the property theorems, one file per group, with a non-vacuity `example` beside each |
| `lean/Verif/Secp256k1` | the real curve: Pratt certificates, group order, the `EC` instance; `Crypto.lean`: the instance with the real curve, SHA-256 and the proofs of zk-paillier |

## 2. Modelling decisions

* **Outcome.** Rust `Result` plus panics become `Res ε α = ok a | err e | panic`.
  `unwrap`, `assert!`, out-of-bounds indexing and `x_coord().unwrap()` of the identity
  are explicit `panic` results.
* **Scalars** are `ZMod q`, **points** are an abelian group with a `ZMod q` action,
  generator `G` and affine coordinates (`class EC`). The laws demanded by the class are
  proved for the real secp256k1 curve (C64), so no group law is assumed. A small curve
  (31 points over the field with 43 elements) is a second instance, used for executable examples.
* **BigInt** is `Int`; moduli are `Nat`.
* **Randomness** is an explicit argument, so "for all randomness" is a quantifier.
* **Hashes** are uninterpreted functions in most theorems. Binding of commitments is never assumed:
  theorems that need it conclude "or these two inputs collide". The theorems on binding (C87, C88)
  are about SHA-256 itself and about the byte strings that are hashed (`Ext/Sha256`, `Ext/Digest`).
* **Paillier** is concrete: `Enc(m;r) = (1+mN) r^N mod N^2`, textbook decryption.
* **Loops** are folds, `&mut` is returning the new value; early exit of
  `iter.map(..).all(..)` is modelled as such because it decides who is blamed.
* **State machines** are modelled literally (`Keygen`, `OfflineStage`: the round enum, the
  message stores, `gmap_queue`, `proceed_round`). A second, generic machine (`Proto.machine`
  in `Model/RoundMachine.lean`) is parametrised by the list of rounds; the histories of the
  literal machines are shown equal to those of the generic one (`Sim`), and the theorems on
  arbitrary histories are proved once for the generic machine and transferred.
* **Servers** are transition systems whose steps are the critical sections between lock
  acquisitions; a schedule is an arbitrary list of steps.
* **Violated properties.** When the code does not have a property, the English statement is
  kept, the manifest says `partial`, a theorem proves the violation with a witness, and a
  `_partial` theorem proves what does hold.

## 3. Plan per property

| id | what is modelled | how it is proved |
|---|---|---|
| C01, C02, C05-C08 | the four `verify` functions, with panics | equivalence with an independent ECDSA predicate over points; case analysis |
| C03 | `output_signature` (GG18, GG20), `SignManual::complete` | the last check implies the ECDSA predicate; normalisation arithmetic |
| C04 | recid computation plus an independent recovery procedure | algebra on points; counterexample at coordinates >= q |
| C09, C17 | Feldman VSS sharing/validation | polynomial evaluation, Horner; Lagrange interpolation |
| C10, C12-C14, C16, C38 | GG20/GG18 keygen phases over arbitrary t, n | polynomial sums, Lagrange at zero; counterexample with a longer commitment vector |
| C11, C40, C42 | check loops with early exit | characterisation of success and of the blamed list |
| C15, C45 | panic outcomes of the phases | explicit malicious inputs; panic-freedom under stated shape conditions |
| C18, C55 | share refresh | algebra |
| C19, C37 | constructors | decision logic |
| C20-C25, C44, C50 | keygen and offline state machines over message stores | invariant: state is a function of the set of delivered messages; induction over histories |
| C26-C28, C36 | MtA over concrete Paillier | ring arithmetic in ZMod N^2, decryption correctness |
| C29-C33 | the range proofs and PDL with slack | completeness by ring arithmetic in unit groups, special soundness from two transcripts |
| C34 | interactive PDL | message-level functions |
| C35 | auxiliary parameters | Euler's theorem |
| C39, C41 | whole offline and online protocol | composition of the phase functions over lists of signers |
| C43 | two signatures from one offline stage | explicit key-extraction formula (the documented use discloses the key); for one signer the formula is `coalitionKey` in `Spec/NonceReuse` |
| C46-C49 | the three blame procedures and state collection | list algebra; framing attack witnesses |
| C51, C52 | GG18 signing phases | composition |
| C53, C54, C56, C57 | Lindell17, CCLST19 | ring arithmetic, decryption correctness, commitment comparison |
| C72–C75 | Lindell17 against a malicious peer | exact panic conditions; plaintext of crafted ciphertexts; equality of ciphertexts for hiding, with the distribution over the samples (`Spec/MessageSecrecy.lean`); MtA lemmas |
| C58-C60 | the demo servers, as interleaving transition systems | invariants by induction; race witnesses |
| C61-C63, C77, C78 | demo clients: keys, polling, retries, room indices | string injectivity; list insertion; induction over request histories; index mismatch witness |
| C64 | the curve itself | Pratt certificates, order of the generator, counting bound, no 2-torsion |
| C65 | networks of `Keygen` / `OfflineStage` machines, arbitrary interleavings of calls | the per-machine theory (C20-C25) gives each machine's behaviour on genuine messages; induction over the global history; the least advanced party can always move; a decreasing measure for completion |
| C66-C67 | both blame procedures together with the nonce and key checks | summation over all pairs of openings; one-challenge lemma for equality-of-logarithms proofs |
| C69-C71 | GG18 key generation checks, `phase4`, `phase5c` | case analysis of the checks as equivalences; violations by concrete messages |
| C76 | one GG18 client composed from its rounds, with arbitrary answers of the server; the lists of checks are in `Spec/GG18Clients.lean` | inversion of each round on an arbitrary successful execution |
| C79 | the size and proof check of party two | case analysis |
| C80 | the two verification functions | the key is determined by the point and `r`; `r = 0` on the real curve |
| C81-C83 | byte encodings of numbers, the message argument, `check_sig` with the verification of libsecp256k1, pairwise AES keys | big-endian encodings are injective; congruences modulo q by evaluation; inversion of round 3 of two clients |
| C84 | the key generation machine of each honest party with arbitrary messages of the others, `Spec/KeygenAgreement.lean` | inversion of the four rounds; two polynomials of degree at most t that agree on t + 1 points; explicit equivocating dealer for the negation |
| C85 | the networks of C65 | composition of C65, C13-C18 and C39 |
| C86 | the interactive PDL proof with the range proof as parameter | inversion of both parties' steps; explicit prover with a large plaintext for the negation |
| C87, C88 | SHA-256, the encodings of numbers and points, commitments, challenges on the real curve; `Spec/Hashing.lean` | the encodings of points are prefix-free; encodings of numbers are not, explicit pairs for the negation |
| C89 | MtA answers to crafted first messages; the attacker's programs are in `Spec/Leak.lean` | arithmetic of the response; a search over 2 L points gives the residue; Chinese remainders; for small plaintexts an injective map of samples to those of a simulator (`Spec/MessageSecrecy.lean`) |
| C90, C91 | the key correctness and logarithm proofs on the real instance; numbers in `Base/BadParams.lean`, the attacker in `Spec/ParamLeak.lean` | roots modulo each prime factor; proofs with a challenge divisible by the order of h1 h2; orders in ZMod P; explicit numbers checked by evaluation |
| C92, C93 | the loop of `AsyncProtocol` (`Ext/AsyncProtocol.lean`) around both machines; `Spec/Driver.lean` says what a run returns | a run of the loop is a schedule of the machine, so that C20, C21, C44 apply; the round at which the machine is decides whether it wants to proceed |
| C94 | several clients, their loops and one room of the server (`Setting` in `Model/Demo/Driver.lean`) | each client has read a prefix of the room, so that it stands as after the same messages in C93; a client that waits lacks a message that its sender can still post; every step posts or reads one of finitely many messages |
| C95 | dealing in key generation; `Spec/Secrecy.lean` computes the commitments from public values | interpolation in the exponent; t values and the secret determine exactly one polynomial of degree at most t |
| C96 | the proofs of `Ext/Sigma.lean`, without the random oracle: accepted and honest proofs are compared as sets | solving for the nonce; the map from nonces to proofs is injective |
| C97 | the proofs about integers with a given challenge, over finite sets of samples; `Spec/ZeroKnowledge.lean` has the simulators | an injective map of samples turns proofs into simulated ones and leaves the sample set for few samples |
| C98 | the clients of C94 and a second room (`Model/Demo/Signing.lean`) in which a client gets the next free index when it has finished the offline stage | C94 for the first room; the log of the second room is a permutation of the partial signatures posted; what a client has collected when it returns is determined by its index |
| C99 | the GG18 clients as programs that post and poll (`Model/Demo/GG18Room.lean`), interleaved arbitrarily on one table, into which other sessions write too; message formats are parameters that can be read back | every client has a list of requests with ranks; values under one key agree (C61), every poll has a post of lower rank; the lists come from the honest run of C16 and C51 |
| C100 | the clients of C76, each with its own view of what the others posted; what honest clients read from each other is what they posted | the shares are the values of the sum of the committed polynomials (C76); violations: towards each victim the dealer acts as an honest one with another polynomial; interpolating degree `t + 1` in `t + 1` points misses the value at zero |
| C101 | the runs of C39 and C51; the numbers that can make a run fail are drawn from the product of their ranges (`Spec/SignDraws.lean`) | a run that does not fail meets the hypotheses of C39/C51; each way to violate one of them is counted with all other draws fixed |
| C102 | the first rounds of the honest signers with arbitrary messages of the others (`Spec/SignSecrecy.lean`), samples as sets | the shares are affine in the masks towards one honest signer, so their residues are determined by the outcome; residues are counted |
| C103 | one room at the granularity of its lock (`Model/Demo/Wakeup.lean`): any number of calls of `publish` and of subscriptions, each suspended between acquiring the lock, looking or storing, making the future or waking, and releasing; `notified()` futures remember how often `notify_waiters` had been called | invariants (a future made under the lock is up to date and nothing is undelivered; whoever sleeps before an undelivered message does so while a publisher holds the lock after storing); a measure that every step decreases; a stuck run under the weaker semantics of futures |
| C104 | the state machines of key generation and of the offline stage, with arbitrary calls and messages | the invariant of the generic round machine (everything sent comes from the straight-line execution up to the current position, and the stores of all rounds before it are full); for the shares, the characterisation of the round-1 checks (C11) |
| C105 | the state machines of GG20 key generation and of the offline stage, two sessions of one party with different random values; the GG18 library functions called with recorded vectors | key generation: the last proof equals the sum of all committed polynomials at its sender's number (C11), the recorded commitments cancel; signing: the check of the share conversion is an equation in the point k G; GG18: the characterisation of the checks (C69) |
| C106 | the state machines of GG20 key generation and of the offline stage (two sessions, or two continuations of one), the GG18 demo clients | the key is the own point plus the opened points (C22, C84), and each opened point fits the accepted commitment (C104, C68, C76); a message accepted once stays the accepted one; the own round-3 message is a function of the accepted messages of rounds 1 and 2 |
| C107 | the verifiers of the four proofs about points (`Ext/Sigma`) under a hash function drawn at random, the last check of GG20 key generation, the nonce exchange of Lindell17 | a prover is a decision tree of hash queries (`Spec/Knowledge`); if no two accepting runs fork at the final query, for every hash function off that query at most one value is accepted, so the count of accepting functions is at most `(n + 1) / q` of all (induction on the tree); a fork gives two equations with different challenges |
| C108 | the functions that make first messages, under a hash function for commitments drawn at random (`Spec/Hiding`) | exchange the value at the committed string with a fresh value: this is a bijection of blinding factor, hash function and fresh value, and the run of the observer stays the same unless it asks for the committed string; of all blinding factors at most `n` are asked for |
| C109 | the filter of the demo client, its event loop, the key generation machine, the GG18 server | violated; a forger that plays all other parties is written down and the run of the client on its messages computed with the lemmas of C94; GG18 from C78 |
| C110 | rooms of demo clients as in C94; the private key as computed from a room's messages is `Spec/OpenRoom` | violated; invariant of all interleavings: the room contains what the clients have sent, then interpolation; the filter keeps only the shares for the client |
| C111 | the model of C26 and C39; a signer that chooses one mask is `Spec/SelectiveFailure` | violated; exact acceptance condition of C26 with the mask `N - B b`; for the whole signing, the rounds of C39 for random values in which one response is unusable |
| C112 | the model of C20; accusations and genuine messages are `Spec/KeygenBlame` | violated in the last round; all ways in which a key generation can end (`keygenLine_cases`), with the exact conditions of C11-C13; for the violation a polynomial that vanishes at all indices but one |
| C113 | the models of C20 and C38 (`keygenLine`, `offlineLine`); whom an error names is `Spec/Culprits` | violated in signing; all errors of each round (`round0_err` to `round6_err`), for the violation a run with `MessageA` without range proofs, and the five anonymous errors one by one in the 31-point group |
| C114 | as C113; two honest signers whose views of broadcasts may differ, `SignGenuineUpTo` and `SameBroadcasts` in `Spec/Culprits` | violated without consistent broadcast (three signers in the 31-point group); otherwise the states of an honest signer are determined by its messages (`At1` to `At6`), completeness of its PDL and ElGamal proofs, equality of the two nonce points |
| C115 | the model of C55 and C57; the program of the dishonest party two is `Spec/ShareAttack` | violated by Lindell17; invariant of the bits found so far: multiplying the rest by the inverse of a power of two modulo N gives an integer exactly if the next bit is 0; for CCLST19 the condition for validity is a linear equation in the share |
| C116 | the model of C53, C57 and C51; the formulas by which a party computes the other's share are `Spec/NonceReuse` | violated; closed form of both parties' values in an honest signing (C53, C57), then two linear equations in the inverse nonce and the share |
| C117 | the models of C10, C16, C39, C51, C53 and C57; `Spec/OneSource` says what it means that every outcome belongs to exactly one draw | the closed forms of public key and nonce point as sums or products of the contributions, which are bijections in each of them |
| C118 | `Model/Backup` and `Ext/Centipede` (segmented encryption); key generation as in C10, C16 and C53 | decryption inverts encryption by induction over the segments; a second session of honest parties with one changed secret has the same backups of the others |
| C119 | refresh and update of C18 and C55; `Spec/Refresh` (two epochs) | a second pair of epochs with another key is built: one party outside of the robbed ones deals another secret with a polynomial through the same shares (C17) |
| C120 | the same state machine with equivocating peers; GG18 phase 5 | the proof an honest signer made for its own nonce point is accepted for another one: the equation modulo N^2 holds for both challenges, which makes them equal (C33), then the equation on points makes the answer zero |
| C121 | the last step of GG20 and GG18 (`output_signature`) on top of C120 | the verification equation determines s up to the sign for a given nonce point, normalisation fixes the sign; violated for the recovery id |
| C122 | the honest run of C10 with one threshold per party (`Spec/MixedThresholds`) | violated; round by round as in C10, the last check compares lengths with the vector of party 1 only; T values of a polynomial of degree T do not interpolate to its value at zero |
| C123 | `offlineEnds` (the rounds of all signers, with the last result of each) | the rounds of an honest run do not depend on the number of signers (lemmas of C39); the last check compares the interpolated secret with the public key; a polynomial of degree `t` is missed by interpolation in `t` points |
| C124 | the key generation functions of all four protocols | the neutral point has a proof of knowledge of 0; honest runs from C10, C16, C53, C57 |
| C125 | `releaseEnds` (the rounds of all GG18 signing clients, with the result of round 9 of each) | the rounds of an honest room do not depend on the number of signers (lemmas of C51); phase 5d compares the interpolated secret with the public key, multiplied by the blinding sum and the x-coordinate |
| C126 | `PdlProver` (a strategy as two functions), `PdlChallenge` (what the verifier draws) | a convinced verifier fixes the challenge: the ciphertext sent to the prover depends only on `a m + b` and on `rx^a r`, and two challenges with the same ciphertext ask for different points; counting |
| C127 | `releaseEnds` with a message per client; `onlineEnds` (what each signer's `complete` returns) | the rounds of an honest room with a message per client; the phase-5d equation is linear in the blinding values, so it is met by at most one in q - 1 of them; ECDSA verification with the x-coordinate of the nonce point means equality up to sign, which gives two linear equations in the nonces |
| C128 | `onlineEnds` over results of two offline sessions | a signer's share of the product of nonce and key is affine in its own nonce with the key as factor, so the sum of the partial signatures is affine in the shift; a signer accepts at most two sums |
| C129 | the state machines of C37 and C68, one per signer, each with its own list and key | what a signer sends in round 2 proves knowledge of its own signing share; a completed stage has compared it with the point that follows from the own list (C68); sums by interpolation; for GG18 (`Spec/ToldNumbers`) from the checks of C76 |
| C130 | `debug` of both machines, from the stores and the queue (`Model/GG20/Debug.lean`); the expected texts in `Spec/Debug.lean` | the invariant of the round machine gives the contents of the stores from the accepted messages; two machines that are equally far have equal texts; round 6 by a concrete history |
| C131 | the state machines of C19 to C25, one per party, each with its own number of parties (`Spec/MixedCounts`) | a message that was sent comes from the round function applied to accepted messages (`Lemmas/KeygenSent`): shares go to known parties only, and the last proof is about the sum of the shares accepted; the last check of a completed run compares it with the commitments (C22); counting of the nonzero secrets for which a sum vanishes; for the GG18 demo clients, a share addressed to a client shows that its sender knows of it, and each of the last posts shows that its sender has read those of the rounds before (`Spec/MixedClients`) |
| C132 | the state machines of C19 to C25 and C37 to C50, two of them under one number (`Spec/StartedTwice`) | a party sends one proof in round 4 and one answer to each signer in round 2 (`Lemmas/SentRounds`, two messages of one round come from one application of the round function); both programs compared the same proof with sums that differ in their own share only, or decrypted the same answer consistently with their own nonce; the converse by constructing the run |
| C133 | the state machines of C37 to C50, two of them with keys of different key generations (`Spec/MixedKeys`) | the answer of round 2 carries the signer's share times the generator, which is compared with the recorded public share (C129); Lagrange coefficients are not zero; the shares of two key generations differ in a polynomial that vanishes at a given point for one value of each coefficient only; for the converse, what was sent stays sent (`Lemmas/SentMono`) and honest signers finish (C65); for GG18 (`Spec/MixedFiles`) from the checks of C76 |
| C134 | the blame procedures of C46-C49 on states in which all signers open what they did (`Spec/BlameExact`); `Model/GG20/BlameRun` prepares these states from a session as the simulation in `test.rs` does | all recomputations succeed, so the verdict is decided by the last comparison; what it compares with is what C47 and C48 show to be an honest signer's value; a proof for another sigma passes only if the challenge is 0 |
| C135 | the state machine of C39; `OfflineStage::new` does not compare its position with the key, and the model does not either | a signer's first message checks the share the other one multiplied with against the public share recorded for the party on the list (C133), in both directions, as the second signer has to pass the same check before it sends what the first one needs; two parties share a share only for one value of one coefficient |
| C136 | the functions of both parties of Lindell17 and CCLST19 (C53, C57); party two's function takes the message, party one's functions have no argument for it | violated: party one's output is valid for party two's message (from the correctness theorems). Checking it with `verify` against another message accepts only if the two verification points have one x-coordinate, so are equal or opposite; the second case fixes the x-coordinate of the nonce point, which two nonces of party one have |
| C137 | as C136; the share and the ciphertext that party two has and the share and the public key that party one has are separate parameters | the output is a signature under the product of the shares that party two uses (C53, C57); a signature accepted for two keys has equal or opposite verification points, so the x-coordinate of the nonce point is 0 or one other value, which four nonces have |
| C138 | as C136; party one's ephemeral key pair and party two's public nonce in party one's session are parameters of their own | decrypting gives `k2'⁻¹ (m + x' d)` for party two's session, whatever party one's nonce is; acceptance gives one of two linear equations for the x-coordinate of party one's nonce point |
| C139 | as C136 | by the correctness theorems (C53, C57) a session fails only if `m + x d = 0` or, for the library's verification, `x ≥ q`; each x-coordinate belongs to two nonces |
| C140 | as C04, C53 and C136 | the exact characterisations of C04 and C53; the nonce points are different for different nonces, each x-coordinate belongs to two points and each y-coordinate to three (cube roots in the field, for secp256k1) |
| C141 | as C117 and C136 | the nonce point is an injective function of one signer's nonce (as in C117); four points share one `r`; then a birthday bound by averaging over all other draws |
| C142 | as C117 | from C117 the key is an injective function of one party's secret (for CCLST19 at most three secrets give one key); then the birthday bound of C141 |
| C68 | the same state machine; the list of checks is `Spec/SignChecks.lean` | inversion of each round on an arbitrary successful execution, transferred to any schedule by C50 |

No property is classified as inexpressible. Probability, timing, secrecy against
computationally bounded adversaries and memory zeroisation are outside the model.

## 4. Trusted base

* Lean's kernel, and the axioms `propext`, `Classical.choice`, `Quot.sound`. No theorem depends
  on any other axiom (`#print axioms`); there is no `sorry`, no `native_decide`, no own axiom.
* That the definitions under `Model` say what the cited lines of Rust say.
* That the definitions under `Ext` and `Base` say what the dependencies do. The
  dependencies are not in `/repo`; they were written down from their documentation and from
  memory of curv-kzen 0.9, kzen-paillier 0.4, zk-paillier 0.4, round-based 0.1:
  * `Base/EC`: a prime-order group with coordinates; `Scalar::from_bigint` reduces modulo q;
    `x_coord()` of the identity is `None`.
  * `Ext/Num`: `BigInt %` truncates; `mod_pow` with negative exponent needs an inverse;
    `mod_inv`, `mod_mul`, `mod_sub` return the least non-negative residue; `to_bytes` drops
    the sign; deserialised integers are non-negative.
  * `Ext/Paillier`: `encrypt` is `(1 + m N) r^N mod N^2` without a range check on `m`;
    decryption by the Chinese remainder theorem; `open` returns plaintext and an N-th root.
  * `Ext/Vss`: Feldman sharing with Horner evaluation; `validate_share` compares points;
    `map_share_to_new_params` does not use its parameter argument; `reconstruct` asserts the
    number of shares.
  * `Ext/Sigma`: DLog, homomorphic ElGamal, Pedersen, ECDDH proofs, with a hash as random oracle
    (an arbitrary function). `NiCorrectKeyProof` and `CompositeDLogProof` are opaque
    predicates with completeness only (for keys without factors up to 6370); their verification may panic.
  * `Ext/ZkPaillier`: those two proofs written out; their completeness is proved, so that the laws of the
    opaque predicates hold for them. `Ext/RangeNi`: the range proof of the interactive PDL proof, opaque; the
    range is a part of the proof, as its verification gets only key and ciphertext.
  * `Ext/Sha256` (checked against three test vectors) and `Ext/Digest`: how curv encodes points (compressed in
    commitments, uncompressed in `chain_points`) and numbers, and makes scalars from digests with a counter.
  * `Ext/AsyncProtocol`: one pass of the loop per incoming message, at most one call of `proceed` in a pass;
    critical errors are returned, others ignored; a panic in `proceed` becomes an error.
  * `Ext/Store`: message stores with one slot per peer, and which errors they return.
  * `Ext/Centipede` (centipede 0.3): segments of a scalar, encrypted with ElGamal in the exponent; decryption tries
    all values of a segment.
  * `Ext/CL`: the class-group encryption scheme of CCLST19, by its homomorphism laws.
  * `Ext/Bytes`: `to_bytes` and `from_bytes` of big integers are big-endian, without leading zeros; the length
    subtraction `32 - len` panics for longer strings.
  * `Ext/LibSecp`: the verification of libsecp256k1 (rejects r = 0, s = 0 and high s); `PublicKey::from_slice` is a
    parameter that parses uncompressed points and rejects strings of other lengths than 33 and 65.
  * `Demo`: AES-GCM decryption inverts encryption for 32-byte keys; JSON reading inverts writing; Rocket may run
    handlers of different requests interleaved at lock boundaries; hash map semantics.
  * `Demo/Wakeup`: `tokio::sync::RwLock` excludes writers from everybody and does not starve a waiting task;
    `Notify::notify_waiters` wakes the futures made by `notified()` before, polled or not (documented by tokio).
* Random values are arguments. Where a theorem needs them non-zero or in range, that is a
  hypothesis (`Scalar::random` never returns zero). C74, C89, C96, C97, C101 and C102 count samples; that
  the library's samplers draw uniformly and independently from these ranges is trusted. C107 and C108 count
  hash functions; that SHA-256 behaves like one drawn at random is the usual assumption.

## 5. What is modelled

| source | modelled | not modelled |
|---|---|---|
| `src/utilities/zk_pdl`, `zk_pdl_with_slack`, `mta` (incl. `range_proofs`) | all functions | tests |
| `gg_2018/party_i.rs` | all functions | tests |
| `gg_2020/party_i.rs`, `blame.rs` | all functions; from `test.rs` the preparation of the blame states (lines 328-386, 550-570, 612-637) | tests |
| `gg_2020/state_machine/keygen*`, `sign*` | all rounds, constructors, `StateMachine` methods, `SignManual`, error kinds | the indented `Debug` format `{:#?}`, simulation tests, `round_timeout` (constant `None`) |
| `two_party_ecdsa/lindell_2017` | all functions | tests |
| `two_party_ecdsa/cclst_2019` | all functions | |
| `examples/gg18_keygen_client.rs`, `gg18_sign_client.rs`, `common.rs` | the protocol run, message argument, encryption helpers and their byte strings, `check_sig`, keys, retries, vector reassembly | file handling |
| `examples/gg18_sm_manager.rs` | all routes | HTTP |
| `examples/gg20_sm_manager.rs` | rooms, subscriptions, indices, broadcasts; waiting and waking (C103) | HTTP, JSON, shutdown |
| `examples/gg20_sm_client.rs`, `gg20_keygen.rs`, `gg20_signing.rs` | filter of incoming messages, the online stage | HTTP, files (in C20, C44 and C65 the event loop of `AsyncProtocol` is an arbitrary sequence of calls; in C92 to C94 it is the loop itself) |
| `benches` | nothing | all |

## 6. Findings

Each is a theorem; the names start with the property id.

* C04: the recovery id is wrong for nonce points with a coordinate of at least q; such points exist on secp256k1.
* C80: verification does not refuse `r = 0`. secp256k1 has a point whose x-coordinate is the group order, so for
  every message there is a pair `(0, s)` that verifies under every key (finding it needs a discrete logarithm).
* C81: the GG18 signing demo panics after signing when the message has more than 32 bytes.
* C82: the signing demos do not hash the data; two printable texts with a common signature are given.
* C11-C15: GG20 key generation does not check the length of commitment vectors (a longer one
  changes the shared secret), and several malformed messages make a peer panic.
* C84: because of that, one equivocating party can make the honest parties finish with different public keys; and
  nothing makes them agree on the auxiliary parameters of a dishonest party.
* C26, C75: MtA shares are wrong when the product plus mask exceeds the Paillier modulus.
* C28: Bob's answer in the share conversion (`MessageB::b`) panics, instead of refusing, on a range
  proof whose response exponentiation has no inverse (`C28_panics`; exactly when: `C28_panics_iff`).
* C29: an honest range proof is rejected when its first response exceeds q^3.
* C30: the range proof of `MessageA` accepts every invertible ciphertext with a constant proof.
* C33: PDL-with-slack proofs can be forged with `s2 = 0`; C42: and can make the verifier panic.
* C34: the string hashed in the interactive PDL proof is ambiguous.
* C37: `OfflineStage::new` accepts signer lists that cannot work.
* C40: phase 4 names only the first offender.
* C41: completion panics in the one case m G + r Y = 0.
* C43: using an offline stage twice discloses the key. One signer that does so discloses it to the other signers (`C43_one_signer_reuse`).
* C45: four ways in which one peer makes all others panic in the offline stage.
* C47, C48: honest signers can be framed in the blame procedures.
* C86: the interactive PDL proof does not check the range that the range proof is about.
* C88: challenges of the integer proofs are hashes of concatenated numbers without separators: bytes can be moved
  from one ciphertext to the next. They do not cover the auxiliary parameters, nor the Paillier key of the PDL proof.
* C89: because of C30, and because an MtA answer contains the point of the mask, a signer can compute another
  signer's key share modulo small numbers from MtA answers, and the whole share from several.
* C90: key correctness proofs are accepted for moduli with any number of prime factors above 6370, for example a
  2048-bit modulus all of whose prime factors are below 12740.
* C91: auxiliary parameters for which the logarithm statement is false are accepted if the challenge is a multiple
  of a small order, which takes some ten thousand trials; then honest signers disclose nonce shares modulo 65537.
* C92: in key generation every error is critical, so that one unexpected message (for example a duplicate) ends a
  client's run.
* C93: in the offline stage rounds 5 and 6 are not tried again after round 4; a two-party client that gets the
  round-5 message before the round-4 message waits forever.
* C96: the proof of knowledge of the opening of a Pedersen commitment publishes its two nonce points separately, so
  that everybody can compute the point of the committed value; in round 3 of GG20 signing this is `sigma_i G`.
* C98: the signing demo as a whole succeeds only for clients that get the same index in both rooms.  The index in
  the online room is given out in the order in which the clients finish the offline stage.  The cause is that of
  C63; here honest clients and a run of them that ends without a signature are given.
* C100: a GG18 dealer can show every client other polynomial commitments (with the same constant term), or too many
  of them.  All clients finish with the same public key, but their shares do not fit together (any offsets, chosen by
  the dealer) or need one more party than the threshold says.  GG20 compares the final proofs with the commitments
  (C84), GG18 does not compare them with anything.
* C105: messages carry no session identifier. The recorded messages of the first three rounds of a GG20
  key generation are accepted in another session; only the last round notices. In GG18 nothing notices: all
  checks of the library pass on recorded messages.
* C106: in signing, a party commits to its point `Gamma_i` in round 1 and opens the commitment in round 4, but
  the proof in its round-2 answer (`MessageB::b_proof`) has the same point as its public key, so all others
  know it before they announce their `delta_i` in round 3. The commitment binds, but it does not hide for as
  long as the protocol intends. Same in GG18.
* C109: the clients of both demos believe the sender field (GG20) or the storage key (GG18) of a message; nobody
  authenticates it. Whoever reaches the server plays all other parties for a client.
* C110: the GG20 demo posts the shares of key generation unencrypted in a room that everybody can subscribe to.
  Unless all parties are needed to sign, the room tells the private key.
* C111: a signer that chooses its mask in the share conversion learns whether another signer's nonce share is below a bound of its choice, from whether signing goes on; the error names nobody. The range proof for responses exists in the code but is not used.
* C112: party 1 can make any party accuse any third party in the last round of key generation, by sending it other polynomial commitments than the others get; the accused party did nothing wrong. The commitments are neither broadcast reliably nor limited in length.
* C113: five errors of the offline stage name nobody, although one signer alone can cause each of them; a first message without range proofs is enough to stop every signing without being named.
* C114: a signer that tells two others different shares of delta in round 3 makes them name each other in round 5, and is named by nobody; the shares of delta are neither committed to nor compared.
* C115: party two of Lindell17 extracts party one's whole share with 256 signings, one bit each, from whether the result is a valid signature. Party one neither demands a proof for the partial signature nor stops after a failure. The same attack does not work against CCLST19.
* C116: the ephemeral key pairs of the two-party protocols can be used twice, and a party that does so discloses its share to the other one, even if the other one's nonces are fresh.
* C117: with party two's share fixed, CCLST19 key generation reaches only a third of the public keys (the bound q/3 is not needed there).
* C118: the backups of GG18 and GG20 contain the summand u_i of the key instead of the signing share x_i. So the backups of t + 1, even of n - 1, parties restore nothing, and a party that lost its signing share cannot restore it from its own backup.
* C121: the last signer to send its partial signature can make two honest signers output the same (r, s) with opposite recovery ids: with the negated sum at one of them, s is normalised to the same value, but the recovery id is flipped.  Neither GG20 nor GG18 checks the recovery id against the public key.
* C122: parties that are started with different thresholds are not told so. If party 1 has the largest one, all of them finish and record different thresholds for one key; otherwise all of them crash. The clients of the GG18 demo always finish.
* C124: neither party of Lindell17 and CCLST19 refuses the neutral point as the other's public share; the
  joint public key is then neutral, and everybody can compute accepted signatures.
* C126: the verifier of the interactive PDL proof accepts a ciphertext of `n - d` for the point `-d G`, although `n` is not zero modulo the group order: the range in the range proof is the prover's choice.
* C130: the debug text of the offline stage omits the messages of round 6: while a signer waits in round 6 the
  text does not tell for how many messages. (Other public types, such as `LocalKey`, `Keys` and `SignKeys`, derive
  `Debug` and print their secret fields; the state machines do not.)
* C136: party one of the two-party protocols completes a signature without being given the message. It signs whatever
  message party two chose; only calling `verify` with its own message afterwards shows a difference.
* C15, C56, C79: key correctness proofs with fewer than eleven roots and composite logarithm statements with
  non-invertible bases make the receiver panic.
* C24: late messages of rounds 3 to 6 are reported as messages of round 2.
* C54: the key generation proof of Lindell17 and CCLST19 is not tied to the share.
* C56: the base point of the PDL proof is not checked.
* C58-C60: races in both demo servers. C63, C77: the GG20 demos mix up two party indices.
* C69-C71: GG18 does not tie three proofs to the values they are about, nor check key sizes.
* C72: a zero nonce is accepted and then causes a panic.
* C73: party one of Lindell17 is a parity oracle for its share.
* C74: party one of Lindell17 can extract the share of party two from one partial signature.
