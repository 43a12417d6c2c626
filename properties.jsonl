{"id": "C01", "title": "Decrypting an encryption returns the plaintext", "statement": "For every secret key, decrypting a ciphertext produced by `encrypt` / `encrypt_element` under the corresponding public key returns exactly the encrypted group element ([v]G for `encrypt(v)`), whatever randomness was drawn.", "quantifier": "all secret keys (including zero), all scalars / elements, all RNG states, all group backends", "why_tests_cant": "the key, plaintext and randomness spaces are of size ~2^252; tests sample a handful", "anchors": ["src/keys/impls.rs: PublicKey::encrypt, PublicKey::encrypt_element, SecretKey::decrypt_to_element", "src/encryption.rs: ExtendedCiphertext::new"]}
{"id": "C02", "title": "Discrete log table lookups are exact", "statement": "`DiscreteLogTable::new(values).get(e)` returns `Some(v)` only if e = [v]G, returns `Some(v)` for e = [v]G for every v in `values`, and returns `None` for every element that is neither the identity nor a multiple of G by a value in `values`. Decrypting an encryption of u64 `v` with a table containing v yields `Some(v)`. (Code answers `Some(0)` for identity even if 0 is not in `values`; recorded as a disagreement with the doc comment.)", "quantifier": "all value lists (any order, duplicates, zero included or not), all group elements", "why_tests_cant": "the table may contain any subset of 2^64 values and the queried element is arbitrary; absence of false answers is a universal statement", "anchors": ["src/encryption.rs: DiscreteLogTable::new, DiscreteLogTable::get", "src/keys/impls.rs: SecretKey::decrypt"]}
{"id": "C03", "title": "Homomorphic evaluation", "statement": "Evaluating any expression built from ciphertexts with +, -, unary -, multiplication by scalar and by u64, `zero()` and `non_blinded()` decrypts to the same expression evaluated on the plaintexts.", "quantifier": "all expression trees of any depth, all leaf ciphertexts and plaintexts, all keys", "why_tests_cant": "the set of expressions is infinite; tests check single operations on samples", "anchors": ["src/encryption.rs: impl ops::Add/Sub/Neg/Mul for Ciphertext, Ciphertext::zero, Ciphertext::non_blinded, ExtendedCiphertext ops", "src/keys/impls.rs: decrypt_to_element"]}
{"id": "C04", "title": "Key arithmetic keeps secret and public parts in step", "statement": "Any sequence of the exposed arithmetic operations on secret keys (add, subtract, scale) and the corresponding operations on public keys (add, scale by scalar / u64) and key pairs (scale) keeps public = [secret]G, with the cached key bytes equal to the encoding of the cached element.", "quantifier": "all finite sequences of operations on all keys", "why_tests_cant": "unbounded operation sequences over a 2^252-size key space", "anchors": ["src/keys/mod.rs: SecretKey ops, PublicKey ops, From<&SecretKey>, Keypair::generate, From<SecretKey> for Keypair, Mul for Keypair, Keypair::into_tuple"]}
{"id": "C05", "title": "Public key parsing accepts exactly valid encodings", "statement": "`PublicKey::from_bytes` returns `InvalidByteSize` iff the length is wrong, otherwise `InvalidGroupElement` iff the bytes do not decode to a group element, otherwise `IdentityKey` iff they decode to the identity, otherwise `Ok` with the decoded element and the very same bytes; `from_bytes(key.as_bytes())` recovers every non-identity key.", "quantifier": "all byte strings of all lengths, all keys", "why_tests_cant": "the input space is all byte strings; error classification must be exhaustive and disjoint", "anchors": ["src/keys/mod.rs: PublicKey::from_bytes, from_element, as_bytes, PublicKeyConversionError"]}
{"id": "C06", "title": "Secret key parsing accepts exactly canonical scalars", "statement": "`SecretKey::from_bytes` succeeds iff the length is the scalar size and the bytes are a canonical scalar encoding; it never panics; it inverts serialization of every secret key.", "quantifier": "all byte strings, all scalars", "why_tests_cant": "all byte strings of all lengths", "anchors": ["src/keys/mod.rs: SecretKey::from_bytes", "src/serde.rs: Serialize/Deserialize for SecretKey"]}
{"id": "C07", "title": "Public key equality is group element equality", "statement": "Two public keys compare equal iff they represent the same group element, for keys obtained by any constructor (parsing, derivation from a secret key, arithmetic), provided the backend decodes only canonical encodings.", "quantifier": "all pairs of public keys obtained by any constructors", "why_tests_cant": "ranges over all pairs of keys and all their construction histories", "anchors": ["src/keys/mod.rs: PartialEq for PublicKey, from_bytes, from_element"]}
{"id": "C08", "title": "Verifiable decryption is complete and agrees with secret key decryption", "statement": "For every key pair and ciphertext, `VerifiableDecryption::new` produces a (decryption, proof) pair such that `CandidateDecryption::verify` on the same transcript accepts it, and `decrypt_to_element` on the result equals `SecretKey::decrypt_to_element`.", "quantifier": "all key pairs, ciphertexts (arbitrary, not necessarily honestly encrypted), transcripts, RNG states, hash functions", "why_tests_cant": "universal over ciphertexts, keys, randomness and transcript contexts", "anchors": ["src/decryption.rs: VerifiableDecryption::new, decrypt_to_element, CandidateDecryption::verify"]}
{"id": "C09", "title": "A wrong decryption share is only accepted on a hash coincidence", "statement": "If a candidate decryption element is not [k]R for the public key [k]G and ciphertext random element R, then verification can accept only if the Fiat-Shamir challenge equals one specific scalar determined by the statement and the proof commitments alone (so for each choice of commitments at most one challenge out of the whole field is accepting).", "quantifier": "all public keys, ciphertexts, wrong candidate elements, proofs, transcripts and hash functions", "why_tests_cant": "soundness ranges over all adversarial proofs; a test can only exhibit particular rejected proofs", "anchors": ["src/decryption.rs: CandidateDecryption::verify", "src/proofs/log_equality.rs: LogEqualityProof::verify"]}
{"id": "C10", "title": "Log equality proof and candidate decryption byte forms round-trip; ciphertext bytes", "statement": "`from_bytes(to_bytes(x)) = Some(x)` for every log equality proof and candidate decryption, and `from_bytes(b) = Some(x)` implies `to_bytes(x) = b` and that b has exactly the documented length; anything else is rejected without panic. `Ciphertext::to_bytes` is the encoding of the random element followed by that of the blinded element.", "quantifier": "all proofs, all byte strings", "why_tests_cant": "all byte strings of all lengths and all scalar pairs", "anchors": ["src/proofs/log_equality.rs: to_bytes, from_bytes", "src/decryption.rs: VerifiableDecryption::to_bytes, CandidateDecryption::from_bytes"]}
{"id": "C11", "title": "Log equality proof completeness", "statement": "Whenever `LogEqualityProof::new` is called with powers ([r]G, [r]K) and secret r and returns, `verify` called with the same arguments and the same initial transcript accepts and leaves the transcript in the same state as the prover's.", "quantifier": "all bases K (including the identity), all secrets, RNG states, transcripts, hash functions and backends", "why_tests_cant": "universal over randomness, challenge values and context", "anchors": ["src/proofs/log_equality.rs: LogEqualityProof::new, verify"]}
{"id": "C12", "title": "Log equality proof soundness", "statement": "If there is no r with powers = ([r]G, [r]K) then for every commitment pair there is at most one challenge for which any response is accepting; hence an accepted proof of a false statement forces the hash output to equal a value that does not depend on the hash function. Two accepting proofs with equal commitments and different challenges yield the discrete log r by an explicit formula.", "quantifier": "all statements, proofs, transcripts, hash functions", "why_tests_cant": "adversarial proofs range over the whole proof space", "anchors": ["src/proofs/log_equality.rs: verify"]}
{"id": "C13", "title": "Fiat-Shamir transcripts bind the context and the statement", "statement": "For each sigma-protocol proof (log equality, possession, commitment equivalence, sum of squares), if one proof object is accepted in two different situations (different preceding transcript of the same length, or different keys / powers / ciphertexts), then two distinct transcript contents with the same challenge (an explicit hash collision) are exhibited.", "quantifier": "all pairs of contexts and statements, all proofs, all hash functions", "why_tests_cant": "universal over pairs of statements and contexts; tests try a few modifications", "anchors": ["src/proofs/log_equality.rs, possession.rs, commitment.rs, mul.rs: verify", "src/proofs/mod.rs: TranscriptForGroup"]}
{"id": "C14", "title": "Proof of possession completeness for any number of keys", "statement": "`ProofOfPossession::new(keypairs)` is accepted by `verify(public keys)` on the same transcript, for any number of keypairs.", "quantifier": "all lists of keypairs of any length, RNG states, transcripts, hash functions", "why_tests_cant": "unbounded number of keys, all randomness", "anchors": ["src/proofs/possession.rs: ProofOfPossession::new, from_keys, verify"]}
{"id": "C15", "title": "Proof of possession is a proof of knowledge", "statement": "From two accepting proofs for the same keys with the same commitments and different challenges the secret key of every listed public key is computed as (s - s')/(c - c').", "quantifier": "all key lists, all pairs of accepting proofs", "why_tests_cant": "statement about all adversarial proofs", "anchors": ["src/proofs/possession.rs: verify"]}
{"id": "C16", "title": "Multi-response proofs reject every wrong shape with the documented error", "statement": "Verification of possession, sum-of-squares, ring and range proofs returns `LenMismatch` with the proof's and the statement's item counts whenever the number of responses (or partial ciphertexts) does not match the statement, before checking anything else, and never panics because of the mismatch.", "quantifier": "all proofs with any number of responses, all statement sizes", "why_tests_cant": "sizes are unbounded and adversarial", "anchors": ["src/proofs/mod.rs: VerificationError::check_lengths", "src/proofs/possession.rs, mul.rs, ring.rs, range.rs: verify"]}
{"id": "C17", "title": "Commitment equivalence proof completeness", "statement": "`CommitmentEquivalenceProof::new` returns the Pedersen commitment [v]G + [r_c]H to the ciphertext's value and a proof accepted by `verify` on the same transcript.", "quantifier": "all values, blindings, bases H, receivers, RNG states, transcripts, hash functions", "why_tests_cant": "universal over randomness and context", "anchors": ["src/proofs/commitment.rs: CommitmentEquivalenceProof::new, verify"]}
{"id": "C18", "title": "Commitment equivalence proof soundness", "statement": "From two accepting proofs with equal commitments and different challenges, explicit v, r, r_c are computed such that the ciphertext is ([r]G, [v]G + [r]K) and the commitment is [v]G + [r_c]H. In particular the committed value and the encrypted value coincide.", "quantifier": "all ciphertexts, commitments, keys, proofs", "why_tests_cant": "statement about all adversarial proofs", "anchors": ["src/proofs/commitment.rs: verify"]}
{"id": "C19", "title": "Sum of squares proof completeness", "statement": "`SumOfSquaresProof::new` for ciphertexts of x_1..x_n and a ciphertext of their sum of squares is accepted by `verify` on the same transcript, for any n.", "quantifier": "all n, all values and randomness, transcripts, hash functions", "why_tests_cant": "unbounded n, all randomness", "anchors": ["src/proofs/mul.rs: SumOfSquaresProof::new, verify, OddItems"]}
{"id": "C20", "title": "Sum of squares proof soundness", "statement": "If the plaintext of the claimed sum ciphertext is not the sum of squared plaintexts, then for every choice of commitments at most one challenge is acceptable, so acceptance forces a specific hash output.", "quantifier": "all ciphertext lists, sum ciphertexts, keys, proofs, transcripts, hash functions", "why_tests_cant": "adversarial proofs over unbounded statement sizes", "anchors": ["src/proofs/mul.rs: verify"]}
{"id": "C21", "title": "Zero encryption proofs are complete and sound", "statement": "`encrypt_zero` yields a ciphertext decrypting to the identity that `verify_zero` accepts; if `verify_zero` accepts a ciphertext that does not decrypt to the identity then the hash hit the unique bad challenge.", "quantifier": "all receivers, randomness, ciphertexts, proofs, hash functions", "why_tests_cant": "universal over keys, ciphertexts, adversarial proofs", "anchors": ["src/keys/impls.rs: encrypt_zero, verify_zero"]}
{"id": "C22", "title": "Ring proofs are complete", "statement": "Ring proofs built by `RingProofBuilder` for any number of rings with any sizes and any claimed indexes, where each ciphertext encrypts the selected admissible value, are accepted by `RingProof::verify`; in particular `encrypt_bool` output is accepted by `verify_bool` and decrypts to the bool.", "quantifier": "all numbers and sizes of rings, all selected indexes, values, keys, RNG states, transcripts, hash functions", "why_tests_cant": "unbounded shapes of proofs, all randomness", "anchors": ["src/proofs/ring.rs: Ring::new, Ring::aggregate, Ring::finalize, RingProofBuilder, RingProof::verify", "src/keys/impls.rs: encrypt_bool, verify_bool"]}
{"id": "C23", "title": "Ring proofs are sound", "statement": "If some ciphertext in an accepted ring proof encrypts none of its admissible values, then every challenge around that ring - each an output of the hash function - equals the unique bad challenge determined by the corresponding commitments (i.e. the prover closed a cycle of hash outputs). In particular an accepted bool proof means the plaintext is 0 or 1 except for this event. Since admissible values are not hashed, they have to be fixed in advance: a prover that may choose the second of two values last makes accepted proofs for ciphertexts of neither value, for any ciphertext with known randomness, context, key and first value.", "quantifier": "all proofs, ring shapes, ciphertexts, transcripts, hash functions", "why_tests_cant": "adversarial proofs over unbounded ring shapes", "anchors": ["src/proofs/ring.rs: RingProof::verify", "src/keys/impls.rs: verify_bool"]}
{"id": "C24", "title": "Ring proof byte form round-trips", "statement": "`RingProof::from_bytes(p.to_bytes()) = Some(p)` for every proof with at least two responses; `from_bytes(b) = Some(p)` implies `p.to_bytes() = b`; lengths that are not a multiple of the scalar size or below three scalars, and any non-canonical scalar, give `None`.", "quantifier": "all proofs, all byte strings of all lengths", "why_tests_cant": "unbounded number of responses, all byte strings", "anchors": ["src/proofs/ring.rs: to_bytes, from_bytes"]}
{"id": "C25", "title": "Range decompositions cover exactly 0..n", "statement": "`RangeDecomposition::optimal(n)` yields rings such that `upper_bound()` is n and the set of sums of one value per ring is exactly {0, ..., n-1}.", "quantifier": "all n with 2 <= n <= 2^64 - 3", "why_tests_cant": "2^64 inputs; optimization is a recursive memoised search", "anchors": ["src/proofs/range.rs: RangeDecomposition::optimal, optimize, combine_mul, just, upper_bound"]}
{"id": "C26", "title": "Every value in range decomposes greedily", "statement": "`decompose(v)` for v < upper bound returns one index per ring, each less than the ring size, with sum of index*step equal to v; `PreparedRange` panics exactly for v >= upper bound.", "quantifier": "all decompositions produced by `optimal`, all v", "why_tests_cant": "pairs (n, v) range over 2^128 combinations", "anchors": ["src/proofs/range.rs: RangeDecomposition::decompose, PreparedRange::decompose"]}
{"id": "C27", "title": "Range decompositions are optimal", "statement": "The decomposition returned by `optimal(n)` has the smallest `proof_size()` among all decompositions of the documented nested form, and among those the smallest number of rings; the pruning estimate never removes an optimum.", "quantifier": "all n, all competing decompositions", "why_tests_cant": "universal over inputs and over all competitors; the pruning bound is an inequality between integer search results and logarithms", "anchors": ["src/proofs/range.rs: optimize, lower_len_estimate, int_lower_len_estimate, proof_size"]}
{"id": "C28", "title": "Range optimization terminates without overflow or underflow", "statement": "For every n in 2..=2^64-3 `optimal(n)` terminates, and no u64 operation in it overflows or underflows and no (debug) assertion fires; `optimal(0)` and `optimal(1)` panic.", "quantifier": "all u64 inputs, debug and release arithmetic", "why_tests_cant": "termination and overflow freedom over the whole u64 range", "anchors": ["src/proofs/range.rs: optimal, optimize"]}
{"id": "C29", "title": "Textual form of a range identifies it", "statement": "Two decompositions with the same `to_string()` (which is what range proofs commit to) are equal, so a range proof transcript binds the exact decomposition.", "quantifier": "all pairs of decompositions with non-zero steps", "why_tests_cant": "injectivity over an infinite set", "anchors": ["src/proofs/range.rs: Display for RangeDecomposition"]}
{"id": "C30", "title": "Range proofs are complete", "statement": "For every range, every value in it and every randomness, `encrypt_range` / `RangeProof::new` / `from_ciphertext` returns a ciphertext decrypting to the value and a proof accepted by `verify_range` / `RangeProof::verify`; values outside the range panic.", "quantifier": "all ranges, values, keys, RNG states, transcripts, hash functions", "why_tests_cant": "universal over ranges, values, randomness", "anchors": ["src/proofs/range.rs: RangeProof::new, from_ciphertext, verify", "src/keys/impls.rs: encrypt_range, verify_range"]}
{"id": "C31", "title": "Range proofs are sound", "statement": "If a range proof is accepted for a ciphertext then the ciphertext decrypts to [x]G for some integer 0 <= x < upper_bound, unless one of the rings closed a cycle of bad hash outputs (see ring soundness).", "quantifier": "all proofs (including those with arbitrary partial ciphertexts), ciphertexts, ranges, transcripts, hash functions", "why_tests_cant": "adversarial proofs", "anchors": ["src/proofs/range.rs: RangeProof::verify"]}
{"id": "C32", "title": "Honest choice ballots verify and carry the choice", "statement": "`EncryptedChoice::single(params, choice)` and `EncryptedChoice::new(params, choices)` produce ballots accepted by `verify`, which returns the option ciphertexts; these decrypt to the selected 0/1 vector. `new` panics exactly when the number of choices is wrong, `single` panics when the choice is out of range.", "quantifier": "all option counts, choices, keys, RNG states, hash functions; both single and multi choice", "why_tests_cant": "unbounded number of options, all randomness", "anchors": ["src/app/choice.rs: EncryptedChoice::single, new, verify, SingleChoice, MultiChoice, ChoiceParams"]}
{"id": "C33", "title": "Accepted choice ballots are well formed", "statement": "If `EncryptedChoice::verify` accepts, every option ciphertext encrypts 0 or 1, and in the single-choice case exactly one of them encrypts 1 (for fewer options than the group order), unless the hash hit a bad challenge / bad cycle. Count mismatch and wrong proofs are reported with the documented error kinds, in the documented order; verify never panics on a total-encoding backend.", "quantifier": "all ballots, parameters, hash functions", "why_tests_cant": "adversarial ballots", "anchors": ["src/app/choice.rs: EncryptedChoice::verify"]}
{"id": "C34", "title": "Homomorphic tallies count accepted ballots", "statement": "Summing the option ciphertexts of any list of accepted single-choice ballots option-wise and decrypting yields, for each option, the number of ballots that selected it; the totals add up to the number of ballots.", "quantifier": "all lists of accepted ballots of any length", "why_tests_cant": "unbounded histories of ballots", "anchors": ["src/app/choice.rs: EncryptedChoice::verify, choices", "src/encryption.rs: Add"]}
{"id": "C35", "title": "Integer square root and quadratic voting parameters", "statement": "`QuadraticVotingParams::new(.., credits)` allots max votes = floor(sqrt(credits)); credits()/max_votes()/options_count() report the configured values; internal integer square root is exact and overflow free for every u64.", "quantifier": "all u64 credits", "why_tests_cant": "2^64 inputs", "anchors": ["src/app/quadratic_voting.rs: isqrt, QuadraticVotingParams::new, credits, max_votes, set_max_votes"]}
{"id": "C36", "title": "Honest quadratic ballots verify", "statement": "`QuadraticVotingBallot::new` with votes each <= max votes and sum of squares <= credits is accepted by `verify`, which returns vote ciphertexts decrypting to the votes.", "quantifier": "all option counts, votes, credits, keys, randomness, hash functions", "why_tests_cant": "unbounded options, all randomness", "anchors": ["src/app/quadratic_voting.rs: QuadraticVotingBallot::new, verify"]}
{"id": "C37", "title": "Accepted quadratic ballots respect the credit budget over the integers", "statement": "If `verify` accepts then there are integers v_i in 0..=max_votes encrypted by the options with sum of v_i^2 <= credits as integers (no modular wrap-around when options*max_votes^2 is below the group order), unless a bad hash event occurred.", "quantifier": "all ballots, parameters, hash functions", "why_tests_cant": "adversarial ballots; wrap-around is a number-theoretic universal", "anchors": ["src/app/quadratic_voting.rs: QuadraticVotingBallot::verify", "src/proofs/mul.rs", "src/proofs/range.rs"]}
{"id": "C38", "title": "Ballot errors are reported deterministically", "statement": "`QuadraticVotingBallot::verify` reports options count mismatch first, then the smallest failing option index, then the credit range, then the equivalence proof; `EncryptedChoice::verify` reports count mismatch, then the sum proof, then the range proof.", "quantifier": "all ballots with any combination of defects", "why_tests_cant": "all combinations of defects and sizes", "anchors": ["src/app/quadratic_voting.rs: verify", "src/app/choice.rs: verify"]}
{"id": "C39", "title": "Any threshold of decryption shares recombines", "statement": "For any polynomial of degree < threshold, any `threshold` shares with distinct indexes, supplied in any order (further shares are ignored), `Params::combine_shares` returns the element [x]R where x is the shared secret, so that decryption gives the plaintext.", "quantifier": "all parameters 0 < t <= n below group order, all polynomials, all t-subsets in all orders, all ciphertexts", "why_tests_cant": "exponentially many subsets and orders, all polynomials", "anchors": ["src/sharing/mod.rs: lagrange_coefficients, Params::combine_shares"]}
{"id": "C40", "title": "Combining shares: boundary behaviour", "statement": "`combine_shares` returns `None` iff fewer than `threshold` shares are supplied; panics iff there are enough and one of the first `threshold` has an index >= `shares`; never inverts zero, even for repeated indexes. (Repeated indexes silently give a wrong result; indexes past the first `threshold` are never checked; both recorded as disagreements with docs.)", "quantifier": "all share lists of any length, all indexes", "why_tests_cant": "all lists of any length", "anchors": ["src/sharing/mod.rs: Params::combine_shares, lagrange_coefficients"]}
{"id": "C41", "title": "Fewer than threshold shares reveal nothing", "statement": "For any fewer than t shares with distinct non-zero points and any candidate secret there is a sharing polynomial of degree < t consistent with the shares and the secret (exactly one for t-1 shares).", "quantifier": "all share sets of size < t, all candidate secrets", "why_tests_cant": "perfect secrecy is a statement about all secrets and share sets", "anchors": ["src/sharing/participant.rs: Dealer::secret_share_for_participant"]}
{"id": "C42", "title": "Dealer output is accepted by everybody", "statement": "For every dealer, `PublicKeySet::new(params, public_info)` succeeds with shared key [secret]G, and for each index i < n `ActiveParticipant::new` accepts `secret_share_for_participant(i)`; it rejects every other secret with `InvalidSecret`.", "quantifier": "all params, polynomials, indexes, candidate secrets", "why_tests_cant": "universal over polynomials, n, t, i and over wrong shares", "anchors": ["src/sharing/participant.rs: Dealer, ActiveParticipant::new", "src/sharing/key_set.rs: PublicKeySet::new, validate"]}
{"id": "C43", "title": "Key sets restored from participants are accepted iff consistent", "statement": "`PublicKeySet::from_participants(params, keys)` succeeds iff there are exactly n keys lying on a public polynomial of degree < t; the restored shared key is that polynomial's value at 0; otherwise the error is `ParticipantCountMismatch` / `MalformedParticipantKeys`.", "quantifier": "all params 0 < t <= n below group order, all key lists", "why_tests_cant": "all key tuples; interpolation identity for all n, t", "anchors": ["src/sharing/key_set.rs: PublicKeySet::from_participants"]}
{"id": "C44", "title": "Decryption shares verify and bind to participant", "statement": "A share produced by `ActiveParticipant::decrypt_share` is accepted by `PublicKeySet::verify_share` for the same index and ciphertext; a share differing from [x_i]R is accepted only on a bad hash challenge; participant proofs of possession verify for the same index.", "quantifier": "all key sets, participants, ciphertexts, candidate shares, randomness, hash functions", "why_tests_cant": "universal over ciphertexts and adversarial shares", "anchors": ["src/sharing/participant.rs: decrypt_share, proof_of_possession", "src/sharing/key_set.rs: verify_share, verify_participant, commit"]}
{"id": "C45", "title": "End-to-end threshold decryption", "statement": "For every dealer, every plaintext encrypted to the shared key, and every list of at least t decryption shares from distinct active participants in any order, combining and decrypting returns the plaintext.", "quantifier": "all n, t, polynomials, plaintexts, subsets, orders, randomness", "why_tests_cant": "exponentially many subsets; all randomness", "anchors": ["src/sharing/mod.rs", "src/sharing/participant.rs", "src/sharing/key_set.rs", "src/decryption.rs: decrypt_to_element"]}
{"id": "C46", "title": "DKG state reached by any history is consistent", "statement": "After any sequence of successful and failed insert operations in each phase, the accumulated share of participant i equals the sum of own and received shares, every accepted share matches the sender's public polynomial, and the lists of missing commitments / polynomials / shares are exactly the indexes not yet successfully inserted; failed operations leave the state unchanged.", "quantifier": "all sequences of operations with arbitrary (adversarial) arguments", "why_tests_cant": "unbounded histories of adversarial messages", "anchors": ["src/dkg.rs: ParticipantCollectingCommitments, ParticipantCollectingPolynomials, ParticipantExchangingSecrets"]}
{"id": "C47", "title": "DKG completes and participants agree", "statement": "In every reachable state with no missing shares `complete()` succeeds (neither `InconsistentPublicShares` nor a panic is possible); the resulting secret share is [sum_j P_j](i+1), the shared key is the sum of constant terms, participants that accepted the same polynomials get equal key sets, and any t of them can decrypt.", "quantifier": "all parameters, all message histories and orders, all participants", "why_tests_cant": "unbounded histories and numbers of participants", "anchors": ["src/dkg.rs: complete", "src/sharing/key_set.rs: from_participants"]}
{"id": "C48", "title": "DKG commitments bind", "statement": "If polynomials with two different constant terms (or with two openings) are accepted for one participant under one commitment, an explicit SHA-256 collision is exhibited; an info whose opening does not hash to the stored commitment is rejected with `InvalidCommitment`.", "quantifier": "all commitments, openings, polynomials", "why_tests_cant": "statement about all pairs of openings", "anchors": ["src/dkg.rs: create_commitment, insert_public_polynomial"]}
{"id": "C49", "title": "DKG phases advance only when complete and misuse panics as documented", "statement": "`finish_commitment_phase`, `finish_polynomials_phase` and `complete` panic iff something is missing; `insert_commitment` panics iff the index is out of bounds or already provided; `insert_secret_share` returns `DuplicateShare` for a repeated sender and `InvalidSecret` for a share not matching the sender's polynomial. (Insertion of an empty polynomial panics; an earlier polynomial can be overwritten; recorded as findings.)", "quantifier": "all states and arguments", "why_tests_cant": "all reachable states and arguments", "anchors": ["src/dkg.rs"]}
{"id": "C50", "title": "Verifiers never panic on adversarial proofs", "statement": "For backends whose element encoding is total (Ristretto, Curve25519 subgroup), every verification entry point returns a result (no panic) for every deserializable input. For backends with SEC1 encoding (`Generic`) this fails: the identity has no fixed-size encoding, so the log equality verifier panics on the all-zero proof and the range verifier on a partial ciphertext equal to the ciphertext (recorded as a finding).", "quantifier": "all proofs, statements, transcripts", "why_tests_cant": "absence of panics over all adversarial inputs", "anchors": ["src/group/generic.rs: serialize_element", "src/proofs/*.rs: verify", "src/decryption.rs: verify", "src/app/*.rs: verify"]}
{"id": "C51", "title": "Proofs are zero-knowledge: transcripts can be simulated exactly", "statement": "For every challenge, the map from prover randomness to response is a bijection and commitments are determined by challenge, response and statement alone; so the distribution of (commitments, challenge, response) does not depend on the witness. For bool/ring proofs the set of proofs obtainable does not depend on which admissible value is encrypted.", "quantifier": "all statements, witnesses, challenges", "why_tests_cant": "distribution equality over the whole randomness space", "anchors": ["src/proofs/log_equality.rs", "src/proofs/possession.rs", "src/proofs/commitment.rs", "src/proofs/mul.rs", "src/proofs/ring.rs"]}
{"id": "C52", "title": "Serde helpers round-trip and reject malformed input", "statement": "Deserializing the serialization of a scalar, element, key, key pair, opening or vector of scalars / elements returns the original (non-identity for public keys; at least the minimum length for vectors), in both human-readable and binary formats; vectors shorter than the minimum, wrong byte lengths and non-canonical encodings are rejected.", "quantifier": "all values, vectors of all lengths, all byte strings", "why_tests_cant": "unbounded vectors and all byte strings", "anchors": ["src/serde.rs"]}
{"id": "C53", "title": "Group helper operations compute what they say", "statement": "`multi_mul`, `vartime_multi_mul`, `vartime_double_mul_generator`, `invert_scalars` default implementations compute the sum of scaled elements, [k]K + [r]G and elementwise inverses for inputs of any length.", "quantifier": "all scalar / element sequences", "why_tests_cant": "unbounded sequences", "anchors": ["src/group/mod.rs: Group default methods, ScalarOps::invert_scalars"]}
{"id": "C54", "title": "Multi-option tallies under threshold keys", "statement": "For any list of accepted ballots encrypted to a threshold shared key, summing, producing decryption shares by any t participants, combining and looking up in a table 0..=N returns the exact vote count of each option.", "quantifier": "all ballots lists up to table size, all t-subsets", "why_tests_cant": "unbounded histories, all subsets", "anchors": ["tests/integration/sharing.rs: assert_votes", "src/sharing/mod.rs", "src/app/choice.rs"]}
{"id": "C55", "title": "Log equality proofs: soundness bound against q hash queries", "statement": "For a hash function chosen uniformly at random, any algorithm making at most q hash evaluations outputs an accepted log equality proof of a false statement (key, statement and context of its choice) with probability at most (q+1)/|F|; likewise for accepted wrong decryptions, accepted proofs of encryption of zero for a nonzero plaintext, and accepted wrong decryption shares.", "quantifier": "all adaptive algorithms with q hash queries, all q", "why_tests_cant": "a probability over all hash functions and all attack strategies cannot be sampled: the bound is around 2^-250", "anchors": ["src/proofs/log_equality.rs: LogEqualityProof::verify", "src/decryption.rs: CandidateDecryption::verify", "src/keys/impls.rs: verify_zero", "src/sharing/key_set.rs: verify_share"]}
{"id": "C56", "title": "Sum of squares proofs: soundness bound against q hash queries", "statement": "Any algorithm making at most q hash evaluations outputs an accepted sum of squares proof for ciphertexts that do not encrypt x_1..x_n and the sum of x_i^2 with probability at most (q+1)/|F|.", "quantifier": "all adaptive algorithms with q hash queries, all q, any number of ciphertexts", "why_tests_cant": "a probability over all hash functions and all attack strategies cannot be sampled: the bound is around 2^-250", "anchors": ["src/proofs/mul.rs: SumOfSquaresProof::verify"]}
{"id": "C57", "title": "Ring and bool proofs: soundness bound against q hash queries", "statement": "For a key, context and admissible values fixed in advance (rings of at least 2 values), any algorithm making at most q hash evaluations outputs an accepted ring proof although a ciphertext encrypts none of its admissible values with probability at most C(N,2)/|F|, N = q + sum(size-1) + 1; for `verify_bool` N = q + 2.", "quantifier": "all adaptive algorithms with q hash queries, all q, any number and size of rings", "why_tests_cant": "a probability over all hash functions and all attack strategies cannot be sampled: the bound is around 2^-250", "anchors": ["src/proofs/ring.rs: RingProof::verify", "src/keys/impls.rs: verify_bool"]}
{"id": "C58", "title": "Range proofs: soundness bound against q hash queries", "statement": "Any algorithm making at most q hash evaluations outputs a proof accepted by `verify_range` for 0..n although the ciphertext encrypts no integer from the range with probability at most C(N,2)/|F|, N = q + sum(size-1) + 1 over rings of the decomposition.", "quantifier": "all adaptive algorithms with q hash queries, all q, all ranges", "why_tests_cant": "a probability over all hash functions and all attack strategies cannot be sampled: the bound is around 2^-250", "anchors": ["src/proofs/range.rs: RangeProof::verify", "src/keys/impls.rs: verify_range"]}
{"id": "C59", "title": "Poll ballots: soundness bound against q hash queries", "statement": "Any algorithm making at most q hash evaluations outputs an accepted single-choice ballot that does not encrypt exactly one 1 among zeros with probability at most C(q+o+1,2)/|F| + (q+1)/|F| for o options; an accepted multi-choice ballot that does not encrypt zeros and ones with probability at most C(q+o+1,2)/|F|.", "quantifier": "all adaptive algorithms with q hash queries, all q, any number of options", "why_tests_cant": "a probability over all hash functions and all attack strategies cannot be sampled: the bound is around 2^-250", "anchors": ["src/app/choice.rs: EncryptedChoice::verify"]}
{"id": "C60", "title": "Quadratic voting ballots: soundness bound against q hash queries", "statement": "Any algorithm making at most q hash evaluations outputs an accepted quadratic voting ballot that does not encrypt votes within limits, with cost within the credit, with probability at most the sum of bounds of its o + 1 range proofs and the credit equivalence proof.", "quantifier": "all adaptive algorithms with q hash queries, all q, all parameters", "why_tests_cant": "a probability over all hash functions and all attack strategies cannot be sampled: the bound is around 2^-250", "anchors": ["src/app/quadratic_voting.rs: QuadraticVotingBallot::verify"]}
{"id": "C61", "title": "Elections with threshold decryption: bound on a wrong accepted result", "statement": "If an algorithm making at most q hash evaluations supplies up to L ballots and all decryption shares, the probability that all are accepted and the combined, looked up result differs from a tally of valid votes (one per ballot) is at most L times the ballot bound plus o*t*(q+1)/|F|; for single-choice, multi-choice and quadratic voting.", "quantifier": "all adaptive algorithms with q hash queries, any numbers of ballots, options, participants", "why_tests_cant": "a probability over all hash functions and all attack strategies cannot be sampled: the bound is around 2^-250", "anchors": ["src/app/choice.rs", "src/app/quadratic_voting.rs", "src/sharing/mod.rs: combine_shares", "src/sharing/key_set.rs: verify_share"]}
{"id": "C62", "title": "Range decompositions do not depend on the build", "statement": "`RangeDecomposition::optimal(n)` returns the same rings in builds with `std` (pruned by an f64 estimate) and without (integer estimate), in debug and release, including the choice among equally good decompositions. The f64 estimate ceil(3*log2(n)) never exceeds the length of a decomposition despite rounding, provided log2 is exact for powers of two and has error at most 2^-10; if log2(4) were above 2, `optimal(4)` would panic in debug builds.", "quantifier": "all n in 2..=2^64-3, all functions log2 within the tolerance", "why_tests_cant": "prover and verifier may be different builds; equality of all 2^64 decompositions and all rounding behaviours cannot be enumerated", "anchors": ["src/proofs/range.rs:238-323: optimize, lower_len_estimate, int_lower_len_estimate"]}
{"id": "C63", "title": "Group implementations meet the contract of the Group trait", "statement": "`Generic<C>` over a Weierstrass curve of odd prime order, `Curve25519Subgroup` and `Ristretto` satisfy what the rest of the crate assumes: prime order, fixed-size encodings, decoding inverts encoding, canonical scalars. `Generic` panics when serializing exactly the identity and never decodes the identity; `Curve25519Subgroup` decodes only multiples of the base point and rejects an element shifted by a point of small order. Which byte strings decode to which element is characterized; element encodings are canonical for Ristretto and for SEC1 without compact points. Violations: with compact points (tag 5) the same public key has two encodings whose `PublicKey`s are unequal; the identity of `Curve25519Subgroup` has several encodings.", "quantifier": "all curves, all points, all byte strings", "why_tests_cant": "tests use a few points of two curves; all byte strings cannot be enumerated", "anchors": ["src/group/generic.rs:32-105", "src/group/curve25519.rs:35-150", "src/group/ristretto.rs:24-150", "src/keys/mod.rs: PublicKey::from_bytes"]}
{"id": "C64", "title": "Challenges and random scalars are almost uniform", "statement": "For Ristretto and Curve25519Subgroup, reducing twice as many uniform bytes as a scalar has gives every scalar from the same number of byte strings up to one, both in `generate_scalar` and in `scalar_from_random_bytes`; the statistical distance from uniform is at most l/(2*256^64), below 2^-259.", "quantifier": "all scalars, all group orders", "why_tests_cant": "2^512 byte strings", "anchors": ["src/group/ristretto.rs:28-38", "src/group/curve25519.rs:39-49"]}
{"id": "C65", "title": "Honest elections end to end under any key set", "statement": "Ballots created by `EncryptedChoice::new` (multi-choice) or `QuadraticVotingBallot::new` for the shared key of a key set are accepted; any t distinct participants who passed `ActiveParticipant::new` produce decryption shares that are accepted, and combining them and looking up the result yields exactly the number of ballots selecting the option, or the total of votes. The key set may come from a dealer, from distributed key generation (all participants of an honest run are participants of one key set for the sum of all secrets) or from participant keys.", "quantifier": "all key sets, all participants, all votes, any numbers of ballots and options, all rng states", "why_tests_cant": "a probability over all hash functions and all attack strategies cannot be sampled: the bound is around 2^-250", "anchors": ["src/sharing/mod.rs: combine_shares", "src/sharing/participant.rs: ActiveParticipant", "src/dkg.rs", "src/app/choice.rs", "src/app/quadratic_voting.rs"]}
{"id": "C66", "title": "Encryption hides messages", "statement": "For messages the attacker chooses from a freshly generated public key, the difference between its probabilities to output 1 on encryptions of one or another sequence of n messages is exactly a sum of advantages in the decisional Diffie-Hellman game of explicit algorithms that call the attacker once; if these advantages are at most e, it is at most 2*n*e.", "quantifier": "all attackers (as functions to probabilities), all numbers of messages, all groups", "why_tests_cant": "a statement about probabilities over all keys, randomness and attackers", "anchors": ["src/keys/impls.rs:16-28: PublicKey::encrypt", "src/encryption.rs:310-327: ExtendedCiphertext::new", "src/keys/mod.rs:285-291: Keypair::generate"]}
{"id": "C67", "title": "Ballots hide votes (random oracle model)", "statement": "For a random hash function, an honest EncryptedChoice together with the hash function has exactly the distribution of a simulated one, built from the ciphertexts without knowing the selection: scalars of the proofs uniformly random, the hash function changed at one place per proof. Hence for selections chosen from the public key by the attacker, who sees the ballots of n voters and all of the hash function, the difference of its probabilities to output 1 for two assignments of votes is exactly a sum of advantages of explicit algorithms in the decisional Diffie-Hellman game.", "quantifier": "all attackers, all numbers of voters and options, single and multiple choice, all groups with total encodings", "why_tests_cant": "a statement about probabilities over all keys, randomness, hash functions and attackers", "anchors": ["src/app/choice.rs:313-349: EncryptedChoice::new", "src/proofs/ring.rs", "src/proofs/log_equality.rs"]}
{"id": "C68", "title": "Elections with published results hide everything but the results (random oracle model)", "statement": "If the key holder publishes verifiable decryptions of the totals of all options (in different transcripts), then ballots, decryptions, proofs and the random hash function are distributed exactly as if decryptions and proofs were made from the numbers of votes without the secret key. Hence for two assignments of votes with the same numbers of votes, the difference of the attacker's probabilities to output 1 is exactly a sum of advantages of explicit algorithms in the decisional Diffie-Hellman game. If transcripts of different options are equal, both hold up to binom(o, 2)/|F| (twice that for the difference), for o options. All voters must follow the protocol: a copied ballot is accepted, and totals including it reveal selections.", "quantifier": "all attackers, all numbers of voters and options, single and multiple choice, all transcripts, all groups with total encodings", "why_tests_cant": "a statement about probabilities over all keys, randomness, hash functions and attackers", "anchors": ["src/decryption.rs:89-110: VerifiableDecryption::new", "src/app/choice.rs:313-349: EncryptedChoice::new"]}
{"id": "C69", "title": "Elections with a shared key hide votes from fewer participants than the threshold (random oracle model)", "statement": "A dealer shares a key, participants publish proofs of possession, voters publish ballots, all participants publish decryption shares of all totals with proofs. All of this, together with the secret shares of any t-1 participants, can be made from the ballots and the numbers of votes without further secrets: the probability of any outcome changes by at most binom(1+n+n*o, 2)/|F| (two proofs hash the same data). Hence for two assignments of votes with the same numbers of votes, the attacker's advantage is at most a sum of advantages of explicit algorithms in the decisional Diffie-Hellman game plus twice this term. The number of shares is sharp: with t shares, an attacker decrypts every ballot.", "quantifier": "all attackers, all parameters, all sets of t-1 participants, all numbers of voters and options, single and multiple choice", "why_tests_cant": "a statement about probabilities over all keys, polynomials, randomness, hash functions and attackers", "anchors": ["src/sharing/participant.rs: Dealer, ActiveParticipant", "src/sharing/key_set.rs: PublicKeySet::new", "src/app/choice.rs:313-349: EncryptedChoice::new", "src/proofs/possession.rs", "src/proofs/log_equality.rs"]}
{"id": "C70", "title": "Provers know their secrets (random oracle model)", "statement": "Whoever produces accepted log equality proofs, proofs of possession, commitment equivalence proofs or sum-of-squares proofs with probability e, for statements and contexts of their choice and with n evaluations of a random hash function, can be run twice (the second time with another hash value of the data hashed for the first proof), and explicit formulas compute the discrete logarithm, all secret keys, value, randomness and blinding factor, or the values and the randomness of all ciphertexts with probability at least e^2/(n+1) - e/|F|. Hence proofs of possession for keys including a random element of unknown discrete logarithm yield an algorithm for discrete logarithms. The loss e/|F| cannot be avoided.", "quantifier": "all provers, all statements, contexts and numbers of keys, all numbers of evaluations", "why_tests_cant": "a statement about probabilities over all hash functions and provers", "anchors": ["src/proofs/log_equality.rs: LogEqualityProof::verify", "src/proofs/possession.rs: ProofOfPossession::verify", "src/proofs/commitment.rs: CommitmentEquivalenceProof::verify", "src/proofs/mul.rs: SumOfSquaresProof::verify"]}
{"id": "C71", "title": "The wire format", "statement": "For every serializable struct, serialization writes a map with the documented field names in the documented order (the fields of the ring proof being fields of the range proof itself), and deserialization returns a value exactly for maps that contain each of these fields once, in any order and among unknown ones, with contents of the right kind: canonical scalars, encodings of elements of the right size, sequences with the minimum number of items, null for an absent value.", "quantifier": "all values, all data, all formats and groups", "why_tests_cant": "other implementations and stored data depend on the format; round trips of one implementation do not see it change", "anchors": ["src/serde.rs", "src/encryption.rs:95-101", "src/decryption.rs:73-78", "src/proofs/*.rs: derived Serialize and Deserialize", "src/app/*.rs", "src/sharing/*.rs", "src/dkg.rs"]}
{"id": "C72", "title": "Text representation of bytes", "statement": "Base64url text (crate base64ct, strict decoding without padding) is decoded exactly if all characters are in the alphabet and their bits are the bits of the result followed by less than six zeros; encoding writes the only such text. Hence text formats satisfy the assumptions of the round trips, and there is a single text for a scalar and for an element with canonical encoding: serialized proofs and ciphertexts are not malleable in text form.", "quantifier": "all byte strings and all texts", "why_tests_cant": "infinitely many texts", "anchors": ["src/serde.rs:19-28: serialize_bytes", "src/serde.rs:30-80: deserialize_bytes"]}
{"id": "C73", "title": "Range encryption hides values (random oracle model)", "statement": "For a random hash function, a ciphertext with an honest range proof, together with the hash function, has exactly the distribution of a simulated one, built from the ciphertexts of the rings without knowing value or randomness: scalars of the proof uniformly random, the hash function changed at one place. Hence for values in the range chosen from the public key by the attacker, who sees n ciphertexts with proofs and all of the hash function, the difference of its probabilities to output 1 for two sequences of values is exactly a sum of advantages of explicit algorithms in the decisional Diffie-Hellman game, one per ring and value.", "quantifier": "all attackers, all ranges with any decomposition, all contexts, all numbers of values, all groups with total encodings", "why_tests_cant": "a statement about probabilities over all keys, randomness, hash functions and attackers", "anchors": ["src/proofs/range.rs:462-545: RangeProof::new, from_ciphertext", "src/keys/impls.rs:124-141: PublicKey::encrypt_range", "src/proofs/ring.rs"]}
{"id": "C74", "title": "Quadratic-voting ballots hide votes (random oracle model)", "statement": "For a random hash function and admissible votes chosen from the public key by the attacker, who sees the ballots of n voters and all of the hash function, the difference of its probabilities to output 1 for two assignments of votes is exactly a sum of advantages of explicit algorithms in the decisional Diffie-Hellman game, two per ring of each encrypted vote and of each encrypted credit. Hence the attacker's advantage is at most 2*n*(o*r + r')*e, if these algorithms have advantages of at most e.", "quantifier": "all attackers, all parameters (options, credits, maximal votes, decompositions), all numbers of voters, all groups with total encodings", "why_tests_cant": "a statement about probabilities over all keys, randomness, hash functions and attackers", "anchors": ["src/app/quadratic_voting.rs:234-285: QuadraticVotingBallot::new", "src/proofs/range.rs:462-545: RangeProof::new", "src/proofs/mul.rs:107-175: SumOfSquaresProof::new"]}
{"id": "C75", "title": "Elections with quadratic voting hide everything but the totals (random oracle model)", "statement": "If the key holder publishes verifiable decryptions of the totals of votes of all options, then quadratic-voting ballots, decryptions, proofs and the random hash function are distributed exactly as if decryptions and proofs were made from the totals without the secret key. Hence for two assignments of admissible votes with the same totals, the difference of the attacker's probabilities to output 1 is a sum of advantages of explicit algorithms in the decisional Diffie-Hellman game; in particular the credits used by voters and their sum stay hidden. With a key shared by a dealer, the same holds for an attacker who knows the secret shares of t-1 participants and sees all published data, up to 2*binom(1+n+n*o, 2)/|F|; with t shares votes are decrypted.", "quantifier": "all attackers, all parameters, all transcripts, all sets of t-1 participants, all numbers of voters and options", "why_tests_cant": "a statement about probabilities over all keys, polynomials, randomness, hash functions and attackers", "anchors": ["src/app/quadratic_voting.rs:234-285: QuadraticVotingBallot::new", "src/decryption.rs:89-110: VerifiableDecryption::new", "src/sharing/participant.rs: Dealer, ActiveParticipant", "src/sharing/key_set.rs: PublicKeySet::new"]}
{"id": "C76", "title": "The example programs run and print exact tallies", "statement": "For every random generator, examples/voting.rs with total encodings runs without panicking (all unwraps and assertions hold) exactly if there are options (and credits), and the threshold is positive and at most the number of talliers; the printed tallies are the exact numbers of choices, respectively sums of votes, for each option, and all cast votes respect the credits. The loop distributing credits ends after at most credits + 1 iterations. The parser of talliers accepts exactly two decimal numbers separated by a slash. examples/range.rs decrypts five values below 100. Without votes the polls panic in groups that cannot encode the identity.", "quantifier": "all arguments (numbers of options, votes, talliers, credits), all random generators, all groups", "why_tests_cant": "depends on random choices and all arguments; examples are run by hand with default arguments", "anchors": ["examples/voting.rs", "examples/range.rs"]}
{"id": "C77", "title": "Transcripts hash unambiguously", "statement": "The STROBE-128 sponge as used by Merlin never indexes outside of its state, and panics exactly for messages of 4 GiB or more. If challenges are read from states with the same capacity, then labels and all operations before them are the same, or else the evaluations of the permutation contain an inner collision: two different inputs with the same last 32 bytes of the outputs, or one with 32 zero bytes. In particular splitting of labels, messages and lengths is unambiguous across blocks, and reading a challenge is part of the input of later challenges. An attacker with q evaluations of a random function finds such transcripts with m blocks with probability at most (q+m)(q+m+1)/2^257. Appending messages and reading challenges in the crate acts on logs as on STROBE states.", "quantifier": "all labels, messages and sequences of operations, all permutations, all attackers", "why_tests_cant": "collisions of the framing would be attacks on Fiat-Shamir that no test hits by chance", "anchors": ["src/proofs/mod.rs:46-107: TranscriptForGroup", "Cargo.toml: merlin"]}
{"id": "C78", "title": "The groups with their actual parameters", "statement": "secp256k1 has exactly n points, n prime; the Edwards form of Curve25519 has exactly 8l points, l prime, and the multiples of the base point are exactly the l points killed by l; Ristretto255 (doubled points modulo points of order dividing 4) has exactly l elements. The three implementations of `Group` with these parameters meet the contract assumed by all other properties. The codec of RFC 9496 is canonical: all representatives are encoded the same, different elements differently, and decoding accepts the encodings only. Every element of `Curve25519Subgroup` but the identity has exactly one encoding, and the identity has exactly four.", "quantifier": "all elements, all byte strings", "why_tests_cant": "2^252 elements; orders of groups cannot be tested by enumeration", "anchors": ["src/group/generic.rs:32-105", "src/group/curve25519.rs:35-150", "src/group/ristretto.rs:24-150"]}
{"id": "C79", "title": "Groups and primitives with nothing left abstract", "statement": "Multiplication of points by doubling and adding in extended (Edwards) and Jacobian (secp256k1) coordinates is repeated addition. With it, and with Merlin over Keccak-f[1600], ChaChaRng and SHA-256 written out, the three implementations of `Group` are closed programs which meet the contract assumed by all other properties; for Ristretto the group of representatives of order l is isomorphic to the quotient, with the same codec. ChaChaRng continues its stream across requests for whole words; random scalars of secp256k1 are the first value of 32 bytes below the order; random scalars and challenges of the other groups are 64 bytes reduced modulo the order, challenges of secp256k1 are random scalars for a generator seeded with 32 bytes of the transcript; padding of SHA-256 gives whole blocks and keeps messages different. (The same closed programs reproduce all recorded snapshots of the repository, which is a test and not a theorem.)", "quantifier": "all scalars, points, seeds, stream positions and messages", "why_tests_cant": "infinitely many points, streams and messages", "anchors": ["src/group/mod.rs:90-110: scalar_from_random_bytes", "src/group/generic.rs:32-105", "src/group/curve25519.rs:35-150", "src/group/ristretto.rs:24-150", "src/keys/mod.rs: Keypair", "tests/snapshots.rs"]}
{"id": "C80", "title": "Groups over curve25519-dalek compute the same", "statement": "The overrides of arithmetic for Ristretto and Curve25519Subgroup have preconditions: multi-scalar products assert that both iterators report the same exact size, and inverting in a batch expects nonzero scalars. All uses in the crate meet them, so that value_at, PublicKeySet::new, combine_shares, from_participants (threshold at most shares), SumOfSquaresProof::new and verify give the same results as with the default arithmetic and panic in the same cases. Exceptions, proved exactly: verify of sums of squares panics for iterators over ciphertexts without exact size hints, and from_participants panics for threshold > shares.", "quantifier": "all polynomials, shares, keys, parameters, proofs and iterators", "why_tests_cant": "panics depend on sizes and size hints of iterators; fields with zero denominators cannot be met by chance", "anchors": ["src/group/ristretto.rs:44-53,114-146", "src/group/curve25519.rs:55-63,130-162", "src/proofs/mul.rs:107-298", "src/sharing/mod.rs:139-202,302-325", "src/sharing/key_set.rs:60-144"]}
{"id": "C81", "title": "One honest participant of key generation keeps votes secret (random oracle model)", "statement": "An attacker plays all participants of distributed key generation but one: it chooses their polynomials after it has seen the polynomial of the honest participant, its proof of possession, and the shares made by it for t-1 participants. Then it sees the key set, all ballots, all proofs of possession, and all decryption shares with proofs for the totals. For two assignments of choices with the same totals, the difference of its probabilities to output 1 is at most a sum of advantages of explicit algorithms in the decisional Diffie-Hellman game, plus 2*binom(n+n*o, 2)/|F|. With t shares of the honest participant all ballots are decrypted. Participants in the game are those of the protocol in all reachable states without missing shares.", "quantifier": "all attackers whose polynomials do not depend on hash values of data hashed after key generation, all sets of t-1 participants, all numbers of voters and options, all groups with total encodings", "why_tests_cant": "a statement about probabilities over all polynomials, randomness, hash functions and attackers", "anchors": ["src/dkg.rs:204-536", "src/sharing/participant.rs: Dealer, ActiveParticipant", "src/app/choice.rs: EncryptedChoice::new", "src/sharing/key_set.rs: PublicKeySet"]}
{"id": "C82", "title": "Debug output does not show secrets", "statement": "The text printed by `{:?}` for secret keys, key pairs, ciphertexts with their randomness, dealers, participants holding a share, and participants of key generation in the second and third phase is computed from public data: it is the same for all secrets with the same public parts, whatever the group operations are. Exceptions, proved: the text for `CiphertextWithValue<G, u64>` determines the value; the text for a participant that has only committed to its key determines the opening; the text for an unfinished ring proof determines the encrypted values unless a random scalar is 0; printing a zero secret key panics in groups that cannot encode the identity. Likewise, if a secret key in text form is followed by anything outside of the base64url alphabet, such as padding, then the message of the deserialization error contains the key and determines it.", "quantifier": "all secrets, all public data, all groups", "why_tests_cant": "a dependence on secrets need not show in a few printed examples", "anchors": ["src/keys/mod.rs:19-26,136-143,265-272: Debug", "src/encryption.rs:103-111,301,382: Debug", "src/proofs/ring.rs:39-50,429-437: Debug", "src/dkg.rs:180-437: derived Debug", "src/sharing/participant.rs:24,88: derived Debug", "src/serde.rs:39-46,137-146: Base64Visitor, Deserialize for SecretKey"]}
{"id": "C83", "title": "Error messages identify errors", "statement": "For each error type, different errors are displayed differently, including all lengths, indexes, names of collections and nested errors. The message of an error with a source ends with the message of the source; the message of an error without a source does not end with the message of another error.", "quantifier": "all errors of all six types", "why_tests_cant": "infinitely many lengths, indexes and nested errors", "anchors": ["src/keys/mod.rs:217-227: Display", "src/proofs/mod.rs:101-118: Display", "src/sharing/mod.rs:237-270: Display, source", "src/dkg.rs:133-168: Display, source", "src/app/choice.rs:421-442: Display, source", "src/app/quadratic_voting.rs:356-388: Display, source"]}
{"id": "C84", "title": "Ring proofs hide which admissible value is encrypted (random oracle model)", "statement": "For a random hash function, ciphertexts created by a `RingProofBuilder` with the proof, together with the hash function, have exactly the distribution of simulated ones, built from the ciphertexts without knowing the selected indexes or the randomness. Hence for selections made from the public key by the attacker, who sees ciphertexts, proof and all of the hash function, the difference of its probabilities to output 1 for two selections is exactly a sum of advantages of explicit algorithms in the decisional Diffie-Hellman game, two per ring. In particular `encrypt_bool` hides the boolean, up to two advantages.", "quantifier": "all attackers, all numbers of rings, all lists of admissible values, all contexts, all groups with total encodings", "why_tests_cant": "a statement about probabilities over all keys, randomness, hash functions and attackers", "anchors": ["src/proofs/ring.rs:400-507: RingProofBuilder", "src/keys/impls.rs:77-89: PublicKey::encrypt_bool"]}
{"id": "C85", "title": "One honest participant of key generation keeps quadratic votes secret (random oracle model)", "statement": "The statement of C81 for quadratic voting: an attacker plays all participants of distributed key generation but one, chooses their polynomials last, and sees the key set, all quadratic-voting ballots (range proofs, sum-of-squares proofs), all proofs of possession and all decryption shares. For two assignments of admissible votes with the same totals, the difference of its probabilities to output 1 is at most a sum of advantages of explicit algorithms in the decisional Diffie-Hellman game, plus 2*binom(n+n*o, 2)/|F|; if none of these advantages exceeds e, the sum is at most 2*v*(o*r+r')*e for v voters, o options and r, r' rings in the ranges of votes and credits. With t shares of the honest participant all votes are decrypted.", "quantifier": "all attackers whose polynomials do not depend on hash values of data hashed after key generation, all sets of t-1 participants, all numbers of voters and options, all credit amounts and vote limits, all groups with total encodings", "why_tests_cant": "a statement about probabilities over all polynomials, randomness, hash functions and attackers", "anchors": ["src/dkg.rs:204-536", "src/sharing/participant.rs: Dealer, ActiveParticipant", "src/app/quadratic_voting.rs:234-284: QuadraticVotingBallot::new", "src/sharing/key_set.rs: PublicKeySet"]}
{"id": "C86", "title": "Randomness is read once, and in order", "statement": "Each randomised operation reads a fixed number of random scalars: what it returns, and whether it panics, is a function of the next d scalars of the generator, and it leaves the generator right after them. d is 1 for keys, encryption, log equality proofs, decryption with proof, decryption shares; 2 for encryption of zero, 3 for booleans and for commitment equivalence; the number of keys for proofs of possession; 2n+1 for sums of n squares; one per admissible value and new ciphertext for ring proofs; the sum of 1+size over the rings for range proofs; 3 per option (and 1) for choices; the sum over its proofs for quadratic voting; twice the threshold for dealers (and 32 bytes more in distributed key generation). Hence successive operations use disjoint randomness.", "quantifier": "all generators, keys, values, transcripts, ranges, parameters", "why_tests_cant": "reuse of randomness is invisible in outputs that are checked for validity", "anchors": ["src/encryption.rs:310-327", "src/proofs/log_equality.rs:114-139", "src/proofs/ring.rs:54-194,440-507", "src/proofs/range.rs:462-534", "src/proofs/possession.rs:80-128", "src/proofs/commitment.rs:134-181", "src/proofs/mul.rs:107-181", "src/app/choice.rs:288-349", "src/app/quadratic_voting.rs:234-284", "src/sharing/participant.rs:35-185", "src/dkg.rs:204-221"]}
{"id": "C87", "title": "Operations performed do not depend on secrets", "statement": "Two runs of a function that differ in secrets and randomness only, and of which none panics, perform the same constant-time operations: in the same order for key generation, encryption, decryption (with proof, with shares), proofs of log equality, of possession, about commitments and sums of squares, dealing and shares; in some order for encrypted booleans, ring and range proofs, ballots with choices and quadratic-voting ballots. No operation in variable time gets a secret, and no branch depends on one, except that a participant's check of its share reveals the outcome. As documented, a single call of RingProofBuilder::add_value does reveal the position of the value (13 operations for each position), and verification of log equality reveals the (public) proof and elements.", "quantifier": "all secrets, values, choices, votes, randomness, transcripts, keys, ranges and parameters", "why_tests_cant": "timing depends on the machine; a rare branch on a secret value is not met by measurements", "anchors": ["src/proofs/log_equality.rs:59,114-139", "src/proofs/possession.rs:28,80-128", "src/proofs/ring.rs:54-194,417-419,440-507", "src/proofs/range.rs:199-210,462-534", "src/proofs/commitment.rs:134-181", "src/proofs/mul.rs:107-181", "src/encryption.rs:310-375", "src/app/choice.rs:288-349", "src/app/quadratic_voting.rs:234-284", "src/sharing/participant.rs:35-185", "src/group/mod.rs:67-255"]}
{"id": "C88", "title": "Applications of commitment equivalence and sum-of-squares proofs", "statement": "The example program for commitment equivalence does not panic for a missing argument or the decimal notation of a 64-bit number, and panics for all others; the printed ciphertext decrypts to the value, the printed commitment commits to the value, both proofs verify with one transcript. From a prover that outputs an accepted equivalence proof and an opening of the commitment with a 64-bit value, an extractor gets an opening of the ciphertext with the same value, or the logarithm of the blinding base. A prover that chooses the blinding base last can cheat, since the base is not hashed (finding). Ciphertexts with commitments and equivalence proofs, for one or several values, and ciphertexts with sum-of-squares proofs hide the values up to a sum of advantages of explicit algorithms in the decisional Diffie-Hellman game, if the blinding base is not the identity; otherwise the commitment reveals the value.", "quantifier": "all arguments, generators, range proof systems with the contract, provers, attackers, values, groups with total encodings", "why_tests_cant": "statements about all provers and attackers and about probabilities over keys, randomness and hash functions", "anchors": ["examples/equivalence.rs:22-123", "src/proofs/commitment.rs:134-263", "src/proofs/mul.rs:107-298"]}
{"id": "C89", "title": "Provers of ring and range proofs know the encrypted values and randomness (random oracle model)", "statement": "From a prover that makes at most n evaluations of a random hash function and whose ring proofs (booleans, range proofs, choices, votes and credits in ballots) are accepted with probability e, one runs the prover and the verifier again with one answer of the hash function changed. With N evaluations in total and m rings, with probability at least e/2 the first run is such that for each ring a second run with a uniformly chosen place and answer gives, with probability at least (e/(2mN^2) - 1/|F|)/N, an admissible value and the randomness of the ciphertext of that ring, computed by an explicit formula from both outputs. Openings of all rings of a range proof add up to an opening of the ciphertext with an integer from the range. Nobody's knowledge of the secret key is assumed or used.", "quantifier": "all provers, numbers of evaluations, lists of rings with at least 2 values each, keys, contexts, ranges and parameters of ballots", "why_tests_cant": "a statement about probabilities over all hash functions and all provers", "anchors": ["src/proofs/ring.rs:302-374: RingProof::verify", "src/proofs/range.rs:547-577: RangeProof::verify", "src/keys/impls.rs:101-153: verify_bool, verify_range", "src/app/choice.rs:358-380: EncryptedChoice::verify", "src/app/quadratic_voting.rs:291-329: QuadraticVotingBallot::verify"]}
{"id": "C90", "title": "Sizes and costs of proofs", "statement": "The size s of range proofs (scalars and elements) for 0..n is logarithmic: 3*log2(n) <= s + 1 <= 5*floor(log2(n)), with at most log2(n) rings. Creating a range proof takes exactly 4S+1 products of a scalar and a group element for S items in all rings (one more per ring in debug builds), and at most 20*floor(log2(n)); the cost of creation and of verification of accepted proofs is between 2s and 4s. The exact numbers of products are given for encryption (3, 2 for an element), decryption (1), proofs of log equality (2; verification 4), of possession of n keys (n; 2n), of sums of n squares (5n+2; 7n+4), booleans (8; 8), choices among o options (8o+2; 8o+4, or 8o; 8o for several choices) and quadratic-voting ballots (o(4S+6)+4S'+3; o(4S+7)+4S'+4). Verification of arbitrary, possibly malformed data never takes more than that.", "quantifier": "all values of all parameters, upper bounds 2..=2^64-3, proofs and ballots of any shape", "why_tests_cant": "a bound on work for all malformed inputs and all range bounds cannot be sampled", "anchors": ["src/proofs/range.rs:25-26,54,187-197: RangeDecomposition docs, proof_size", "src/proofs/range.rs:462-577: RangeProof", "src/proofs/ring.rs:54-194,302-374", "src/proofs/possession.rs:80-160", "src/proofs/mul.rs:107-298", "src/app/choice.rs:288-380", "src/app/quadratic_voting.rs:234-329"]}
{"id": "C91", "title": "One honest participant makes the key of distributed key generation random (random oracle model)", "statement": "An attacker plays all participants of distributed key generation but one, and speaks last in all phases: it sees the hash commitment of the honest participant before sending its own ones, and its polynomial, proof and opening before sending its own ones (messages may be copied, malformed, repeated, sent under any index). If SHA-256 is a random function evaluated at most q1 times before and q2 times after the opening, the probability that the honest participant completes key generation with a key in a set S is at most |S|/|F| + q1/(|F| 2^256) + (q1+q2+m+1)(q1+q2+m+1+n)/2^256, for n participants and m messages of the attacker. No more can be said about completed runs: an attacker that copies commitments and stops if it does not like the key completes exactly the runs with keys in S.", "quantifier": "all attackers (computationally unbounded, with bounded numbers of hash evaluations), all sets of keys, all parameters", "why_tests_cant": "a statement about probabilities over all hash functions, randomness and attackers", "anchors": ["src/dkg.rs:1-117: documentation of the commitment phase", "src/dkg.rs:170-177: create_commitment", "src/dkg.rs:204-289: ParticipantCollectingCommitments", "src/dkg.rs:378-394: insert_public_polynomial", "src/dkg.rs:509-536: complete"]}
{"id": "C92", "title": "Re-encryption, and attacks by changing ciphertexts", "statement": "Adding the result of encrypt_zero to a ciphertext keeps the message, and the proof of zero encryption verifies for the difference. If a replacement comes with such a proof for the difference, the message is the same, except with probability (q+1)/|F| for attackers with q hash evaluations that choose key and ciphertexts. Every ciphertext with the same message arises for exactly one random scalar. Re-encryptions of any two lists of ciphertexts chosen by an attacker from the public key (for example permuted ones) are distinguished with an advantage equal to a sum of advantages of explicit algorithms in the decisional Diffie-Hellman game. As the documentation warns, chosen-ciphertext attacks succeed: one decryption of another ciphertext tells with certainty which message is encrypted.", "quantifier": "all groups, keys, ciphertexts, lists of ciphertexts, attackers", "why_tests_cant": "statements about all ciphertexts and about probabilities", "anchors": ["src/lib.rs:10-21", "src/keys/impls.rs:30-75: encrypt_zero, verify_zero", "src/encryption.rs:163-226: arithmetic of ciphertexts"]}
{"id": "C93", "title": "Ranges 0..n from two proofs for 0..N", "statement": "As described in the documentation of ranges: proofs that x and n-1-x are in 0..N, the latter for a ciphertext obtained by a linear transform of the former, can be made for all x in 0..n, n <= N, and are accepted. If 2N is at most |F|+n (|F| prime), an attacker with q hash evaluations gets both proofs accepted for a ciphertext of another value with at most twice the probability for a single proof. If 2N is greater, both proofs can be made for the value N-1, which is not in 0..n.", "quantifier": "all n, N, values, groups, attackers", "why_tests_cant": "all values of a field and probabilities over hash functions", "anchors": ["src/proofs/range.rs:78-85: documentation", "src/proofs/range.rs:446-560: RangeProof"]}
{"id": "C94", "title": "Ballots stay private in groups that cannot encode the identity (random oracle model)", "statement": "For curves with SEC1 encodings (secp256k1), where creating a ballot panics if a serialized element is the identity, ballots for two selections chosen by an attacker from the public key are distinguished with an advantage equal to a sum of advantages of explicit algorithms in the decisional Diffie-Hellman game, though the attacker sees which ballots could not be created. The same holds for several voters, and for elections with published decryptions of the totals if results are published only if all ballots could be created and both selections have the same numbers of votes (if decryptions of different totals use equal contexts, up to twice binom(options, 2)/|F|). The same holds for encrypted values with ring proofs (encrypt_bool) and range proofs (encrypt_range), for ballots and several voters of quadratic voting, and for elections with quadratic voting. It also holds for both kinds of elections if the key is shared by a dealer and the attacker knows one share less than needed, and if it is made by distributed key generation with one honest participant, of whose polynomial the attacker knows one share less than needed, though the attacker sees which proofs of possession and decryption shares could not be created. There are spare byte strings that encode no element on these curves (33 zero bytes for secp256k1), which is all that is used about encodings.", "quantifier": "all groups with a byte string that encodes no element, all attackers (also unbounded), all numbers of options and voters", "why_tests_cant": "a statement about probabilities over all hash functions, keys and randomness; panics have negligible probability", "anchors": ["src/group/generic.rs:79-115: serialization of elements", "src/app/choice.rs:282-420: EncryptedChoice", "src/app/quadratic_voting.rs: QuadraticVotingBallot", "src/proofs/ring.rs: RingProof", "src/proofs/range.rs: RangeProof", "src/keys/mod.rs:283-316: Keypair", "src/decryption.rs:80-175: VerifiableDecryption", "src/sharing/participant.rs: Dealer, ActiveParticipant", "src/dkg.rs:509-536: complete"]}
{"id": "C95", "title": "Proofs and ballots cannot be reused elsewhere (random oracle model)", "statement": "An attacker with q evaluations of a random hash function, who may know all secrets, outputs one proof and two places for it. The probability that the proof is accepted in both places is at most binom(q+h, 2)/|F|, where h is the number of hash values computed by both verifications, if the places differ: for log equality and decryptions in the context, key, ciphertext or result; for proofs of zero encryption in key or ciphertext; for decryption shares in the parameters, shared key, index or key of the participant, ciphertext or share; for proofs of possession in the context or keys; for commitment equivalence and sums of squares in the context or any part of the statement (for the blinding base if the commitment response is not 0); for ring proofs in context or receiver; for range proofs in context, receiver or upper bound; for ballots with choices in the key or number of options; for ballots of quadratic voting in the key, number of options, credits or maximum number of votes.", "quantifier": "all attackers (computationally unbounded, with bounded numbers of hash evaluations), all keys, statements, contexts, parameters", "why_tests_cant": "a statement about probabilities over all hash functions and attackers", "anchors": ["src/proofs/log_equality.rs:153-180: verify", "src/proofs/possession.rs:135-163: verify", "src/proofs/commitment.rs:186-238: verify", "src/proofs/mul.rs:190-260: verify", "src/proofs/ring.rs:302-374: verify", "src/proofs/range.rs:547-577: verify", "src/decryption.rs:189-205: verify", "src/sharing/key_set.rs:209-228: verify_share", "src/app/choice.rs:358-380: verify", "src/app/quadratic_voting.rs:291-329: verify"]}
{"id": "C96", "title": "Hashed data and challenges determine proofs", "statement": "If two proofs of log equality, of possession of equally many keys, or of sums of squares are accepted with the same final transcript, they are equal, and so are contexts, keys and statements. The same holds for commitment equivalence with the same blinding base, except that the response for the commitment is arbitrary if the base is the identity. Hence an attacker with q evaluations of a random hash function outputs two accepted proofs that have the same challenge but differ in any other part or in their places with probability at most binom(q+2, 2)/|F|. Ring proofs are not determined: whoever knows the randomness of an encryption of the second of two values can make accepted proofs for every first response, with the same challenge and final transcript. But for given rings and context, the final transcript and all responses except the last one of each ring determine the proof.", "quantifier": "all proofs, keys, contexts, statements, groups, attackers", "why_tests_cant": "uniqueness over all pairs of proofs, and probabilities over all hash functions", "anchors": ["src/proofs/log_equality.rs:153-180: verify", "src/proofs/possession.rs:135-163: verify", "src/proofs/commitment.rs:186-238: verify", "src/proofs/mul.rs:190-260: verify", "src/proofs/ring.rs:302-374: verify"]}
{"id": "C97", "title": "Destructors overwrite secrets", "statement": "After the destructor has run, the storage of a secret key, a key pair, a ciphertext with its randomness (and value, a scalar or an integer), a dealer, a participant holding a share, or a participant of distributed key generation in any phase does not depend on the secret: for two values that agree in public data, what is left is the same. For unfinished ring proofs nothing is left of the randomness of ciphertexts and of the proof. But the index of the encrypted value, declared as secret, is left (finding). Vectors of indexes of digits, of flags of single choices and of unfinished rings (for encrypted booleans, ballots, range proofs) never outgrow the capacity reserved for them, so growth leaves no copies in deallocated buffers, and what is left of the decomposition of a value, or of a single choice, does not depend on it; a vector that does outgrow its capacity leaves copies. When sum-of-squares proofs, proofs of possession and ring proofs are made, nonces and rings are moved out of vectors, and moves do not overwrite the source: encrypted values, secret coefficients of a dealer, and indexes and randomness of encryptions can be computed from what is left in deallocated buffers and from the proofs (finding).", "quantifier": "all values of these types, all secrets", "why_tests_cant": "memory after destructors cannot be read by safe tests, and the claim is about all pairs of secrets", "anchors": ["src/keys/mod.rs:34-44: Zeroize, Drop for SecretKey", "src/encryption.rs:303-306,383-386: ExtendedCiphertext, CiphertextWithValue", "src/dkg.rs:181-196,326-333,430-437: Opening, participants", "src/sharing/participant.rs:27-31,91-95: Dealer, ActiveParticipant", "src/proofs/ring.rs:22-37,421-427,442-457,491: Ring, RingProofBuilder", "src/proofs/range.rs:199-210,363-373,498-528: decompose, from_ciphertext", "src/app/choice.rs:298-299,324-337: EncryptedChoice", "src/keys/impls.rs:85-87: encrypt_bool", "src/proofs/mul.rs:107-172: SumOfSquaresProof::new", "src/proofs/possession.rs:93-128: from_keys", "src/proofs/ring.rs:138-160: Ring::aggregate"]}
