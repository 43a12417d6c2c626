# Formal model of `elastic-elgamal` (Lean 4 + Mathlib)

Source modelled: `/repo` (crate `elastic-elgamal` 0.3.1 at the pinned commit). Nothing in `/repo` is
built or changed. Lean sources are in `/verif/lean/Verif/`:

* `Model/` - the code, function by function; every definition cites file and lines.
* `Spec/` - what the properties talk about, independent of the model's helpers.
* `Lemmas/` - auxiliary facts.
* `Props/` - one theorem or more per property, named `Cxx_...`, with examples that meet their hypotheses.
* `Toy.lean` - concrete groups for the examples (integers modulo 101 and modulo a 65-bit prime, with total and
  with SEC1-like encodings).

## 1. Shape of the model

* **Group / scalars.** `F` is any field, `E` any `F`-module; `Backend F E` collects what the `Group`
  trait provides (generator, fixed-size encodings, decoding), the Merlin challenge function, the RNG
  and SHA-256. `Backend.Lawful` states the trait contract (every element is a multiple of the
  generator, encodings are injective, decoding inverts encoding). Scalars from `u64` are the natural-number cast.
* **Panics** are explicit: model functions return `Option α` with `none` = the Rust call panics.
  Rust `Result` is `Except Err α`, so a fallible, possibly panicking function has type `Option (Except Err α)`.
* **Element encoding is partial** (`serElem : E → Option Bytes`), because `group/generic.rs:87-90`
  copies a SEC1 encoding into a fixed-size buffer with `copy_from_slice`, which panics for the identity.
  `TotalSer` backends (Ristretto, Curve25519) never panic.
* **Transcript** = append-only log of labelled messages and challenge extractions; the challenge scalar is an
  arbitrary function `challenge : List Entry → F` of the log.
* **RNG** = arbitrary type with `genScalar : Rng → F × Rng`, `fill32 : Rng → Bytes × Rng`; the order
  of draws is the order in the code.
* **u64 arithmetic** = naturals with explicit overflow behaviour (`none` in debug builds, wrapping in
  release builds), selected by a `debug : Bool` parameter. Debug assertions are panics in debug builds.
* **`&mut` arguments** become returned values. Iterators become lists.
* **Serde** = a tree `Data` (strings, bytes, integers, booleans, null, sequences, maps). A `Format` says whether
  it is human readable, and, separately, what the buffering deserializer used for `serde(flatten)` claims.
* **DKG histories**: the three phases are three structures; theorems quantify over every list of calls
  (in any order, with any arguments, successful or not) made between the transitions.

### How soundness is stated

A hash function is not a proof of anything by itself, so "an accepted proof shows a true statement" is proved
in four forms.

1. *Bad challenge*: `∃ bad, ∀ H ..., accepted → true statement ∨ H t'.log = bad t'.log`. The function `bad` is fixed
   before the hash function `H`, and `t'.log` is the exact data hashed when the proof in question is verified.
   For every piece of hashed data there is at most one answer with which a false statement could be accepted.
2. *Forged events* (`LogEqForged`, `RingForged`, `RangeForged`, `ChoiceForged`, `ShareForged`, `BallotForged`): the
   same, spelled out for composite proofs. Each event speaks about the queries of the given proof, with its own
   commitments, and says that the hash values there are the unique ones that can be answered.
3. *Knowledge extraction*: two accepted proofs with the same commitments and different challenges yield the
   witness by an explicit formula.
4. *Random oracle bounds* (C55-C61): the first two forms are turned into numbers. For every algorithm with oracle
   access (`OracleAlg`) that makes at most `q` hash queries, the fraction of hash functions for which it wins is
   at most an explicit bound over `|F|`. The algorithm may know all secrets, and honest provers may be a part of it
   (their hash queries count), so that an attacker who first sees honest proofs is covered. For rings
   the key, the context and the admissible values are fixed before the hash function; for log equality and
   sum of squares the attacker chooses them. Assumed, not proved: Merlin challenges behave like independent uniform
   scalars (for Ristretto and Curve25519 the code reduces 64 bytes modulo the group order, which is within `2^-259` of
   uniform if the bytes are uniform, C64).

Zero knowledge (C51) is stated without probabilities as well: for a true statement every accepted proof is produced
by the prover for exactly one choice of its random scalars (`∃! tape`), so uniformly random scalars give a
uniformly random accepted proof, whatever the witness is.

## 2. Plan per property

| id | model | proof method |
|----|-------|--------------|
| C01, C03, C04 | keys, ciphertexts | module algebra; induction over expression trees / operation lists |
| C02 | table as association list, last insertion wins | list induction, injectivity of `v ↦ [v]G` below the group order |
| C05-C07, C10, C24 | codecs over byte lists | case analysis, list chunking induction |
| C08, C09, C11-C13, C21 | log equality | run prover and verifier on the same log; linear algebra for uniqueness of the bad challenge |
| C14-C16 | possession proof; length checks of all proofs | list induction over keys |
| C17, C18 | commitment equivalence | algebra; extraction formula |
| C19, C20 | sum of squares, `OddItems` | list induction |
| C22, C23 | Borromean rings | induction around the ring; induction over rings |
| C25-C29 | range decomposition on u64 | strong induction on the bound, loop invariants, memo table invariant |
| C30, C31 | range proofs | ring theorems + decomposition theorems |
| C32-C34 | encrypted choices | composition |
| C35-C37 | quadratic voting | composition; `isqrt` loop invariant; no wrap-around over the integers |
| C38 | order of ballot errors | case analysis |
| C39-C45 | secret sharing, key sets, decryption shares | Lagrange interpolation + list lemmas |
| C46-C49 | DKG | state machine, invariants over all operation histories |
| C50 | panic freedom | per verifier, totality under `TotalSer`; witnesses of panic under SEC1 encoding |
| C51 | zero knowledge | explicit bijections between prover randomness and accepted proofs |
| C52 | serialization of all types | round-trip combinators, acceptance characterizations |
| C53 | default group methods | induction |
| C54 | tallies under a threshold key | composition of C32-C37 and C39-C45 |
| C55-C58 | oracle algorithms, counting over hash functions | induction on the algorithm; cycle argument for rings (`Lemmas/Oracle`, `Lemmas/RingOracle`, `Lemmas/OracleProofs`) |
| C59-C61 | same, ballots and elections | union bound over the proofs of a ballot, the ballots and the shares |
| C62 | optimizer with `f64` estimate (concrete rounding, abstract `log2`) | the search equals a search without pruning (`Lemmas/Canon`); cubes of upper bounds are powers of two or at most 125/128 of the next one (`Lemmas/Float`) |
| C63 | SEC1 codec over Mathlib's affine Weierstrass points; Edwards codec over an abstract group with coordinates | parity of square roots; coprime orders; case analysis on tags |
| C64 | wide reduction | counting residues below a power of 256 |
| C65 | honest elections under any key set | composition of C32, C36, C39, C42, C44, C47 |
| C66 | encryption hides messages | exact hybrid argument: the attacker's advantage is a sum of advantages in the decisional Diffie–Hellman game (`ddhGap`) of explicit reductions |
| C67 | ballots hide votes (random hash function) | a bijection between the prover's tapes and accepted proofs (C51) turns the real distribution into one with uniformly random proofs and a hash function programmed at one place per proof (`rom_simulation`, exact); then the hybrid argument of C66. Groups with total encodings; for several voters by a second hybrid |
| C68 | elections with published results hide votes (random hash function) | decryption proofs are simulated as in C67, at places different from those of ballots, with the Diffie–Hellman element computed from the number of votes; what remains is the game of C67. The negation for voters who copy ballots is `C68_copied_ballot`. The equality needs different contexts for different options; `C68_any_context_simulation` and `C68_any_context_private` (and the same for C75) hold for any contexts, with an additional term for collisions |
| C69 | elections with a shared key hide votes from t−1 participants (random hash function) | choosing the key and t−1 shares determines the polynomial (interpolation), so that it and all decryption shares can be computed in the exponent from the public key, the known shares and the numbers of votes; all proofs are simulated at once (`family_simulation`, up to collisions of hashed data), at places different from those of ballots; what remains is the game of C67. `C69_threshold_sharp`: with t shares the attacker wins |
| C70 | provers know their secrets (random hash function) | forking lemma (`Lemmas/Forking.lean`): changing the hash function at the data hashed for the first output gives a second proof with the same hashed data and another challenge; at most n+1 places matter for a given hash function, since data that are not evaluated do not influence the run; then the extraction formulas C12, C15, C18, and for sums of squares `sumSq_items_extract` by induction over the ciphertexts. The hashed data determine statement and context, including the number of keys. `C70_knowledge_loss`: the loss is attained |
| C71 | wire format of serialized structs | `Spec/Wire.lean` describes the data representing each type by field names and kinds of contents; reading succeeds exactly on such data (`C71_*`, first part), writing produces the fields in order (second part). Found by an edit that renames a field in both the serializer and the deserializer: all round trips of C52 survive it |
| C72 | text representation of bytes | `Model/Base64.lean` is strict base64url without padding (RFC 4648 section 5); `Spec/Base64.lean` describes texts by bits: the bits of the text are the bits of the bytes followed by fewer than 6 zero bits, with the fewest characters. Decoding succeeds exactly on such texts, encoding produces them, each byte string has one text (`C72_*`); `C72_written` says which kinds are written as text and as bytes. The formats with this text are instances of `Format.Lawful`, so C52 and C71 hold for them |
| C73 | range encryption hides values (random hash function) | as C67: `range_tape` and `range_new_tape` are a bijection between tapes and pairs (randomness of the ring ciphertexts, accepted proof scalars); `rom_simulation` replaces the proof by random scalars and one programmed place; the ciphertexts of the rings encrypt `ringMessage` (the parts of the value), to which the hybrid argument of C66 applies. Several values by a second hybrid. `Props/RangePrivacy.lean` |
| C74 | quadratic-voting ballots hide votes (random hash function) | the tape of a ballot splits into tapes of its parts (`voting_output`, `mean_split`); the sum-of-squares proof is simulated as in C51 (`sumSq_simulation`, exact), which changes the hash function only at data that begin with another context than those of the range proofs (`RangeProof.new_congr`: provers hash only data beginning with their context); then the ballot is a game about range encryptions: C73 for the votes, then for the credit (in between, the credit does not belong to the votes, and the simulated proof does not notice). Voters by a further hybrid; `C74_voters_bound` counts the reductions. `Props/VotingPrivacy.lean` |
| C75 | elections with quadratic voting hide everything but the totals (random hash function) | games of C68 and C69 are about any poll (`Poll`: how ballots and totals are made). Ballots depend only on hash values of data that do not end like data of log equality proofs and proofs of possession (`QuadraticVotingBallot.new_congr`), encrypted votes do not depend on the hash function at all (`voting_ciphertexts`); so decryptions and shares are simulated for fixed random scalars of voters (`poll_decryptions`, exact; `poll_shared`, up to collisions). What remains is C74. `C75_threshold_sharp`: with t shares votes are decrypted. `Props/VotingElectionPrivacy.lean` |
| C76 | the example programs run and print exact tallies | `Model/Examples.lean` models `examples/voting.rs` and `examples/range.rs`; `rand` is an arbitrary `RandExt` with the documented guarantees (`LawfulRand`). Invariants of the loops (totals decrypt to the expected numbers) from C32, C36; tallying from C42, C44, C65. Success is characterized exactly for total encodings; the loop of the quadratic-voting voter is bounded by a strictly increasing cost. Argument parser: exact accepted texts |
| C77 | transcripts hash unambiguously | `Model/Merlin.lean` is Merlin 1.0 over STROBE-128, written from the documentation, with the permutation as a parameter and a ghost list of its inputs. A symbolic state lists the absorbed blocks; the operations are read off from it backwards (flags and `pos_begin` of each header), and equal capacities give equal lists of blocks unless there is an inner collision (`C77_challenge_injective`, `C77_log_injective`). `C77_collision_bound` counts for a random function; `C77_simulates` relates `Transcript` and the backend's challenge to STROBE states |
| C78 | actual parameters of the groups | `Model/Group/{Secp256k1,Ed25519,EdwardsPoint,Ristretto255}.lean`. Primality by Pratt certificates and orders of base points by double-and-add chains with given slopes or inverses, all evaluated by the kernel on natural numbers (`decide +kernel`); the order of a curve from a multiple and a trivial bound on the number of points (at most two per abscissa); the complete Edwards addition law from polynomial identities; Ristretto by describing `encode` and `decode` through the representative with nonnegative `x`, `xy` and nonzero `y`; doubled points are those with square `1 - y²`. Ordinates below 19 are excluded one by one: not on the curve, or not a multiple of 8 |
| C79 | executable groups (`Model/Group/{Jacobian,Concrete}.lean`: extended and Jacobian coordinates), Keccak-f[1600], ChaChaRng, SHA-256 (`Model/Primitives`) | representation relations between coordinates and points, kept by doubling and adding (`Lemmas/Curves/DoubleAdd`); Ristretto elements by representatives of order `ℓ`, isomorphic to the quotient of C78; byte streams of ChaCha cut into blocks; padding is parsed from its end |
| C80 | overrides for `curve25519-dalek` (`Model/Group/Overrides.lean`): size hints of iterators, assertions of `multiscalar_mul`, inverting in a batch | functions with such calls are modelled over any arithmetic and proved equal to the ones with default arithmetic; prefix products |
| C81 | the game `dkgGame` (`Spec/DkgElection.lean`) over the existing models of dealers, `ExchangingSecrets::complete`, ballots, proofs of possession and decryption shares | the hash function is chosen in two steps (data of key generation, then data of the election); the honest proof is simulated in the first step, the key of the honest participant becomes the Diffie–Hellman challenge, ciphertexts are shifted by the sum `γ` of the attacker's secrets, and the election is simulated as in C69 |
| C82 | `Debug` for types with secrets as trees of calls of `core::fmt` builders, and their text without the `alternate` flag (`Model/Format.lean`); `Debug` for scalars and elements is a parameter | equality of output for any backend, also those in which many secrets have one public key (a statement with lawful backends would be vacuous, since the public key determines the secret); for findings, texts are parsed from the end. `Model/SerdeMessage.lean` has the message for text that is not base64url (`C82_error_shows_secret`) |
| C83 | `Display` and `source` of errors, as UTF-8 bytes | texts are parsed: constant prefixes, runs of digits, parsing from the end for names of collections |
| C84 | ring proofs and `encrypt_bool` hide the encrypted value (random hash function) | as C73, for arbitrary lists of admissible values: `proveRings_tape` and its inverse (C51) are a bijection between tapes and accepted proofs, `rom_simulation`, hybrid argument of C66; `encrypt_bool` is the case of one ring with two values. `Props/RingPrivacy.lean` |
| C85 | the game of C81 with the poll of C75 | lemmas about key generation are about any poll whose participants' proofs can be simulated (`PollSimulated`) and whose totals are known (`PollCounts`); for quadratic voting these come from `votingPoll_congr` and `voting_totals` (C75). Ballots under the shifted key by the hybrids of C73 and C74 (`shiftedOutput_family`, `shifted_ballot_private`). `Props/DkgVoting.lean` |
| C86 | a generator is any state with `genScalar`; `drawScalars` reads `d` scalars, `Draws` says that an operation is a function of them and leaves the generator after them (`Spec/Draws.lean`) | `Draws` with a postcondition is closed under sequencing (`DrawsTo.bind`); for ring proofs the postcondition is how many scalars are left for finalizing. `Props/Draws.lean` |
| C87 | functions with the list of operations they perform (`Model/Leakage`): constant-time operations without arguments, `vartime_*` with arguments, branches with their direction | results are those of the model (`C87_results`). For straight-line functions and loops over public sizes the list is found by unification before secrets are introduced (`Does`, `Lemmas/LeakageTrace.lean`). For rings the two loops around the selected position share their operations: operations performed and still to be performed add up to a constant multiset (`Cost`, `Lemmas/LeakageRings.lean`). `Props/Leakage.lean`. Not observed: addresses of memory (`admissible_values[value_index]` is read at a secret position), allocation, the time of `u64` division (`range.rs:201`), runs that panic |
| C88 | `examples/equivalence.rs` (`Model/Equivalence.lean`); the crate `bulletproofs` is a parameter with the contract `LawfulBulletproofs` (same group and encoding, complete proofs). Its soundness is the hypothesis of `C88_range_knowledge` that the prover outputs an opening with a 64-bit value | completeness from C17; knowledge by the forking lemma of C70: an accepted output encrypts the committed value unless the extractor finds the logarithm of the blinding base; privacy of commitment equivalence and of sum-of-squares proofs as C84. `Props/Equivalence.lean` |
| C89 | provers of ring proofs know values and randomness | the C57 argument finds, in each accepted ring, an equation whose challenge is the answer to a query made after the query that fixes its commitments. `Lemmas/PairForking.lean`: pairs of queries (earlier, later) with small weight are rare, and for a pair that is not light many answers to the later query keep the pair; then the commitments are the same and only one answer is the old challenge, which gives the randomness (`ringOpening`). The loss is a polynomial in the number of evaluations, of which the proof makes no attempt to be the smallest. `Spec/RingKnowledge.lean`, `Props/RingKnowledge.lean` |
| C90 | sizes and costs of proofs | `Model/Leakage/Verification.lean` adds the operations of verifiers to the leakage model of C87 (same results: `C90_results`). A product of a scalar and a group element counts 1, a sum of n products n (`Spec/Cost.lean`); other operations are not counted. `Uses`/`Owes`/`VerifierUses` in `Lemmas/Cost.lean` count through sequences, through the builder (products of a ring are split between `add_value` and `build` depending on the secret position), and through early returns. The size bound uses optimality (C27) against an explicit construction with k = 2. `Props/Cost.lean` |
| C91 | keys of key generation are random | `Spec/DkgBias.lean`: SHA-256 is replaced by a random function to 32 bytes, the RNG by tapes; the attacker is an `OracleAlg` (bounded number of hash evaluations, else unbounded), messages and indexes are arbitrary, shares of the last phase are existential. The reduction extracts the constant terms of the attacker's polynomials from its hash evaluations before the opening: `Lemmas/Watched.lean` bounds the probability that a later evaluation hits an announced target (a commitment that was not a hash value when it was sent) or collides; outside of these events the key is a fixed element plus a nonzero multiple (number of copies of the honest commitment, less than the characteristic) of the honest constant term, which is uniform and independent of all hash evaluations but one. `C91_abort` is the negative result: the copying attacker stops selectively, so the countermeasure of `src/dkg.rs:7-11` ("we try to prevent this kind of possible attacks") leaves bias by aborting: keys of completed runs need not be uniform. Not expressible here: that SHA-256 is a random function. `Props/DkgBias.lean` |
| C92 | re-encryption, malleability | `Spec/Reencryption.lean`: games for re-encryption (an encryption of zero is added to each ciphertext) and for chosen-ciphertext attacks with one request. The hybrid argument of C66 applies to the guess for shifted ciphertexts, and random ciphertexts stay random when shifted. `C92_cca` proves the negative statement of `src/lib.rs:10-12`. `Props/Reencryption.lean` |
| C93 | ranges from two proofs | Composition suggested in `src/proofs/range.rs:78-81`, proved from completeness (C30) and the soundness bound (C58) with the exact condition on the length of ranges. The crate does not implement it: the opened second ciphertext has no public constructor. `Props/TwoRanges.lean` |
| C94 | privacy in groups with partial encodings | C67 and C68 assume that all elements have encodings. `Spec/Partial.lean`: a group where some have none is extended by a spare byte string that stands for them (`totalize`); for SEC1 curves a string of zeros. Outputs of honest provers in the given group are exactly those outputs in the extended group whose verification does not panic in the given group, up to a permutation of the prover's tapes (`exists_perm_filter`, from completeness, C51 and monotonicity of verification), so the games are equal to games in the extended group for an attacker that is not shown the others. No error term for the probability of panics. Results are published only if all ballots exist: with a missing ballot, numbers of votes may differ although the selections have equal sums. Likewise for ring proofs, range proofs and quadratic voting (C73–C75, C84), and for elections with a key shared by a dealer (C69, C75) or made by distributed key generation (C81, C85), where the attacker also sees which proofs of possession and shares are missing. Contexts of decryptions may be equal up to a collision term (`C94_any_context_private`). `Props/PartialPrivacy.lean`, `Props/PartialVoting.lean`, `Props/PartialThreshold.lean`, `Props/PartialDkg.lean`, `Props/PartialAnyContext.lean` |
| C95 | reuse of proofs | For every kind of proof C13 (and `C44_share_hash_inj`) turns acceptance of one proof in two different places into two different hashed data with the same hash value. `Lemmas/Replay.lean` bounds the probability of such a collision among all values computed by the attacker and the two verifiers (`probLe_collision`, from the adaptive counting argument made for C77). The data hashed last by a verifier do not depend on the hash function except for ring proofs, where the verifier is the algorithm `ringVerifierAlg` of C57. Not stated: reuse in the same place (copies of ballots are accepted, see findings), and changed copies of proofs (honest proofs are not unique for a statement). |
| C96 | hashed data determine proofs | The final transcript contains encodings of the context, the statement and the commitments recomputed by the verifier (`*Query_inj`), and its hash value is the challenge. With these fixed, each response is the only solution of a linear equation, because the generator (and the blinding base) is not the identity. `C96_*_challenge` adds the collision bound of C95. For commitment equivalence the blinding base is the same for both proofs, as it is not hashed. The exceptions are proved as well: `C96_commitment_zero_base`, and `C96_ring_not_unique` for rings of two values (finding 23). `C96_ring_last_unique` is what remains for ring proofs: the chain of challenges of a ring is computed from the earlier responses, so that the last response is the only solution. Not stated: unforgeability of changed ring proofs by those who do not know the randomness. |
| C97 | destructors | `Model/Drop.lean` gives for each type with secrets what its storage contains after drop glue and `Drop::drop` have run; `Zeroizing` calls `zeroize`. Stated as independence: two values with the same public data (`SameDealer`, `SameRing`, ...) leave the same. `Model/DropVec.lean` adds buffers of vectors (capacity, contents of buffers deallocated by growth) for indexes of digits, flags of single choices and rings: they never grow (`C97_decomposition`, `C97_single_choice`, `C97_bool_rings`, `C97_choice_rings`, `C97_range_rings`; `C97_growth_copies` shows why this matters), and what is left after items were moved out of vectors (negative: `C97_square_nonces_left`, `C97_possession_nonces_left`, `C97_rings_left`). Growth is taken to move items always. Not modelled: copies left by moves of other values, locals, buffers of other vectors, and whether the compiler keeps the writes (`zeroize` promises it). Negative: `C97_index_left`. |

Limits of C81 and C85. The attacker gives coefficients of its polynomials, not only the public ones: proofs of possession show that
it knows them (C70), but they are not bound to the sender, so a replay of the honest polynomial (C48) is not covered. The participants whose shares are known
are fixed in advance. All participants complete key generation with correct shares. Hash commitments and openings do
not occur: in the game the attacker chooses its polynomials last, which is more than commitments allow. While it
chooses polynomials it may use all hash values except those of data starting with the labels of ballots, participants'
proofs of possession and decryption shares.

What cannot be expressed: computational hardness itself (of the decisional Diffie–Hellman problem, discrete logarithms,
collisions of SHA-256; running times have no model, so reductions are given explicitly instead), running
times of instructions (C87 is about which operations of the group and of transcripts are performed) and copies of secrets
left in memory by moves and intermediate results (C97 is about values with destructors).

## 3. What is modelled and what is not

| source | modelled | not modelled |
|--------|----------|--------------|
| `src/group/mod.rs` | trait contract (`Backend.Lawful`), default methods; which operations are to be in constant time (C87) | their running times |
| `src/group/{ristretto,curve25519,generic}.rs` | codecs, sizes, scalars from random bytes, subgroup check (`Model/Group`); proved to be instances of the contract, for the parameters of secp256k1, Curve25519 and Ristretto255 without further hypotheses (C78). The SEC1, Edwards and Ristretto codecs of the dependencies are written out from their documentation (SEC1, RFC 8032, RFC 9496) | how the dependencies compute: points have affine coordinates (Weierstrass points are Mathlib's), field elements are residues, instead of projective or extended coordinates and limbs; parameters of other curves for `Generic` (as hypotheses `Curve.Ok`); how `multiscalar_mul` computes the sum (its assertions and `invert_scalars` are modelled, C80); tables for multiples of the generator |
| `src/keys/` | all; destructors in `Model/Drop.lean` | |
| `src/encryption.rs`, `src/decryption.rs` | all | zeroization of local variables; `Debug` of tables; `HashMap` is an association list |
| `src/proofs/mod.rs` | transcript helpers, errors | |
| `src/proofs/{log_equality,possession,commitment,mul,ring}.rs` | all | |
| `src/proofs/range.rs` | all | `f64::log2`, a parameter with `Log2Ok` (exact for powers of two, error at most `2^-10`); exponent bounds of `f64` |
| `src/app/` | all | `Debug` (no secrets) |
| `src/sharing/`, `src/dkg.rs` | all | `Debug` of errors and public data |
| `src/serde.rs` and derives | all | error messages; integers other than `u64`/`u8` |
| `examples/voting.rs`, `examples/range.rs` | all functions except printing, `clap` (`Model/Examples.lean`) | JSON output, command line |
| `examples/equivalence.rs` | `main` (`Model/Equivalence.lean`) | the crate `bulletproofs` (abstract), JSON output |
| external crates | as parameters | `merlin` is modelled in `Model/Merlin.lean` with Keccak-f as a parameter; other theorems use any function of the log as challenge, for which C77 is the justification (challenges of fewer than 166 bytes, ASCII labels; `build_rng` is not used by the crate); `base64ct` is modelled in `Model/Base64.lean` by strict decoding after RFC 4648 (its constant-time arithmetic on characters is not), serde's buffering as described in `Model/Serde.lean` |

Simplifications are repeated in the comment of each definition. Vectors and slices have fewer than `2^64` items.

## 4. Findings

Where the code does not have a property one would expect, the negation is proved with a witness.

1. *SEC1 groups panic on identity elements.* With `Generic<C>` (for example secp256k1) every verifier panics on suitable
   attacker-chosen inputs: log equality, possession, commitment equivalence, bool, range, choice, quadratic
   voting, `PublicKeySet::from_participants`, DKG `insert_public_polynomial` and `complete`
   (`C50_*_panics_sec1`). Deserializing a `Keypair` from the zero scalar panics (`C50_deserialize_keypair`).
2. `DiscreteLogTable::get` of the identity is `Some(0)` even if 0 is not among the values (`C02_zero_always_found`).
3. `Params::combine_shares`: duplicate indexes are not rejected and give a panic or a wrong value (`C40_duplicates`),
   indexes past the first `threshold` items are not checked (`C40_ignores_rest`), and `None` is returned before
   indexes are checked (`C40_insufficient`).
4. Quadratic voting: `set_max_votes` wraps at `2^32` in release builds (`C35_set_max_votes_wraps`) and panics for 0
   (`C35_set_max_votes_panics`); `new` overflows for credits close to `u64::MAX` (`C35_params_overflow`);
   the ballot cost wraps modulo `2^64` in release builds (`C36_ballot_wraps`). `RangeDecomposition::optimal` overflows
   for bounds from `2^64 - 2` on (`C28_overflow_*`).
5. The identity public key can be constructed from the zero secret and serialized, but not parsed
   (`C05_identity_not_parsed`).
6. DKG: `insert_public_polynomial` panics on an empty polynomial (`C49_insert_polynomial`). It may be called again
   with other coefficients, because the commitment covers only the constant term (`C48_rest_unbound`), even for
   one's own index, after which `complete` fails (`C47_own_replaced`). Commitments and proofs are not bound to
   the participant index (`C48_replay`).
7. `RingProof::from_bytes` needs at least 2 responses; sums of squares of zero ciphertexts do not round-trip through
   serde (`C52_short_proofs`).
8. A commitment equivalence proof does not bind the blinding base when the response for it is 0
   (`C13_commitment_base_unbound`). It is not hashed: if the prover may choose it after the proof, it can prove
   equivalence of an own ciphertext and any group element that it cannot open (`C88_late_base`).
9. `verify_share` with an index out of range panics, which is not documented (`C44_share_index`).
10. `RangeProof::from_ciphertext` for another receiver panics in debug builds, although the documentation says that
    the proof will not verify.
11. Deserialized `Params`, `PublicKeySet`, `ActiveParticipant` and DKG states are not validated
    (`C52_participant_unvalidated`: `public_key_share` panics).
12. A ring with a single admissible value does not hash the ciphertext, so a proof for it shows nothing, although the
    documentation says that it reduces to a log equality proof (`C23_single_value_unsound`). The public API never creates such rings.
    Also, values and ciphertexts are zipped, so surplus items are ignored (`C23_ring_sound_no_values`).
13. Ring proofs do not bind the admissible values (a comment says so); range proofs do, through the textual form (C29, C13).
    A prover that may choose one of two values last makes accepted proofs for ciphertexts of neither value
    (`C23_late_values`). The public API fixes the values.
14. The `std` build relies on `f64::log2` being exact at powers of two, which Rust does not promise: otherwise `optimal(4)`
    panics in debug builds (`C62_inexact_log2`).
15. `Generic<C>::deserialize_element` accepts whatever `Sec1Point::from_bytes` accepts. For curves whose decoder supports
    compact points (tag 5 followed by the abscissa, which has exactly `ELEMENT_SIZE` bytes), each public key with an even
    ordinate has two encodings. `PublicKey::from_bytes` stores the bytes as given, so that the two keys compare unequal and
    start different transcripts (`C63_generic_compact_keys`). This relies on our reading of the `sec1` and `elliptic-curve`
    documentation, as the dependencies are not available here.
16. `Curve25519Subgroup` accepts several encodings of the identity: `CompressedEdwardsY::decompress` ignores the sign of
    `x = 0` and reduces `y` modulo `p` (`C63_curve25519_identity`; same caveat). Public keys are not affected: they are
    not the identity, and by `C63_curve25519_canonical_iff` all other elements have unique encodings iff no other point of
    the subgroup has `y < 19`, which holds for the actual curve (`C78_curve25519`). The identity has exactly four encodings
    (`C78_curve25519_identity`). Serialized ciphertexts with a zero component are affected.
17. Ballots are not bound to voters: a copy of somebody's `EncryptedChoice` is accepted as another ballot, and totals that
    include copies reveal selections (`C68_copied_ballot`). Applications have to reject duplicates; the documentation does
    not mention it.
18. `examples/voting.rs` builds `Params` without the checks of `Params::new`: `--talliers 6/5` is accepted and panics only
    when tallying (`C76_vote_runs`, `C76_parse_talliers`). With the group `K256` and no votes it panics as well, since
    the identity element has no encoding of the expected size (`C76_no_votes`).
19. `SumOfSquaresProof::verify` is public and takes any iterator over ciphertexts. With `Ristretto` or `Curve25519Subgroup`
    it panics for iterators without exact size hints (for example a `filter`), since only the responses are wrapped
    to get an exact hint (`C80_sum_of_squares_verify`). `PublicKeySet::from_participants` with `threshold > shares` (fields of
    `Params` are public) panics with these groups and returns a useless key set with `Generic` (`C80_from_participants`).
20. *`Debug` shows some secrets.* `CiphertextWithValue<G, u64>` prints the encrypted value (`C82_value_shown`: `Zeroizing` has
    a derived `Debug`), `ParticipantCollectingCommitments` prints the opening of its commitment together with the
    committed key (`C82_opening_shown`), and the hidden `RingProofBuilder` prints responses of unfinished rings, from which
    the encrypted values are read off, though `Ring` leaves out its secret fields (`C82_values_shown`). Printing a zero
    secret key panics with SEC1 groups (`C82_debug_panics_sec1`).
21. *Key generation can be biased by stopping it.* Commitments to constant terms make the key of a run random (C91), but the
    last participant to open its commitment learns the key before, and may stop. So keys of completed runs are not
    uniform if runs are repeated (`C91_abort`). The attacker may also copy the messages of the honest participant (see 6).
22. The documentation of `sharing` (`src/sharing/mod.rs:29-34`) has a dealer generate `t` scalars besides the secret and
    publish `t + 1` coefficients `[x]G, ..., [x_t]G`. If `t` is the threshold, `t` shares would not determine the secret
    (`C41_any_secret` for the threshold `t + 1`), and `PublicKeySet::new` rejects such a polynomial (`C42_wrong_degree`).
    The code generates `t` coefficients in total (`Dealer::new`, `C42_dealer`), as it must. The model follows the code.
23. *Ring proofs are malleable by their author.* Only commitments of the last equation of each ring go into the common challenge.
    An author whose value is the last one can change earlier responses and adapt the last one without any change of the common
    challenge (`C96_ring_not_unique`). Other proofs are fixed by their challenges. This does not contradict soundness or
    privacy, but such ballots must not be identified by their challenges.
24. *An index is not overwritten.* `Ring::value_index` is listed among "Secret values" (`src/proofs/ring.rs:33-36`), but is a plain
    integer, so that it stays in memory when the builder is dropped (`C97_index_left`). It tells the vote or the digit of the
    encrypted value. `RangeProof` keeps the same indexes in a `Zeroizing` vector (`src/proofs/range.rs:363-370`).
25. *Nonces and rings are left in deallocated memory.* Nonces of sum-of-squares proofs and of proofs of possession, and rings, are
    kept in vectors and moved out with `into_iter()` or `for` (`src/proofs/mul.rs:163-172`, `src/proofs/possession.rs:116-122`,
    `src/proofs/ring.rs:156-158`). Destructors overwrite the moved copies, but not the buffers, which are deallocated as they
    are. From these and the proofs one computes encrypted values (`C97_square_nonces_left`), the secret polynomial of a dealer
    (`C97_possession_nonces_left`), the index of an encrypted value and the randomness of its ciphertext (`C97_rings_left`).
    This holds unless the compiler avoids the moves, or the allocator overwrites the memory. Iterating by reference, and
    dropping the vector after it, would avoid it.
26. *Errors for malformed secrets show the secrets.* `deserialize_bytes` is used for public data and for secret keys and openings,
    and puts text that it cannot decode into the error (`src/serde.rs:43-46`). A secret key with padding or a line break is not
    accepted, and is shown in full by the message, which often goes to logs (`C82_error_shows_secret`).

## 5. Trusted base

* Lean 4.33.0 kernel, Mathlib definitions.
* Axioms: only `propext`, `Classical.choice` and `Quot.sound`, which are Lean's own; no axioms are added, and no
  `sorry`, `native_decide` or `bv_decide` is used. Axioms per theorem are listed at the end.
* The modelling decisions in sections 1 and 3 and the comments next to each definition.
* External crates are parameters: `curve25519-dalek`, `elliptic-curve` (group laws and codecs, via
  `Backend.Lawful`, which C78 and C79 prove for the actual groups as described in standards), `merlin` (challenge function of the log; in C77 STROBE over an arbitrary permutation, and a random function without inverse in place of Keccak-f in `C77_collision_bound`), `sha2`, `base64ct`, RNG. Section 6 describes how the
  model with written-out primitives is compared with recorded output of the code.

## 6. Tests of the theorems

`seeded/LOG.jsonl` records edits of the model that introduce bugs, and the theorems that no longer hold. The check
recompiles everything that depends on the edited file, keeps going after errors, and lists the theorems
that fail or depend on a failed lemma.

`lean/Verif/Tests/Snapshots.lean` runs the model, with groups and primitives filled in (C79), on the inputs of
`tests/snapshots.rs` and compares the results with all 24 files in `tests/snapshots` (12 for `Ristretto`, 12 for
`Generic<Secp256k1>`): keys, ciphertexts and every kind of proof agree byte by byte. The same file has published vectors
of SHA-256, ChaCha20, Keccak-f[1600], Merlin and Ristretto255. These are tests of the model, evaluated with `#guard`
while building; no theorem depends on them. They check what no theorem about the model can: that labels, order of
messages, order of random numbers, formats and constants are those of the actual code.

`lean/Verif/Tests/UnitTests.lean` does the same with the unit tests of the crate (range decompositions and their display,
range proofs in wrong contexts, bogus choices and ballots, square roots, Lagrange coefficients, points of small order
and mangled points, malformed keys in JSON) and with the examples in the docs of `sharing` and `dkg`.

## 7. Axioms per theorem

<!-- axioms:begin -->

Axioms `propext` (1 theorems):

`C52_roundtrip_opening`.

Axioms `Quot.sound`, `propext` (81 theorems):

`C01_decrypt_encrypt`, `C01_decrypt_encryptElement`, `C01_encrypts_iff_decrypts`, `C01_keypair_generate`, `C02_get_none`, `C02_get_sound`, `C02_get_total`, `C02_zero_always_found`, `C03_homomorphic`, `C03_homomorphic_scalars`, `C04_key_arithmetic`, `C04_key_arithmetic_total`, `C04_keypair_new`, `C04_keypair_scale`, `C04_secret_sub`, `C05_from_bytes_spec`, `C05_identity_not_parsed`, `C05_parsed_bytes`, `C05_roundtrip`, `C07_eq_iff`, `C10_candidate_iff`, `C10_candidate_roundtrip`, `C10_ciphertext_bytes`, `C10_log_eq_roundtrip`, `C10_log_eq_size`, `C17_ciphertext_with_value`, `C24_bad_length`, `C28_overflow_debug`, `C28_small`, `C32_params`, `C35_params_zero`, `C40_params_new`, `C41_dealer_shares`, `C46_share_error_unchanged`, `C47_public_info`, `C50_log_eq_zero_proof_parses`, `C52_ciphertext_ok`, `C52_element_accepts`, `C52_element_canonical`, `C52_hash_accepts`, `C52_key_set_ok`, `C52_keypair_accepts`, `C52_log_eq_accepts`, `C52_malformed`, `C52_not_bytes`, `C52_opening_accepts`, `C52_proofs_ok`, `C52_public_key_accepts`, `C52_range_ok`, `C52_roundtrip_decryption`, `C52_roundtrip_element`, `C52_roundtrip_keypair`, `C52_roundtrip_public_key`, `C52_roundtrip_scalar`, `C52_roundtrip_secret_key`, `C52_roundtrip_vec`, `C52_scalar_accepts`, `C52_secret_key_accepts`, `C52_short_proofs`, `C52_vec_accepts`, `C52_vec_short`, `C52_wrong_length`, `C53_double_mul`, `C53_multi_mul_lengths`, `C62_too_large`, `C79_chacha_stream`, `C86_successive`, `C87_check_share`, `C87_decryption`, `C87_encryption`, `C87_keys`, `C97_ciphertext_with_value`, `C97_collecting`, `C97_dealer`, `C97_exchanging_secrets`, `C97_extended_ciphertext`, `C97_growth_copies`, `C97_keypair`, `C97_participant`, `C97_ring_builder`, `C97_secret_key`.

Axioms `Classical.choice`, `Quot.sound`, `propext` (491 theorems):

`C02_decrypt_encrypt`, `C02_get_complete`, `C02_new_total`, `C06_from_bytes_iff`, `C06_from_bytes_none`, `C08_decryption_complete`, `C08_decryption_new_total`, `C08_encrypt_decrypt`, `C09_decryption_sound`, `C10_log_eq_canonical`, `C11_log_eq_complete`, `C11_log_eq_new_total`, `C11_log_eq_new_total_sec1`, `C12_log_eq_extract`, `C12_log_eq_sound`, `C13_commitment_base_unbound`, `C13_commitment_binding`, `C13_decryption_binding`, `C13_log_eq_binding`, `C13_pop_binding`, `C13_range_binding`, `C13_ring_binding`, `C13_sum_sq_binding`, `C14_pop_complete`, `C14_pop_new_total`, `C15_pop_extract`, `C16_pop_len_mismatch`, `C16_range_len_mismatch`, `C16_ring_len_mismatch`, `C16_sum_sq_len_mismatch`, `C17_commitment_complete`, `C17_commitment_new_total`, `C18_commitment_extract`, `C18_commitment_sound_zero_base`, `C19_sum_sq_complete`, `C19_sum_sq_new_total`, `C20_sum_sq_sound`, `C21_zero_complete`, `C21_zero_sound`, `C21_zero_total`, `C22_bool_complete`, `C22_bool_total`, `C22_ring_complete`, `C22_ring_total`, `C23_bool_sound`, `C23_forgeable_unique`, `C23_late_values`, `C23_ring_sound`, `C23_ring_sound_no_values`, `C23_single_value_unsound`, `C24_bad_scalar`, `C24_from_bytes_iff`, `C24_from_bytes_total`, `C25_covers`, `C25_nested`, `C26_decompose`, `C26_decompose_out_of_range`, `C26_prepared_decompose`, `C26_prepared_total`, `C27_estimate_exact`, `C27_estimate_int`, `C27_lower_bound`, `C27_optimal`, `C28_overflow_release`, `C28_total`, `C29_bounds_distinct`, `C29_display_injective`, `C29_optimal_steps`, `C30_encrypt_range`, `C30_encrypt_range_total`, `C30_range_complete`, `C30_range_panics`, `C30_range_total`, `C31_range_sound`, `C32_choice_complete`, `C32_choice_total`, `C32_single_complete`, `C32_single_total`, `C33_choice_sound`, `C34_multi_tally`, `C34_single_tally`, `C35_isqrt`, `C35_params_new`, `C35_params_overflow`, `C35_set_max_votes`, `C35_set_max_votes_panics`, `C35_set_max_votes_wraps`, `C36_ballot_complete`, `C36_ballot_total`, `C36_ballot_wraps`, `C37_ballot_sound`, `C37_tally`, `C38_choice_count`, `C38_choice_range`, `C38_choice_sum`, `C38_voting_count`, `C38_voting_credit`, `C38_voting_equivalence`, `C38_voting_variant`, `C39_combine`, `C39_combine_decrypts`, `C40_duplicates`, `C40_ignores_rest`, `C40_insufficient`, `C40_panics`, `C41_any_secret`, `C41_equally_likely`, `C41_simulate`, `C41_unique`, `C42_dealer`, `C42_dealer_accepted`, `C42_dealer_total`, `C42_key_set_errors`, `C42_key_set_new`, `C42_participant`, `C42_share_accepted`, `C42_wrong_degree`, `C43_errors`, `C43_ok_iff`, `C43_restored`, `C44_participant_pop`, `C44_participant_pop_hash`, `C44_participant_pop_hash_inj`, `C44_share_bad_hash`, `C44_share_complete`, `C44_share_hash`, `C44_share_hash_inj`, `C44_share_index`, `C44_share_sound`, `C44_share_total`, `C45_any_ciphertext`, `C45_end_to_end`, `C45_verified_shares`, `C46_commitments`, `C46_info_error_unchanged`, `C46_polynomials`, `C46_shares`, `C47_agree`, `C47_complete`, `C47_complete_total`, `C47_decrypt`, `C47_honest`, `C47_info_accepted`, `C47_own_polynomial`, `C47_own_replaced`, `C47_share_accepted`, `C48_binding`, `C48_reject`, `C48_replay`, `C48_rest_unbound`, `C49_complete`, `C49_finish_commitments`, `C49_finish_polynomials`, `C49_insert_commitment`, `C49_insert_polynomial`, `C49_insert_share`, `C49_new`, `C49_secret_share`, `C50_bool_verify_panics_sec1`, `C50_bool_verify_total`, `C50_choice_verify_panics_sec1`, `C50_choice_verify_total`, `C50_commitment_verify_panics_sec1`, `C50_commitment_verify_total`, `C50_complete_panics_sec1`, `C50_decryption_verify_total`, `C50_deserialize_keypair`, `C50_from_participants_panics_sec1`, `C50_from_participants_total`, `C50_insert_polynomial_panics_sec1`, `C50_key_set_new_total`, `C50_log_eq_verify_panics_sec1`, `C50_log_eq_verify_total`, `C50_pop_verify_panics_sec1`, `C50_pop_verify_total`, `C50_range_verify_panics_sec1`, `C50_range_verify_total`, `C50_ring_verify_total`, `C50_sum_sq_verify_total`, `C50_verify_participant`, `C50_verify_share_total`, `C50_voting_verify_panics_sec1`, `C50_voting_verify_total`, `C50_zero_verify_total`, `C51_commitment_zk`, `C51_log_eq_simulate`, `C51_log_eq_zk`, `C51_pop_zk`, `C51_range_zk`, `C51_ring_zk`, `C51_sum_sq_zk`, `C52_ballot_ok`, `C52_fields`, `C52_participant_unvalidated`, `C52_roundtrip_ballot`, `C52_roundtrip_choice`, `C52_roundtrip_ciphertext`, `C52_roundtrip_collecting_commitments`, `C52_roundtrip_collecting_polynomials`, `C52_roundtrip_commitment_eq`, `C52_roundtrip_dealer`, `C52_roundtrip_exchanging_secrets`, `C52_roundtrip_key_set`, `C52_roundtrip_log_eq`, `C52_roundtrip_participant`, `C52_roundtrip_pop`, `C52_roundtrip_public_info`, `C52_roundtrip_range`, `C52_roundtrip_ring`, `C52_roundtrip_sum_of_squares`, `C52_total`, `C53_invert_scalars`, `C53_multi_mul`, `C54_honest_single`, `C54_lookup`, `C54_multi_tally`, `C54_quadratic_tally`, `C54_single_tally`, `C55_decryption_bound`, `C55_log_eq_bound`, `C55_prob_true`, `C55_prob_value`, `C55_share_bound`, `C55_zero_bound`, `C56_sum_sq_bound`, `C57_bool_bound`, `C57_ring_bound`, `C58_range_bound`, `C59_multi_bound`, `C59_single_bound`, `C60_ballot_bound`, `C61_multi_bound`, `C61_quadratic_bound`, `C61_single_bound`, `C62_float_estimate`, `C62_inexact_log2`, `C62_same`, `C62_std_agrees`, `C63_curve25519_canonical_iff`, `C63_curve25519_decode`, `C63_curve25519_identity`, `C63_curve25519_lawful`, `C63_curve25519_torsion`, `C63_generic_canonical`, `C63_generic_compact_keys`, `C63_generic_decode`, `C63_generic_decode_other`, `C63_generic_identity`, `C63_generic_lawful`, `C63_ristretto`, `C63_ristretto_decode`, `C64_count`, `C64_curve25519`, `C64_distance`, `C64_ristretto`, `C65_dkg_participants`, `C65_honest_multi`, `C65_honest_quadratic`, `C65_participants_decrypt`, `C66_cpa`, `C66_cpa_bound`, `C67_choice_private`, `C67_choices_private`, `C67_simulation`, `C68_any_context_private`, `C68_any_context_simulation`, `C68_copied_ballot`, `C68_decryption_simulation`, `C68_election_private`, `C69_threshold_private`, `C69_threshold_sharp`, `C69_threshold_simulation`, `C70_commitment_knowledge`, `C70_knowledge_loss`, `C70_log_eq_knowledge`, `C70_pop_discrete_log`, `C70_pop_knowledge`, `C70_sum_sq_knowledge`, `C71_ballot`, `C71_choice`, `C71_ciphertext`, `C71_collecting_commitments`, `C71_collecting_polynomials`, `C71_commitment_eq`, `C71_dealer`, `C71_decryption`, `C71_exchanging_secrets`, `C71_key_set`, `C71_log_eq`, `C71_params`, `C71_participant`, `C71_pop`, `C71_public_info`, `C71_range`, `C71_ring`, `C71_sum_of_squares`, `C71_with_range`, `C72_decode_iff`, `C72_encode_iff`, `C72_lawful`, `C72_text_unique`, `C72_written`, `C73_encrypt_range_private`, `C73_range_private`, `C73_ranges_private`, `C73_simulation`, `C74_ballot_private`, `C74_voters_bound`, `C74_voters_private`, `C75_any_context_private`, `C75_any_context_simulation`, `C75_decryption_simulation`, `C75_election_bound`, `C75_election_private`, `C75_threshold_private`, `C75_threshold_sharp`, `C75_threshold_simulation`, `C76_cast_terminates`, `C76_no_votes`, `C76_parse_decimal`, `C76_parse_talliers`, `C76_quadratic_runs`, `C76_range_runs`, `C76_vote_runs`, `C76_vote_tallies`, `C77_challenge_injective`, `C77_collision_bound`, `C77_log_injective`, `C77_runs`, `C77_simulates`, `C78_curve25519`, `C78_curve25519_identity`, `C78_curve25519_order`, `C78_ristretto`, `C78_ristretto_decode`, `C78_ristretto_encode`, `C78_secp256k1`, `C78_secp256k1_order`, `C79_curve25519`, `C79_externals`, `C79_k256`, `C79_multiplication`, `C79_random_scalar`, `C79_ristretto`, `C79_ristretto_same`, `C79_seeded_challenge`, `C79_sha256_pad`, `C79_wide_scalars`, `C80_batch_invert`, `C80_combine_shares`, `C80_from_participants`, `C80_key_set_new`, `C80_multi_mul`, `C80_odd_items`, `C80_sum_of_squares_new`, `C80_sum_of_squares_verify`, `C80_value_at`, `C81_dkg_private`, `C81_dkg_sharp`, `C81_participant`, `C82_collecting_polynomials`, `C82_dealer`, `C82_debug_panics_sec1`, `C82_error_shows_secret`, `C82_exchanging_secrets`, `C82_extended_ciphertext`, `C82_keypair`, `C82_opening_shown`, `C82_participant`, `C82_secret_key`, `C82_secret_key_text`, `C82_value_shown`, `C82_values_shown`, `C83_messages`, `C83_sources`, `C84_bool_private`, `C84_ring_private`, `C84_simulation`, `C85_voting_bound`, `C85_voting_private`, `C85_voting_sharp`, `C86_choices`, `C86_dkg`, `C86_encrypt_small`, `C86_encryption`, `C86_proofs`, `C86_ranges`, `C86_rings`, `C86_sharing`, `C86_voting`, `C87_choices`, `C87_commitment`, `C87_dealer`, `C87_encrypt_bool`, `C87_encrypt_zero`, `C87_log_equality`, `C87_participant`, `C87_possession`, `C87_ranges`, `C87_results`, `C87_ring_order`, `C87_sum_of_squares`, `C87_verifiable_decryption`, `C87_verification_reveals`, `C87_voting`, `C88_equivalence_private`, `C88_equivalences_private`, `C88_example`, `C88_example_argument`, `C88_example_verify`, `C88_late_base`, `C88_range_knowledge`, `C88_simulation`, `C88_sum_sq_private`, `C88_zero_base_reveals`, `C89_bool_knowledge`, `C89_choice_knowledge`, `C89_credit_knowledge`, `C89_range_knowledge`, `C89_range_opening`, `C89_ring_knowledge`, `C89_vote_knowledge`, `C90_basic`, `C90_bool`, `C90_choices`, `C90_possession`, `C90_range`, `C90_range_linear`, `C90_results`, `C90_size`, `C90_sum_of_squares`, `C90_voting`, `C91_abort`, `C91_unbiased`, `C92_cca`, `C92_mix`, `C92_reencrypt`, `C92_replace_bound`, `C92_unique`, `C93_two_bound`, `C93_two_complete`, `C93_two_long`, `C94_any_context_private`, `C94_bool_private`, `C94_choice_private`, `C94_choices_private`, `C94_dkg_private`, `C94_election_private`, `C94_encrypt_range_private`, `C94_range_private`, `C94_ring_private`, `C94_spare`, `C94_spare_secp256k1`, `C94_threshold_private`, `C94_voters_bound`, `C94_voters_private`, `C94_voting_any_context_private`, `C94_voting_dkg_private`, `C94_voting_election_private`, `C94_voting_threshold_private`, `C95_ballot_replay`, `C95_choice_replay`, `C95_commitment_replay`, `C95_decryption_replay`, `C95_log_eq_replay`, `C95_pop_replay`, `C95_range_replay`, `C95_ring_replay`, `C95_share_replay`, `C95_sum_sq_replay`, `C95_zero_replay`, `C96_commitment_challenge`, `C96_commitment_unique`, `C96_commitment_zero_base`, `C96_log_eq_challenge`, `C96_log_eq_unique`, `C96_pop_challenge`, `C96_pop_unique`, `C96_ring_last_unique`, `C96_ring_not_unique`, `C96_sum_sq_challenge`, `C96_sum_sq_unique`, `C97_bool_rings`, `C97_choice_rings`, `C97_decomposition`, `C97_index_left`, `C97_possession_nonces_left`, `C97_range_rings`, `C97_rings_left`, `C97_single_choice`, `C97_square_nonces_left`.

<!-- axioms:end -->
