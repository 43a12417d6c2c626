import Verif.Spec.Threshold
import Verif.Spec.Dkg

/-!
# Specifications: elections with a key made by distributed key generation
-/

set_option autoImplicit false

namespace ElasticElgamal.Spec

variable {F E : Type} [Field F] [Fintype F] [AddCommGroup E] [Module F E] [DecidableEq F] [DecidableEq E]

/-- Labels of the transcripts of ballots, of proofs of possession made by participants, and of shares of decryptions. -/
def electionLabels : List String :=
  ["encrypted_choice_ranges", "choice_encryption_sum", "quadratic_voting_variant", "quadratic_voting_credit_range",
    "quadratic_voting_credit_equiv", "elgamal_participant_pop", "elgamal_decryption_share"]

/-- Data hashed after key generation. -/
def ElectionData (q : List Entry) : Prop := ∃ label ∈ electionLabels, (Transcript.new label).log <+: q

instance : DecidablePred ElectionData := fun q =>
  inferInstanceAs (Decidable (∃ label ∈ electionLabels, (Transcript.new label).log <+: q))

/-- How an attacker chooses the coefficients of the polynomials of all participants but one: from the polynomial published
by that participant, its proof of possession, and the secret shares sent by it to `c` participants. -/
abbrev DkgStrategy (F E : Type) (params : Params) (c : ℕ) : Type :=
  (List Entry → F) → List E × ProofOfPossession F → (Fin c → F) → Fin params.shares → Fin params.threshold → F

/-- The participant that has got all polynomials and shares, after the last step of key generation. -/
def dkgParticipant (B : Backend F E) (params : Params) (dealer : Dealer F E) (polynomials : List (List E)) (index : ℕ)
    (share : F) : Option (ActiveParticipant F E) :=
  match ExchangingSecrets.complete B
    ⟨params, index, dealer, polynomials, share, List.replicate params.shares true⟩ with
  | some (.ok participant) => some participant
  | _ => none

/-- One run of key generation and an election, for a given tape of the participant `honest` and a given hash function.
The polynomials of all other participants are chosen by the attacker after it has seen the polynomial of
`honest` and the shares of the participants `bad`. All participants complete key generation and prove possession
of their shares; voters create ballots; participants publish shares of decryptions of all totals. The attacker sees
all of this. (It knows the polynomials of other participants, since it has chosen them.) -/
noncomputable def dkgRun (B : Backend F E) {β : Type} {n o d c : ℕ} (params : Params) (honest : Fin params.shares)
    (bad : Fin c → ℕ) (others : DkgStrategy F E params c) (poll : Poll F E β n o d)
    (guess : (List Entry → F) → ThresholdView F E β n o c params.shares → ℚ) (H : List Entry → F) (tape : List F) :
    ℚ :=
  match Dealer.new (B.withHash H).withTape params tape with
  | none => 0
  | some (dealer, _) =>
    let corrupted := fun a => (dealer.secretShareForParticipant (bad a)).getD 0
    let secrets := others H dealer.publicInfo corrupted
    let polynomials := List.ofFn fun j : Fin params.shares =>
      if j = honest then dealer.publicInfo.1 else List.ofFn fun m => secrets j m • B.gen
    let share := fun i : ℕ => ∑ j : Fin params.shares,
      if j = honest then (dealer.secretShareForParticipant i).getD 0 else polyAt ((i : F) + 1) (List.ofFn (secrets j))
    let participant := fun i : ℕ => dkgParticipant (B.withHash H) params dealer polynomials i (share i)
    match participant honest with
    | none => 0
    | some target =>
      mean fun tapes : Fin n → Fin d → F => mean fun ys : Fin params.shares → F =>
      mean fun xs : Fin params.shares → Fin o → F =>
        let ballots := poll.ballots (B.withHash H) target.keySet.sharedKey tapes
        guess H
          { publicInfo := dealer.publicInfo
            keySet := target.keySet
            corrupted
            ballots
            possession := fun i => do
              let (proof, _) ← (← participant i).proofOfPossession (B.withHash H).withTape [ys i]
              return proof
            decryptions := fun i j => do
              let (share, _) ← (← participant i).decryptShare (B.withHash H).withTape (poll.totals ballots j) [xs i j]
              return share }

/-- The election game with distributed key generation: the tape of the honest participant and the hash function are
random. -/
noncomputable def dkgGame (B : Backend F E) (D : Finset (List Entry)) (H₀ : List Entry → F) {β : Type}
    {n o d c : ℕ} (params : Params) (honest : Fin params.shares) (bad : Fin c → ℕ) (others : DkgStrategy F E params c)
    (poll : Poll F E β n o d) (guess : (List Entry → F) → ThresholdView F E β n o c params.shares → ℚ) : ℚ :=
  meanHash D H₀ fun H => mean fun coefficients : Fin params.threshold → F => mean fun nonces : Fin params.threshold → F =>
    dkgRun B params honest bad others poll guess H (List.ofFn coefficients ++ List.ofFn nonces)

/-! ## The simulation -/

/-- The sum of the values of all polynomials but one. -/
def offsetAt {params : Params} (honest : Fin params.shares) (secrets : Fin params.shares → Fin params.threshold → F)
    (x : F) : F :=
  ∑ j, if j = honest then 0 else polyAt x (List.ofFn (secrets j))

/-- The results of key generation. -/
structure KeyGen (F E : Type) where
  hash : List Entry → F
  publicInfo : List E × ProofOfPossession F
  offset : F → F

/-- Key generation in which the key of the honest participant is `X`: its secret shares for the participants `bad` are
given, which determines the public polynomial. The proof is given, and the hash function is changed such that this is
valid. -/
noncomputable def simulatedKeyGen (B : Backend F E) {c : ℕ} (params : Params) (honest : Fin params.shares)
    (bad : Fin c → ℕ) (others : DkgStrategy F E params c) (shares : Fin c → F)
    (proof : F × (Fin params.threshold → F)) (H : List Entry → F) (X : E) : KeyGen F E :=
  let poly : List E := sharePolynomial (F := F) bad X fun a => shares a • B.gen
  let pop : ProofOfPossession F := ⟨proof.1, List.ofFn proof.2⟩
  let hash := program H (popPoint (B.withHash H) (poly.map (keyOf B)) (sharePolyTranscript params) pop)
  ⟨hash, (poly, pop), offsetAt honest (others hash (poly, pop) shares)⟩

/-- The shared key. -/
def KeyGen.key (B : Backend F E) (gen : KeyGen F E) (X : E) : PublicKey E := keyOf B (X + gen.offset 0 • B.gen)

/-- An attacker against ballots made of an attacker against the election: proofs of possession and decryptions are made
from the shares of the participants `bad` and the numbers of votes. -/
noncomputable def withDkg (B : Backend F E) {β : Type} {n o c : ℕ} (params : Params) (bad : Fin c → ℕ)
    (totals : (Fin n → Option β) → Fin o → Ciphertext E) (counts : PublicKey E → Fin o → ℕ)
    (guess : (List Entry → F) → ThresholdView F E β n o c params.shares → ℚ) (shares : Fin c → F) (gen : KeyGen F E)
    (H : List Entry → F) (K : PublicKey E) (ballots : Fin n → Option β) : ℚ :=
  mean fun proofs : (Fin params.shares → F × F) × (Fin params.shares → Fin o → LogEqualityProof F) =>
    let total := fun a => shares a + gen.offset ((bad a : F) + 1)
    let poly : List E := sharePolynomial (F := F) bad K.element fun a => total a • B.gen
    let ks := keySetOf B params poly
    let possession := fun i => (⟨(proofs.1 i).1, [(proofs.1 i).2]⟩ : ProofOfPossession F)
    let decryptions : Fin params.shares → Fin o → VerifiableDecryption E × LogEqualityProof F := fun i j =>
      (⟨polyAt ((i : F) + 1) (sharePolynomial (F := F) bad
        ((totals ballots j).blinded - (counts K j : F) • B.gen) fun a => total a • (totals ballots j).random)⟩,
        proofs.2 i j)
    let points :=
      (List.ofFn fun i : Fin params.shares => popPoint (B.withHash H) [keyOf B (polyAt ((i : F) + 1) poly)]
        (ks.popTranscript i) (possession i)).flatten ++
      (List.ofFn fun i : Fin params.shares => (List.ofFn fun j : Fin o => sharePoint (B.withHash H) ks i
        (polyAt ((i : F) + 1) poly) (totals ballots j) (decryptions i j)).flatten).flatten
    guess (program H points)
      { publicInfo := gen.publicInfo
        keySet := ks
        corrupted := shares
        ballots
        possession := fun i => some (possession i)
        decryptions := fun i j => some (decryptions i j) }

/-- A ciphertext for the key `K` as one of the same message for the key `K + γ·G`. -/
def shiftCiphertext (γ : F) (ct : Ciphertext E) : Ciphertext E := ⟨ct.random, ct.blinded + γ • ct.random⟩

/-- A reduction from the decisional Diffie–Hellman problem `X`, `Y`, `Z`: `X` is the key of the honest participant, and
the ciphertext number `i` in the ballot of voter `v`, who votes according to `w`, is made of `Y` and `Z`. -/
noncomputable def dkgReduction (B : Backend F E) (D : Finset (List Entry)) (H₀ : List Entry → F) {n o c : ℕ}
    (params : Params) (honest : Fin params.shares) (bad : Fin c → ℕ) (others : DkgStrategy F E params c)
    {kind : ChoiceKind} (votes votes' w : PublicKey E → Fin n → Fin o → Bool)
    (guess : (List Entry → F) → ThresholdView F E (EncryptedChoice F E kind) n o c params.shares → ℚ)
    (v : Fin n) (i : Fin o) (X Y Z : E) : ℚ :=
  mean fun shares : Fin c → F => mean fun proof : F × (Fin params.threshold → F) =>
  meanHash (D.filter fun q => ¬ ElectionData q) H₀ fun H =>
    let gen := simulatedKeyGen B params honest bad others shares proof H
    hybridReduction B (fun X j => if w ((gen X).key B X) v j then B.gen else 0)
      (fun X cts => simulatedGuess B (D.filter ElectionData) (gen X).hash
        (embedBallot B votes votes'
          (withDkg B params bad optionTotal (fun K => voteCounts (votes K)) guess shares (gen X)) v)
        ((gen X).key B X) fun j => shiftCiphertext ((gen X).offset 0) (cts j)) i X Y Z

/-- An attacker that knows the shares of the honest participant for `threshold` participants: it computes the secret of the
honest participant, adds its own ones, and decrypts option `j` of the ballot of voter `v`. -/
noncomputable def dkgDecryptingGuess (B : Backend F E) {n o c : ℕ} {params : Params} {kind : ChoiceKind}
    (honest : Fin params.shares) (bad : Fin c → ℕ) (others : DkgStrategy F E params c) (v : Fin n) (j : Fin o)
    (H : List Entry → F) (view : ThresholdView F E (EncryptedChoice F E kind) n o c params.shares) : ℚ :=
  let k := polyAt (0 : F) (interpolating (Finset.univ : Finset (Fin c)) (fun a => (bad a : F) + 1) view.corrupted) +
    offsetAt honest (others H view.publicInfo view.corrupted) 0
  if ((view.ballots v).bind fun ballot => ballot.choices[j.1]?).map (SecretKey.decryptToElement k) = some B.gen then 1 else 0

end ElasticElgamal.Spec
