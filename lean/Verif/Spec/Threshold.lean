import Verif.Spec.Privacy
import Verif.Spec.Sharing

/-!
# Specifications: elections with a shared key
-/

set_option autoImplicit false

namespace ElasticElgamal.Spec

variable {F E : Type} [Field F] [Fintype F] [AddCommGroup E] [Module F E] [DecidableEq F] [DecidableEq E]

/-- The participant with the given index, with the secret share made by the dealer. -/
def dealtParticipant (B : Backend F E) (dealer : Dealer F E) (ks : PublicKeySet E) (i : ℕ) :
    Option (ActiveParticipant F E) :=
  match (dealer.secretShareForParticipant i).bind (ActiveParticipant.new B ks i) with
  | some (.ok participant) => some participant
  | _ => none

/-- What an attacker sees of an election with `n` voters and `o` options, if it knows the secret shares of `c`
participants: all data published by the dealer, the voters and the participants. -/
structure ThresholdView (F E β : Type) (n o c shares : ℕ) where
  publicInfo : List E × ProofOfPossession F
  keySet : PublicKeySet E
  corrupted : Fin c → F
  ballots : Fin n → Option β
  possession : Fin shares → Option (ProofOfPossession F)
  decryptions : Fin shares → Fin o → Option (VerifiableDecryption E × LogEqualityProof F)

/-- One run of an election with a shared key, for a given tape of the dealer and a given hash function: a dealer shares a
key; participants prove possession of their shares; voters create ballots; participants publish shares of decryptions
of all totals. The attacker sees all of this and the secret shares of the participants `bad`. -/
noncomputable def thresholdRun (B : Backend F E) {β : Type} {n o d c : ℕ} (params : Params) (bad : Fin c → ℕ)
    (poll : Poll F E β n o d)
    (guess : (List Entry → F) → ThresholdView F E β n o c params.shares → ℚ) (H : List Entry → F) (tape : List F) :
    ℚ :=
  match Dealer.new (B.withHash H).withTape params tape with
  | none => 0
  | some (dealer, _) =>
    match PublicKeySet.new (B.withHash H) params dealer.publicInfo.1 dealer.publicInfo.2 with
    | some (.ok ks) =>
      mean fun tapes : Fin n → Fin d → F => mean fun ys : Fin params.shares → F =>
      mean fun xs : Fin params.shares → Fin o → F =>
        let ballots := poll.ballots (B.withHash H) ks.sharedKey tapes
        guess H
          { publicInfo := dealer.publicInfo
            keySet := ks
            corrupted := fun a => (dealer.secretShareForParticipant (bad a)).getD 0
            ballots
            possession := fun i => do
              let participant ← dealtParticipant (B.withHash H) dealer ks i
              let (proof, _) ← participant.proofOfPossession (B.withHash H).withTape [ys i]
              return proof
            decryptions := fun i j => do
              let participant ← dealtParticipant (B.withHash H) dealer ks i
              let (share, _) ← participant.decryptShare (B.withHash H).withTape (poll.totals ballots j) [xs i j]
              return share }
    | _ => 0

/-- The election game with a shared key: the dealer's tape and the hash function are random. -/
noncomputable def thresholdGame (B : Backend F E) (D : Finset (List Entry)) (H₀ : List Entry → F) {β : Type}
    {n o d c : ℕ} (params : Params) (bad : Fin c → ℕ) (poll : Poll F E β n o d)
    (guess : (List Entry → F) → ThresholdView F E β n o c params.shares → ℚ) : ℚ :=
  meanHash D H₀ fun H => mean fun coefficients : Fin params.threshold → F => mean fun nonces : Fin params.threshold → F =>
    thresholdRun B params bad poll guess H (List.ofFn coefficients ++ List.ofFn nonces)

/-! ## The simulation -/

/-- The polynomial of degree `c` with the value `x` at zero and the values `shares` for the participants `bad`. -/
noncomputable def sharePolynomial {V : Type} [AddCommGroup V] [Module F V] {c : ℕ} (bad : Fin c → ℕ) (x : V)
    (shares : Fin c → V) : List V :=
  interpolating (Finset.univ : Finset (Fin (c + 1))) (Fin.cons (0 : F) fun a => (bad a : F) + 1 : Fin (c + 1) → F)
    (Fin.cons x shares : Fin (c + 1) → V)

/-- The key with the given group element. -/
def keyOf (B : Backend F E) (e : E) : PublicKey E := (PublicKey.fromElement B e).getD ⟨[], e⟩

/-- The key set of a public polynomial. -/
def keySetOf (B : Backend F E) (params : Params) (poly : List E) : PublicKeySet E :=
  ⟨params, keyOf B (polyAt (0 : F) poly), List.ofFn fun i : Fin params.shares => keyOf B (polyAt ((i : F) + 1) poly)⟩

/-- The hash value with which verification of a proof of possession succeeds. -/
def popPoint (B : Backend F E) (keys : List (PublicKey E)) (t : Transcript) (proof : ProofOfPossession F) :
    List (List Entry × F) :=
  match proof.verify B keys t with
  | none => []
  | some (_, t') => [(t'.log, proof.challenge)]

/-- The same for a share of a decryption. -/
def sharePoint (B : Backend F E) (ks : PublicKeySet E) (i : ℕ) (key : E) (ct : Ciphertext E)
    (share : VerifiableDecryption E × LogEqualityProof F) : List (List Entry × F) :=
  logEqPoint B (keyOf B ct.random) (key, share.1.dhElement) (ks.shareTranscript i) share.2

/-- Scalars of all proofs made by the dealer and the participants. -/
abbrev ThresholdProofs (F : Type) (o threshold shares : ℕ) : Type :=
  (F × (Fin threshold → F)) × (Fin shares → F × F) × (Fin shares → Fin o → LogEqualityProof F)

/-- An attacker against ballots made of an attacker against the election with a shared key: the secret shares of the
participants `bad` are chosen at random, which determines the public polynomial for the given key, and
decryptions made by all other participants for the given numbers of votes. Proofs are random, and the hash function
is changed such that these are valid. -/
noncomputable def withShares (B : Backend F E) {β : Type} {n o c : ℕ} (params : Params) (bad : Fin c → ℕ)
    (totals : (Fin n → Option β) → Fin o → Ciphertext E) (counts : PublicKey E → Fin o → ℕ)
    (guess : (List Entry → F) → ThresholdView F E β n o c params.shares → ℚ)
    (H : List Entry → F) (K : PublicKey E) (ballots : Fin n → Option β) : ℚ :=
  mean fun shares : Fin c → F => mean fun proofs : ThresholdProofs F o params.threshold params.shares =>
    let poly : List E := sharePolynomial (F := F) bad K.element fun a => shares a • B.gen
    let ks := keySetOf B params poly
    let dealerProof : ProofOfPossession F := ⟨proofs.1.1, List.ofFn proofs.1.2⟩
    let possession := fun i => (⟨(proofs.2.1 i).1, [(proofs.2.1 i).2]⟩ : ProofOfPossession F)
    let decryptions : Fin params.shares → Fin o → VerifiableDecryption E × LogEqualityProof F := fun i j =>
      (⟨polyAt ((i : F) + 1) (sharePolynomial (F := F) bad
        ((totals ballots j).blinded - (counts K j : F) • B.gen) fun a => shares a • (totals ballots j).random)⟩,
        proofs.2.2 i j)
    let points := popPoint (B.withHash H) (poly.map (keyOf B)) (sharePolyTranscript params) dealerProof ++
      (List.ofFn fun i : Fin params.shares => popPoint (B.withHash H) [keyOf B (polyAt ((i : F) + 1) poly)]
        (ks.popTranscript i) (possession i)).flatten ++
      (List.ofFn fun i : Fin params.shares => (List.ofFn fun j : Fin o => sharePoint (B.withHash H) ks i
        (polyAt ((i : F) + 1) poly) (totals ballots j) (decryptions i j)).flatten).flatten
    guess (program H points)
      { publicInfo := (poly, dealerProof)
        keySet := ks
        corrupted := shares
        ballots
        possession := fun i => some (possession i)
        decryptions := fun i j => some (decryptions i j) }

/-- An attacker that knows the shares of `threshold` participants: it computes the secret key and decrypts option `j` of
the ballot of voter `v`. -/
noncomputable def decryptingGuess (B : Backend F E) {n o c shares : ℕ} {kind : ChoiceKind} (bad : Fin c → ℕ) (v : Fin n)
    (j : Fin o) (_ : List Entry → F) (view : ThresholdView F E (EncryptedChoice F E kind) n o c shares) : ℚ :=
  let k := polyAt (0 : F) (interpolating (Finset.univ : Finset (Fin c)) (fun a => (bad a : F) + 1) view.corrupted)
  if ((view.ballots v).bind fun ballot => ballot.choices[j.1]?).map (SecretKey.decryptToElement k) = some B.gen then 1 else 0

end ElasticElgamal.Spec
