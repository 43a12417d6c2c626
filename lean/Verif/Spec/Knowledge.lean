import Verif.Spec.Privacy
import Verif.Spec.Transcript
import Verif.Model.Proofs.Possession
import Verif.Model.Proofs.Commitment
import Verif.Model.Proofs.SumOfSquares

/-!
# Specifications: extraction of secrets by running a prover twice

A prover "knows" secrets if they can be computed by running it. The extractor runs the prover (an arbitrary
algorithm with access to the hash function), changes the hash function at the data hashed for the output, to
a new random value, and runs the prover again. The secrets are computed from the two outputs.
-/

set_option autoImplicit false

namespace ElasticElgamal.Spec

/-- The outputs of an algorithm and of a second run, in which the hash value of the data that belong to the first
output is replaced by `c`. -/
def rewind {Q A α : Type} [DecidableEq Q] (alg : OracleAlg Q A α) (point : α → Q) (H : Q → A) (c : A) : α × α :=
  (alg.run H, alg.run (Function.update H (point (alg.run H)) c))

open Classical in
/-- 1 if the proposition holds, 0 otherwise. -/
noncomputable def ind (P : Prop) : ℚ := if P then 1 else 0

/-- "Whenever the outputs of `alg` are good with probability `ε`, two runs of it are as desired with
probability at least `ε² / (n + 1) - ε / |A|`." The probability is over the choices of `alg` (`Ω`), the hash
function, and the new hash value of the second run. As in `ProbLe`, the hash values of finitely many data are
random, all others are fixed in any way. -/
def Extractable {Q A Ω α : Type} [DecidableEq Q] [Fintype A] [Fintype Ω] (alg : Ω → OracleAlg Q A α) (point : α → Q)
    (n : ℕ) (good : Ω → (Q → A) → α → Prop) (desired : Ω → α × α → Prop) : Prop :=
  ∃ D₀ : Finset Q, ∀ D, D₀ ⊆ D → ∀ H₀ : Q → A, ∀ ε : ℚ,
    ε = (meanHash D H₀ fun H => mean fun ω => ind (good ω H ((alg ω).run H))) →
    ε ^ 2 / (n + 1) - ε / Fintype.card A ≤
      meanHash D H₀ fun H => mean fun ω => mean fun c => ind (desired ω (rewind (alg ω) point H c))

/-- A hash function with a new value for the data hashed in evaluation number `k`. -/
def rewindAt {Q A α : Type} [DecidableEq Q] (alg : OracleAlg Q A α) (k : ℕ) (H : Q → A) (c : A) : Q → A :=
  match (alg.queries H)[k]? with
  | some q => Function.update H q c
  | none => H

/-- Extraction of `m` parts of a secret, where it is not clear in advance which hash value is to be changed: the
extractor chooses one of (at most) `n` evaluations at random. "Whenever runs of `alg` are good with
probability `ε`, then with probability at least `ε / 2` a run is good and such that for every part `i`, a second run is
as desired with probability at least `(ε / (2 m n²) - 1 / |A|) / n`." The first probability is over the choices of
`alg` (`Ω`) and the hash function, the second one is over the number of the evaluation and the new hash value. So
the extractor obtains all parts when it makes sufficiently many runs. -/
def ExtractableParts {Q A Ω α : Type} [DecidableEq Q] [Fintype A] [Fintype Ω] (alg : Ω → OracleAlg Q A α) {m : ℕ}
    (n : ℕ) (good : Ω → (Q → A) → Prop) (desired : Ω → Fin m → (Q → A) → (Q → A) → Prop) : Prop :=
  ∃ D₀ : Finset Q, ∀ D, D₀ ⊆ D → ∀ H₀ : Q → A, ∀ ε : ℚ,
    ε = (meanHash D H₀ fun H => mean fun ω => ind (good ω H)) →
    ε / 2 ≤ meanHash D H₀ fun H => mean fun ω => ind (good ω H ∧ ∀ i,
      (ε / (2 * m * n ^ 2) - 1 / Fintype.card A) / n ≤
        mean fun k : Fin n => mean fun c => ind (desired ω i H (rewindAt (alg ω) k H c)))

variable {F E : Type} [Field F] [AddCommGroup E] [Module F E] [DecidableEq F]

/-- A log equality proof with its statement and context. -/
structure LogEqOutput (F E : Type) where
  context : Transcript
  key : PublicKey E
  powers : E × E
  proof : LogEqualityProof F

/-- The verifier accepts. -/
def LogEqOutput.Accepted (B : Backend F E) (o : LogEqOutput F E) (H : List Entry → F) : Prop :=
  WellFormedKey B o.key ∧ ∃ t, o.proof.verify (B.withHash H) o.key o.powers o.context = some (.ok (), t)

/-- The data hashed by the verifier. -/
def LogEqOutput.hashed (B : Backend F E) (o : LogEqOutput F E) : List Entry :=
  match o.proof.verify B o.key o.powers o.context with
  | some (_, t) => t.log
  | none => []

/-- The discrete logarithm computed from two outputs. -/
def LogEqOutput.extract (o o' : LogEqOutput F E) : F :=
  (o.proof.response - o'.proof.response) / (o.proof.challenge - o'.proof.challenge)

/-- A proof of possession with its keys and context. -/
structure PossessionOutput (F E : Type) where
  context : Transcript
  keys : List (PublicKey E)
  proof : ProofOfPossession F

/-- The verifier accepts. -/
def PossessionOutput.Accepted (B : Backend F E) (o : PossessionOutput F E) (H : List Entry → F) : Prop :=
  (∀ pk ∈ o.keys, WellFormedKey B pk) ∧ ∃ t, o.proof.verify (B.withHash H) o.keys o.context = some (.ok (), t)

/-- The data hashed by the verifier. -/
def PossessionOutput.hashed (B : Backend F E) (o : PossessionOutput F E) : List Entry :=
  match o.proof.verify B o.keys o.context with
  | some (_, t) => t.log
  | none => []

/-- The secret keys computed from two outputs. -/
def PossessionOutput.extract (o o' : PossessionOutput F E) : List F :=
  List.zipWith (fun s s' => (s - s') / (o.proof.challenge - o'.proof.challenge)) o.proof.responses o'.proof.responses

/-- A commitment equivalence proof with its statement and context. The blinding base is a parameter of the
application; it is not chosen by the prover. -/
structure CommitmentOutput (F E : Type) where
  context : Transcript
  key : PublicKey E
  ciphertext : Ciphertext E
  commitment : E
  proof : CommitmentEquivalenceProof F

/-- The verifier accepts. -/
def CommitmentOutput.Accepted (B : Backend F E) (base : E) (o : CommitmentOutput F E) (H : List Entry → F) : Prop :=
  WellFormedKey B o.key ∧
    ∃ t, o.proof.verify (B.withHash H) o.ciphertext o.key o.commitment base o.context = some (.ok (), t)

/-- The data hashed by the verifier. -/
def CommitmentOutput.hashed (B : Backend F E) (base : E) (o : CommitmentOutput F E) : List Entry :=
  match o.proof.verify B o.ciphertext o.key o.commitment base o.context with
  | some (_, t) => t.log
  | none => []

/-- The value, the randomness of the ciphertext and the blinding factor of the commitment computed from two
outputs. -/
def CommitmentOutput.extract (o o' : CommitmentOutput F E) : F × F × F :=
  let c := o.proof.challenge - o'.proof.challenge
  ((o.proof.valueResponse - o'.proof.valueResponse) / c,
    (o.proof.randomnessResponse - o'.proof.randomnessResponse) / c,
    (o.proof.commitmentResponse - o'.proof.commitmentResponse) / c)

/-- A sum-of-squares proof with its statement and context. -/
structure SumSqOutput (F E : Type) where
  context : Transcript
  key : PublicKey E
  ciphertexts : List (Ciphertext E)
  sumOfSquares : Ciphertext E
  proof : SumOfSquaresProof F

/-- The verifier accepts. -/
def SumSqOutput.Accepted (B : Backend F E) (o : SumSqOutput F E) (H : List Entry → F) : Prop :=
  WellFormedKey B o.key ∧
    ∃ t, o.proof.verify (B.withHash H) o.ciphertexts o.sumOfSquares o.key o.context = some (.ok (), t)

/-- The data hashed by the verifier. -/
def SumSqOutput.hashed (B : Backend F E) (o : SumSqOutput F E) : List Entry :=
  match o.proof.verify B o.ciphertexts o.sumOfSquares o.key o.context with
  | some (_, t) => t.log
  | none => []

/-- The values with the randomness of their ciphertexts, computed from the responses in two outputs; `c` is
the difference of challenges. Responses for the randomness alternate with those for the values. -/
def sumSqValues (c : F) : List F → List F → List (F × F)
  | e :: f :: l, e' :: f' :: l' => ((f - f') / c, (e - e') / c) :: sumSqValues c l l'
  | _, _ => []

/-- The values and the randomness of all ciphertexts computed from two outputs. The last ciphertext is made
from the others by multiplying each one by its value, plus an encryption of zero. -/
def SumSqOutput.extract (o o' : SumSqOutput F E) : List (F × F) × F :=
  let c := o.proof.challenge - o'.proof.challenge
  let l := sumSqValues c o.proof.ciphertextResponses o'.proof.ciphertextResponses
  (l, (l.map fun w => w.1 * w.2).sum + (o.proof.sumResponse - o'.proof.sumResponse) / c)

/-- The ciphertexts encrypt given values with given randomness and the last one encrypts the sum of squares
of the values. -/
def OpensSumOfSquares (B : Backend F E) (K : E) (cts : List (Ciphertext E)) (z : Ciphertext E)
    (values : List (F × F)) (randomness : F) : Prop :=
  cts = (values.map fun w => ⟨w.2 • B.gen, w.1 • B.gen + w.2 • K⟩) ∧
    z = ⟨randomness • B.gen, (values.map fun w => w.1 * w.1).sum • B.gen + randomness • K⟩

end ElasticElgamal.Spec
