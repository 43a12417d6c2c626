import Verif.Model.Sharing.Basic
import Verif.Spec.Transcript
import Mathlib.Data.Set.Defs
import Mathlib.LinearAlgebra.Lagrange

/-!
# Specifications for secret sharing
-/

set_option autoImplicit false

namespace ElasticElgamal.Spec

variable {F E : Type} [Field F] [AddCommGroup E] [Module F E]

/-- Value at `x` of the polynomial with the given coefficients, the constant term first (Horner's rule).
Used both for secret polynomials (`E = F`) and for public ones. -/
def polyAt (x : F) : List E → E
  | [] => 0
  | c :: cs => c + x • polyAt x cs

/-- The point assigned to the participant with the 0-based index `i`. -/
def point (F : Type) [Field F] (i : ℕ) : F := (i : F) + 1

/-- Parameters that `Params::new` returns. -/
def ValidParams (params : Params) : Prop := 0 < params.threshold ∧ params.threshold ≤ params.shares

/-- Secret polynomials of a dealer with threshold `t` and the given secret, for which the participants with
the given indexes get the given shares. -/
def ConsistentSecrets (t : ℕ) (secret : F) (indexes : List ℕ) (share : ℕ → F) : Set (List F) :=
  {cs | cs.length = t ∧ cs.head? = some secret ∧ ∀ i ∈ indexes, polyAt ((i : F) + 1) cs = share i}

/-- Coefficients of the polynomial of degree less than the number of nodes that has the value `y i` at the
node `v i` (Lagrange interpolation). -/
noncomputable def interpolating {ι : Type} [DecidableEq ι] (s : Finset ι) (v : ι → F) (y : ι → E) : List E :=
  (List.range s.card).map fun k => ∑ i ∈ s, (Lagrange.basis s v i).coeff k • y i

/-- Nodes for the secret and the shares of the participants with the given indexes. -/
def nodes (indexes : List ℕ) : Finset ℕ := insert 0 (indexes.toFinset.image (· + 1))

/-- The key object has the given element and its encoding as the cached bytes. -/
def IsKey (B : Backend F E) (pk : PublicKey E) (e : E) : Prop :=
  pk.element = e ∧ B.serElem e = some pk.bytes

/-- The key set belongs to the public polynomial with the given coefficients: the shared key is its value at
zero, and the key of participant `i` is its value at `i + 1`. -/
structure KeySetFor (B : Backend F E) (ks : PublicKeySet E) (cs : List E) : Prop where
  degree : cs.length = ks.params.threshold
  shared : IsKey B ks.sharedKey (polyAt (0 : F) cs)
  count : ks.participantKeys.length = ks.params.shares
  keys : ∀ (i : ℕ) (pk : PublicKey E), ks.participantKeys[i]? = some pk → IsKey B pk (polyAt ((i : F) + 1) cs)

/-- Participant keys of some public polynomial of degree less than `threshold`. -/
def OnPolynomial (F : Type) [Field F] [Module F E] (threshold : ℕ) (keys : List E) (cs : List E) : Prop :=
  cs.length = threshold ∧ ∀ (i : ℕ) (e : E), keys[i]? = some e → e = polyAt ((i : F) + 1) cs

/-- Context hashed by a participant's decryption share: parameters, encoding `K` of the shared key, index. -/
def shareLog (params : Params) (K : Bytes) (i : ℕ) : List Entry :=
  [.msg "dom-sep" (asciiBytes "elgamal_decryption_share"), .msg "n" (leBytes 8 params.shares),
    .msg "t" (leBytes 8 params.threshold), .msg "K" K, .msg "i" (leBytes 8 i)]

/-- Context hashed by a participant's proof of possession. -/
def participantLog (params : Params) (K : Bytes) (i : ℕ) : List Entry :=
  [.msg "dom-sep" (asciiBytes "elgamal_participant_pop"), .msg "n" (leBytes 8 params.shares),
    .msg "t" (leBytes 8 params.threshold), .msg "K" K, .msg "i" (leBytes 8 i)]

/-- `q` is the data hashed when checking the share `D` of participant `i` for the ciphertext: the context,
`R`, the participant's key, `D`, and the commitments computed from the proof. -/
def ShareHashInput (B : Backend F E) (ks : PublicKeySet E) (i : ℕ) (ct : Ciphertext E) (D : E)
    (proof : LogEqualityProof F) (q : List Entry) : Prop :=
  ∃ (pk : PublicKey E) (r a d x y : Bytes), ks.participantKeys[i]? = some pk ∧
    B.serElem ct.random = some r ∧ B.serElem pk.element = some a ∧ B.serElem D = some d ∧
    B.serElem (proof.response • B.gen - proof.challenge • pk.element) = some x ∧
    B.serElem (proof.response • ct.random - proof.challenge • D) = some y ∧
    q = logEqQuery (shareLog ks.params ks.sharedKey.bytes i) r a d x y

/-- `q` is the data hashed when checking the proof of possession of participant `i`. -/
def ParticipantHashInput (B : Backend F E) (ks : PublicKeySet E) (i : ℕ) (proof : ProofOfPossession F)
    (q : List Entry) : Prop :=
  ∃ (pk : PublicKey E) (s : F) (x : Bytes), ks.participantKeys[i]? = some pk ∧ proof.responses = [s] ∧
    B.serElem (s • B.gen - proof.challenge • pk.element) = some x ∧
    q = popQuery (participantLog ks.params ks.sharedKey.bytes i) [pk.bytes] [x]

/-- Context of the proof of possession of a polynomial. -/
def dealerLog (params : Params) : List Entry :=
  [.msg "dom-sep" (asciiBytes "elgamal_share_poly"), .msg "n" (leBytes 8 params.shares),
    .msg "t" (leBytes 8 params.threshold)]

end ElasticElgamal.Spec
