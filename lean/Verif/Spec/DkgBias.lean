import Verif.Spec.Dkg
import Verif.Spec.Oracle
import Verif.Spec.Privacy
import Verif.Spec.Knowledge

/-!
# Specifications: who determines the key made by distributed key generation

All participants but one are controlled by an attacker. SHA-256 is a random function (of arbitrary byte strings, with
values of 32 bytes). The attacker speaks last in all phases: it gets the hash commitment of the honest participant
before it sends its own ones, and the polynomial, the proof and the opening of the honest participant before it sends
its own ones. It may evaluate SHA-256 a bounded number of times, and is otherwise unbounded: it may compute discrete
logarithms.
-/

set_option autoImplicit false

namespace ElasticElgamal

/-- Hash values of SHA-256, and openings: 32 bytes. -/
abbrev Digest : Type := Fin 32 → UInt8

instance : Fintype UInt8 :=
  Fintype.ofEquiv (Fin 256) ⟨UInt8.ofFin, UInt8.toFin, fun _ => rfl, fun _ => rfl⟩

variable {F E : Type}

/-- The same group, codecs and RNG with another function instead of SHA-256. -/
@[reducible] def Backend.withSha (B : Backend F E) (H : Bytes → Digest) : Backend F E :=
  { B with sha256 := fun data => List.ofFn (H data) }

/-- The same backend with tapes of scalars and of 32-byte strings as the RNG. -/
@[reducible] def Backend.withTapes [Zero F] (B : Backend F E) : Backend F E :=
  { B with
    Rng := List F × List Digest
    genScalar := fun tape => (tape.1.headD 0, tape.1.tail, tape.2)
    fill32 := fun tape => (List.ofFn (tape.2.headD fun _ => 0), tape.1, tape.2.tail) }

namespace Spec

/-- An attacker that controls all participants but one. From the commitment of the honest participant it makes
commitments of the others; these are arbitrary messages with arbitrary indexes. Then, from all public data of
the honest participant, it makes arbitrary messages with the public data of others. -/
structure DkgAttack (F E : Type) where
  State : Type
  commit : Bytes → OracleAlg Bytes Digest (List (ℕ × Bytes) × State)
  reveal : State → PublicInfo F E → OracleAlg Bytes Digest (List (ℕ × PublicInfo F E))

/-- The attacker evaluates SHA-256 at most `q₁` times before, and `q₂` times after the honest participant publishes its
polynomial, and sends at most `m` polynomials. -/
structure DkgAttack.Bounded (attack : DkgAttack F E) (q₁ q₂ m : ℕ) : Prop where
  commit : ∀ c, (attack.commit c).AtMost q₁
  reveal : ∀ s info, (attack.reveal s info).AtMost q₂
  messages : ∀ s info H, ((attack.reveal s info).run H).length ≤ m

variable [Field F] [AddCommGroup E] [Module F E] [DecidableEq F] [DecidableEq E]

/-- With the given hash function and random choices of the participant `index` (scalars and an opening), and for
some shares sent in the last phase, key generation is completed by this participant, and the shared key is in `S`. -/
def DkgAttack.Yields (attack : DkgAttack F E) (B : Backend F E) (params : Params) (index : ℕ) (S : Finset E)
    (H : Bytes → Digest) (scalars : List F) (opening : Digest) : Prop :=
  ∃ start own, (CollectingCommitments.new (B.withSha H).withTapes params index
      (scalars, [opening])).map Prod.fst = some start ∧ start.commitment = some own ∧
  let (commitments, state) := (attack.commit own).run H
  ∃ collecting, (runCommitments commitments start).finishCommitmentPhase = some collecting ∧
  let polynomials := (attack.reveal state collecting.publicInfo).run H
  ∃ shares exchanging result, dkgShares (B.withSha H).withTapes params index (scalars, [opening])
      ⟨commitments, polynomials, shares⟩ = some exchanging ∧
    exchanging.complete (B.withSha H).withTapes = some (.ok result) ∧ result.keySet.sharedKey.element ∈ S

/-- The probability that the attacker gets a key in `S`: the hash function, the scalars and the opening of the honest
participant are random. Its first scalar is the constant term of its polynomial (cf. C86). -/
noncomputable def DkgAttack.probability [Fintype F] (attack : DkgAttack F E) (B : Backend F E) (params : Params)
    (index : ℕ) (S : Finset E) (D : Finset Bytes) (H₀ : Bytes → Digest) : ℚ :=
  meanHash D H₀ fun H => mean fun scalars : Fin (2 * params.threshold) → F => mean fun opening : Digest =>
    ind (attack.Yields B params index S H (List.ofFn scalars) opening)

end Spec

end ElasticElgamal
