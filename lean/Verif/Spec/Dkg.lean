import Verif.Spec.Sharing
import Verif.Model.Dkg

/-!
# Specifications for distributed key generation

Histories of messages given to a participant. A message that makes a method panic leaves the participant as
it was: every assertion precedes the writes (cf. the order of statements in `src/dkg.rs:249-255, 378-394,
474-496`).
-/

set_option autoImplicit false

namespace ElasticElgamal.Spec

variable {F E : Type}

/-- Indexes in increasing order of the items of a list of length `n` for which `missing` holds. -/
def indexesWhere (n : ℕ) (missing : ℕ → Prop) [DecidablePred missing] : List ℕ :=
  (List.range n).filter fun i => missing i

/-- The first message from participant `i`. -/
def firstFrom {α : Type} (messages : List (ℕ × α)) (i : ℕ) : Option α :=
  (messages.find? fun m => m.1 = i).map Prod.snd

/-- Give commitments to the participant, in order. -/
def runCommitments (messages : List (ℕ × Bytes)) (p : CollectingCommitments F E) :
    CollectingCommitments F E :=
  messages.foldl (fun p m => (p.insertCommitment m.1 m.2).getD p) p

variable [Field F] [AddCommGroup E] [Module F E]

/-- Give public infos to the participant, in order. -/
def runPolynomials [DecidableEq F] (B : Backend F E) (messages : List (ℕ × PublicInfo F E))
    (p : CollectingPolynomials F E) : CollectingPolynomials F E :=
  messages.foldl (fun p m => ((p.insertPublicPolynomial B m.1 m.2).map Prod.snd).getD p) p

/-- Give secret shares to the participant, in order. -/
def runShares [DecidableEq E] (B : Backend F E) (messages : List (ℕ × F)) (p : ExchangingSecrets F E) :
    ExchangingSecrets F E :=
  messages.foldl (fun p m => ((p.insertSecretShare B m.1 m.2).map Prod.snd).getD p) p

/-- All messages ever given to a participant. -/
structure DkgHistory (F E : Type) where
  commitments : List (ℕ × Bytes)
  polynomials : List (ℕ × PublicInfo F E)
  shares : List (ℕ × F)

/-- State at the end of the first phase. -/
def dkgCommitments (B : Backend F E) (params : Params) (index : ℕ) (rng : B.Rng) (h : DkgHistory F E) :
    Option (CollectingCommitments F E) := do
  let (p, _) ← CollectingCommitments.new B params index rng
  return runCommitments h.commitments p

/-- State at the end of the second phase. -/
def dkgPolynomials [DecidableEq F] (B : Backend F E) (params : Params) (index : ℕ) (rng : B.Rng)
    (h : DkgHistory F E) : Option (CollectingPolynomials F E) := do
  let p ← dkgCommitments B params index rng h
  return runPolynomials B h.polynomials (← p.finishCommitmentPhase)

/-- State at the end of the third phase, before `complete()`. -/
def dkgShares [DecidableEq F] [DecidableEq E] (B : Backend F E) (params : Params) (index : ℕ) (rng : B.Rng)
    (h : DkgHistory F E) : Option (ExchangingSecrets F E) := do
  let p ← dkgPolynomials B params index rng h
  return runShares B h.shares (← p.finishPolynomialsPhase)

/-- The bytes are the hash commitment to the element with the given opening. -/
def Opens (B : Backend F E) (commitment : Bytes) (element : E) (opening : Bytes) : Prop :=
  ∃ b, B.serElem element = some b ∧ commitment = B.sha256 (b ++ opening)

/-- The public info matches the commitment, has the right degree and proves possession of all
coefficients. -/
def AcceptableInfo [DecidableEq F] (B : Backend F E) (params : Params) (commitment : Bytes)
    (info : PublicInfo F E) : Prop :=
  (∃ c, info.polynomial.head? = some c ∧ Opens B commitment c info.opening) ∧
  info.polynomial.length = params.threshold ∧
  ∃ (keys : List (PublicKey E)) (t' : Transcript),
    List.Forall₂ (fun e pk => IsKey B pk e) info.polynomial keys ∧
    info.proofOfPossession.verify B keys ⟨dealerLog params⟩ = some (.ok (), t')

/-- The share lies on the sender's polynomial (and the corresponding public key can be encoded). -/
def AcceptableShare (B : Backend F E) (index : ℕ) (polynomial : List E) (share : F) : Prop :=
  share • B.gen = polyAt ((index : F) + 1) polynomial ∧ ∃ b, B.serElem (share • B.gen) = some b

/-- Sum of polynomials with `t` coefficients. -/
def polySum (t : ℕ) (polys : List (List E)) : List E :=
  (List.range t).map fun k => (polys.map fun poly => poly.getD k 0).sum

end ElasticElgamal.Spec
