import Verif.Model.Base
import Verif.Model.Keys
import Verif.Model.Encryption
import Verif.Model.Decryption
import Verif.Model.Proofs.Common
import Verif.Model.Proofs.LogEquality
import Verif.Model.Proofs.Possession
import Verif.Model.Proofs.Commitment
import Verif.Model.Proofs.SumOfSquares
import Verif.Model.Proofs.Ring
import Verif.Model.Proofs.RangeDecomposition
import Verif.Model.Proofs.Range
import Verif.Model.App.Choice
import Verif.Model.App.QuadraticVoting
import Verif.Model.Sharing.Basic
import Verif.Model.Dkg
import Verif.Model.Serde
import Verif.Model.SerdeMessage
import Verif.Toy
import Verif.Lemmas.Basic
import Verif.Spec.Keys
import Verif.Props.Keys
import Verif.Spec.Transcript
import Verif.Lemmas.LogEq
import Verif.Props.LogEq
import Verif.Lemmas.Possession
import Verif.Props.Possession
import Verif.Lemmas.Commitment
import Verif.Props.Commitment
import Verif.Lemmas.SumOfSquares
import Verif.Props.SumOfSquares
import Verif.Spec.Ring
import Verif.Lemmas.Chunks
import Verif.Lemmas.Ring
import Verif.Lemmas.RingSound
import Verif.Lemmas.RingTape
import Verif.Props.Ring
import Verif.Spec.Range
import Verif.Lemmas.RangeDecomp
import Verif.Lemmas.Display
import Verif.Props.RangeDecomposition
import Verif.Spec.Prepared
import Verif.Lemmas.Range
import Verif.Props.Range
import Verif.Spec.Choice
import Verif.Lemmas.Choice
import Verif.Props.Choice
import Verif.Spec.Voting
import Verif.Lemmas.Voting
import Verif.Props.QuadraticVoting
import Verif.Spec.Sharing
import Verif.Lemmas.Sharing
import Verif.Props.Sharing
import Verif.Lemmas.KeySet
import Verif.Props.KeySet
import Verif.Props.Dkg
import Verif.Spec.Serde
import Verif.Lemmas.Serde
import Verif.Props.Serde
import Verif.Props.SerdeMessage
import Verif.Props.Group
import Verif.Spec.Tally
import Verif.Props.Tally
import Verif.Spec.Oracle
import Verif.Spec.Bounds
import Verif.Lemmas.Oracle
import Verif.Lemmas.RingOracle
import Verif.Lemmas.OracleProofs
import Verif.Props.RandomOracle
import Verif.Spec.Float
import Verif.Lemmas.Canon
import Verif.Lemmas.Float
import Verif.Props.Estimate
import Verif.Model.Group.Externals
import Verif.Model.Group.Generic
import Verif.Model.Group.Curve25519
import Verif.Lemmas.GroupImpl
import Verif.Props.GroupImpl
import Verif.Props.Election
import Verif.Spec.Privacy
import Verif.Lemmas.Simulation
import Verif.Lemmas.Points
import Verif.Lemmas.ChoicePrivacy
import Verif.Props.Privacy
import Verif.Lemmas.TallyPrivacy
import Verif.Props.ElectionPrivacy
import Verif.Lemmas.ApproxSimulation
import Verif.Lemmas.HashOnce
import Verif.Spec.Threshold
import Verif.Lemmas.ThresholdPrivacy
import Verif.Props.ThresholdPrivacy
import Verif.Spec.Knowledge
import Verif.Spec.RingKnowledge
import Verif.Lemmas.Forking
import Verif.Props.Knowledge
import Verif.Spec.Wire
import Verif.Props.Wire
import Verif.Model.Base64
import Verif.Spec.Base64
import Verif.Props.Base64
import Verif.Spec.RangePrivacy
import Verif.Lemmas.RangePrivacy
import Verif.Props.RangePrivacy
import Verif.Lemmas.HashCongr
import Verif.Spec.VotingPrivacy
import Verif.Lemmas.VotingPrivacy
import Verif.Props.VotingPrivacy
import Verif.Lemmas.VotingTally
import Verif.Props.VotingElectionPrivacy
import Verif.Model.Examples
import Verif.Spec.Examples
import Verif.Lemmas.Examples
import Verif.Props.Examples
import Verif.Model.Merlin
import Verif.Spec.Merlin
import Verif.Lemmas.Merlin
import Verif.Lemmas.MerlinParse
import Verif.Lemmas.MerlinRun
import Verif.Lemmas.MerlinBound
import Verif.Props.Merlin
import Verif.Lemmas.Curves.Pratt
import Verif.Lemmas.Curves.Primes
import Verif.Lemmas.Curves.Weierstrass
import Verif.Lemmas.Curves.SecpSlopes
import Verif.Lemmas.Curves.EdInverses
import Verif.Lemmas.Curves.EdwardsLaw
import Verif.Model.Group.Secp256k1
import Verif.Model.Group.EdwardsPoint
import Verif.Model.Group.Ed25519
import Verif.Model.Group.Ristretto255
import Verif.Lemmas.Curves.Secp256k1
import Verif.Lemmas.Curves.Ed25519
import Verif.Lemmas.Curves.Ristretto
import Verif.Lemmas.Curves.RistrettoCodec
import Verif.Lemmas.Curves.Ristretto255
import Verif.Lemmas.Curves.SmallOrdinates
import Verif.Props.Curves
import Verif.Lemmas.Curves.DoubleAdd
import Verif.Model.Group.Jacobian
import Verif.Model.Primitives.Keccak
import Verif.Model.Primitives.ChaCha
import Verif.Model.Primitives.Sha256
import Verif.Model.Group.Concrete
import Verif.Lemmas.Concrete
import Verif.Lemmas.ChaChaVector
import Verif.Props.Concrete
import Verif.Tests.Snapshots
import Verif.Tests.UnitTests
import Verif.Model.Group.Overrides
import Verif.Lemmas.Overrides
import Verif.Props.Overrides
import Verif.Spec.DkgElection
import Verif.Lemmas.DkgPrivacy
import Verif.Props.DkgPrivacy
import Verif.Model.Format
import Verif.Spec.Format
import Verif.Lemmas.Format
import Verif.Props.Format
import Verif.Spec.RingPrivacy
import Verif.Lemmas.RingPrivacy
import Verif.Props.RingPrivacy
import Verif.Spec.DkgVoting
import Verif.Lemmas.DkgVoting
import Verif.Props.DkgVoting
import Verif.Spec.Draws
import Verif.Spec.Equivalence
import Verif.Lemmas.Draws
import Verif.Props.Draws
import Verif.Model.Leakage.Ops
import Verif.Model.Leakage.Proofs
import Verif.Model.Leakage.Rings
import Verif.Model.Leakage.Verification
import Verif.Model.Equivalence
import Verif.Lemmas.Leakage
import Verif.Lemmas.LeakageTrace
import Verif.Lemmas.LeakageRings
import Verif.Spec.Cost
import Verif.Lemmas.CostVerify
import Verif.Lemmas.Cost
import Verif.Lemmas.CostProve
import Verif.Lemmas.Equivalence
import Verif.Props.Leakage
import Verif.Props.Cost
import Verif.Props.Equivalence
import Verif.Lemmas.PairForking
import Verif.Lemmas.RingKnowledge
import Verif.Props.RingKnowledge
import Verif.Spec.DkgBias
import Verif.Lemmas.Watched
import Verif.Lemmas.DkgBias
import Verif.Props.DkgBias
import Verif.Spec.Reencryption
import Verif.Props.Reencryption
import Verif.Props.TwoRanges
import Verif.Spec.Partial
import Verif.Lemmas.Partial
import Verif.Spec.PartialPrivacy
import Verif.Lemmas.PartialPrivacy
import Verif.Props.PartialPrivacy
import Verif.Lemmas.PartialRange
import Verif.Lemmas.PartialVoting
import Verif.Lemmas.PartialGames
import Verif.Props.PartialVoting
import Verif.Props.RingLate
import Verif.Spec.PartialThreshold
import Verif.Lemmas.PartialThreshold
import Verif.Props.PartialThreshold
import Verif.Spec.PartialDkg
import Verif.Lemmas.PartialDkg
import Verif.Props.PartialDkg
import Verif.Spec.Replay
import Verif.Lemmas.Replay
import Verif.Props.Replay
import Verif.Props.Unique
import Verif.Lemmas.AnyContext
import Verif.Props.AnyContext
import Verif.Props.PartialAnyContext
import Verif.Spec.Unique
import Verif.Lemmas.RingUnique
import Verif.Props.RingUnique
import Verif.Model.Drop
import Verif.Model.DropVec
import Verif.Spec.Drop
import Verif.Props.Drop
import Verif.Props.DropVec
