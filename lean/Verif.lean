import Verif.Base.Bytes
import Verif.Base.OMap
import Verif.Base.Res
import Verif.Curve.Order
import Verif.Curve.PowMod
import Verif.Curve.Primes
import Verif.Curve.Secp
import Verif.Kat.Commitments
import Verif.Kat.Concrete
import Verif.Kat.Vectors
import Verif.Lemmas.Cbor
import Verif.Lemmas.Commitment
import Verif.Lemmas.Complaints
import Verif.Lemmas.Dealings
import Verif.Lemmas.Flows
import Verif.Lemmas.HashToCurve
import Verif.Lemmas.Heap
import Verif.Lemmas.HeapAt
import Verif.Lemmas.HeapBytes
import Verif.Lemmas.HeapCorrupt
import Verif.Lemmas.HeapDamage
import Verif.Lemmas.HeapDamageLoop
import Verif.Lemmas.HeapDealings
import Verif.Lemmas.HeapH2C
import Verif.Lemmas.HeapLagrange
import Verif.Lemmas.HeapMega
import Verif.Lemmas.HeapProtocol
import Verif.Lemmas.HeapRound
import Verif.Lemmas.HeapSign
import Verif.Lemmas.HeapSigning
import Verif.Lemmas.HeapTranscript
import Verif.Lemmas.HeapZk
import Verif.Lemmas.Hybrid
import Verif.Lemmas.Key
import Verif.Lemmas.Mega
import Verif.Lemmas.Oracle
import Verif.Lemmas.Point
import Verif.Lemmas.Poly
import Verif.Lemmas.Protocol
import Verif.Lemmas.ProtocolLive
import Verif.Lemmas.Random
import Verif.Lemmas.Randomness
import Verif.Lemmas.Ro
import Verif.Lemmas.Scalar
import Verif.Lemmas.Secrecy
import Verif.Lemmas.Sign
import Verif.Lemmas.Simulation
import Verif.Lemmas.Transcript
import Verif.Lemmas.Xmd
import Verif.Lemmas.Zk
import Verif.Model.Cbor
import Verif.Model.Commitment
import Verif.Model.Complaints
import Verif.Model.Curves
import Verif.Model.Dealings
import Verif.Model.Encode
import Verif.Model.EncodeHex
import Verif.Model.FieldElem
import Verif.Model.HashToCurve
import Verif.Model.Heap
import Verif.Model.HeapAccess
import Verif.Model.HeapBytes
import Verif.Model.HeapCorrupt
import Verif.Model.HeapDealings
import Verif.Model.HeapH2C
import Verif.Model.HeapKeys
import Verif.Model.HeapLagr
import Verif.Model.HeapProtocol
import Verif.Model.HeapSign
import Verif.Model.HeapZk
import Verif.Model.Key
import Verif.Model.LagrEqual
import Verif.Model.Mega
import Verif.Model.Point
import Verif.Model.Poly
import Verif.Model.Prim
import Verif.Model.Protocol
import Verif.Model.ProtocolChecks
import Verif.Model.Ro
import Verif.Model.Scalar
import Verif.Model.Seed
import Verif.Model.Sign
import Verif.Model.SignCmp
import Verif.Model.Transcript
import Verif.Model.Zk
import Verif.Props.Agreement
import Verif.Props.Altered
import Verif.Props.Binding
import Verif.Props.Cbor
import Verif.Props.CborRefuse
import Verif.Props.Ceremony
import Verif.Props.Cheating
import Verif.Props.CheatingOracle
import Verif.Props.CheatingSign
import Verif.Props.CheatingSigners
import Verif.Props.Commitment
import Verif.Props.ComplaintLeak
import Verif.Props.ComplaintOracle
import Verif.Props.Complaints
import Verif.Props.Context
import Verif.Props.Curves
import Verif.Props.Dealings
import Verif.Props.DriverLeak
import Verif.Props.Encode
import Verif.Props.EvenSampling
import Verif.Props.Exact
import Verif.Props.Feldman
import Verif.Props.Field
import Verif.Props.GeneratorH
import Verif.Props.HashCounts
import Verif.Props.HashToCurve
import Verif.Props.HashToCurveRfc
import Verif.Props.Heap
import Verif.Props.HeapAccess
import Verif.Props.HeapBytes
import Verif.Props.HeapCorrupt
import Verif.Props.HeapDealings
import Verif.Props.HeapField
import Verif.Props.HeapH2C
import Verif.Props.HeapKeys
import Verif.Props.HeapLagr
import Verif.Props.HeapProtocol
import Verif.Props.HeapRace
import Verif.Props.HeapSign
import Verif.Props.HeapZk
import Verif.Props.HeapZkSeq
import Verif.Props.IdentityKey
import Verif.Props.Key
import Verif.Props.KeyGen
import Verif.Props.LagrOrder
import Verif.Props.Mega
import Verif.Props.MinusOne
import Verif.Props.OneOperation
import Verif.Props.Oracle
import Verif.Props.OracleBias
import Verif.Props.OracleDealing
import Verif.Props.OracleDh
import Verif.Props.OraclePads
import Verif.Props.OraclePop
import Verif.Props.OraclePopBias
import Verif.Props.OraclePopProof
import Verif.Props.OracleProduct
import Verif.Props.OracleReshare
import Verif.Props.Point
import Verif.Props.Poly
import Verif.Props.Presig
import Verif.Props.Protocol
import Verif.Props.ProtocolCheck
import Verif.Props.ProtocolCollision
import Verif.Props.ProtocolDriver
import Verif.Props.ProtocolLive
import Verif.Props.ProtocolRounds
import Verif.Props.Randomness
import Verif.Props.Reconstruct
import Verif.Props.Recovery
import Verif.Props.Remaining
import Verif.Props.Renewal
import Verif.Props.Reuse
import Verif.Props.Ro
import Verif.Props.RoSize
import Verif.Props.Rogue
import Verif.Props.RunSeeds
import Verif.Props.Scalar
import Verif.Props.Secrecy
import Verif.Props.Seed
import Verif.Props.SeedBytes
import Verif.Props.SeedReuse
import Verif.Props.Session
import Verif.Props.Sessions
import Verif.Props.ShareReuse
import Verif.Props.SigScope
import Verif.Props.Sign
import Verif.Props.SignCmp
import Verif.Props.SignFail
import Verif.Props.SignGame
import Verif.Props.SignView
import Verif.Props.Simulation
import Verif.Props.Transcript
import Verif.Props.TranscriptExact
import Verif.Props.TranscriptSecrecy
import Verif.Props.Uniform
import Verif.Props.Wire
import Verif.Props.ZeroKnowledge
import Verif.Props.Zk
import Verif.Spec.Altered
import Verif.Spec.Bip32
import Verif.Spec.Cbor
import Verif.Spec.Ceremony
import Verif.Spec.Cheating
import Verif.Spec.CheatingOracle
import Verif.Spec.ComplaintLeak
import Verif.Spec.ComplaintOracle
import Verif.Spec.Complaints
import Verif.Spec.Context
import Verif.Spec.Curves
import Verif.Spec.Dealings
import Verif.Spec.DriverLeak
import Verif.Spec.Exact
import Verif.Spec.Feldman
import Verif.Spec.Heap
import Verif.Spec.HeapCorrupt
import Verif.Spec.HeapDealings
import Verif.Spec.HeapH2C
import Verif.Spec.HeapProtocol
import Verif.Spec.HeapRace
import Verif.Spec.HeapSign
import Verif.Spec.HeapView
import Verif.Spec.HeapZk
import Verif.Spec.KeyGen
import Verif.Spec.Numeral
import Verif.Spec.OneOperation
import Verif.Spec.Oracle
import Verif.Spec.OracleDealing
import Verif.Spec.OracleDh
import Verif.Spec.OraclePads
import Verif.Spec.OraclePop
import Verif.Spec.OracleProduct
import Verif.Spec.OracleReshare
import Verif.Spec.Poly
import Verif.Spec.Presig
import Verif.Spec.Protocol
import Verif.Spec.Randomness
import Verif.Spec.Reconstruct
import Verif.Spec.Renewal
import Verif.Spec.Rfc9380
import Verif.Spec.Rfc9380Curve
import Verif.Spec.RoInputs
import Verif.Spec.Rogue
import Verif.Spec.RunSeeds
import Verif.Spec.Sec1
import Verif.Spec.Secrecy
import Verif.Spec.SeedBytes
import Verif.Spec.SeedReuse
import Verif.Spec.Session
import Verif.Spec.ShareReuse
import Verif.Spec.Sign
import Verif.Spec.SignFail
import Verif.Spec.SignGame
import Verif.Spec.SignView
import Verif.Spec.Simulation
import Verif.Spec.Transcript
import Verif.Spec.TranscriptExact
import Verif.Spec.Wire
import Verif.Spec.ZeroKnowledge
