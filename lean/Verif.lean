import Verif.Model.Basic
import Verif.Model.Macros
import Verif.Model.Instances
import Verif.Model.Field
import Verif.Model.Xof
import Verif.Model.Container
import Verif.Model.Tree
import Verif.Model.Tape
import Verif.Model.Aes
import Verif.Model.Banquet
import Verif.Model.Sponge
import Verif.Model.Keccak64
import Verif.Model.KeccakX4
import Verif.Model.KeccakAvx2
import Verif.Spec.Snp
import Verif.Spec.Keccak
import Verif.Spec.Aes
import Verif.Spec.Instance
import Verif.Kat
import Verif.Props.Field
import Verif.Props.Basic
import Verif.Props.Sponge
import Verif.Spec.Tree
import Verif.Props.Tree
import Verif.Props.Hash
import Verif.Model.Api
import Verif.Spec.WellFormed
import Verif.Props.Serialize
import Verif.Props.Api
import Verif.Props.Verify
import Verif.Spec.Xor
import Verif.Props.Aes
import Verif.Spec.Shares
import Verif.Spec.Key
import Verif.Props.Sign
import Verif.Spec.Collide
import Verif.Spec.Adversary
import Verif.Props.Maul
import Verif.Props.Forge
import Verif.Proofs.Soundness
import Verif.Spec.Shared
import Verif.Proofs.Shared
import Verif.Props.Shared
import Verif.Spec.Rep
import Verif.Proofs.Accept
import Verif.Proofs.AcceptHash
import Verif.Props.Soundness
import Verif.Props.Accept
import Verif.Spec.View
import Verif.Proofs.Hiding
import Verif.Props.Hiding
import Verif.Spec.Cheat
import Verif.Props.Cheat
import Verif.Spec.Challenge
import Verif.Proofs.Challenge
import Verif.Props.Challenge
import Verif.Spec.Signed
import Verif.Proofs.Signed
import Verif.Props.Signed
import Verif.Spec.KeccakTables
import Verif.Props.Keccak
import Verif.Props.KeccakAvx2
import Verif.Model.Code
import Verif.Spec.Builds
import Verif.Proofs.CodeHash
import Verif.Proofs.CodeTree
import Verif.Proofs.CodeMain
import Verif.Proofs.CodeLong
import Verif.Props.Code
import Verif.Model.Random
import Verif.Spec.Random
import Verif.Proofs.Random
import Verif.Props.Random
import Verif.Spec.Fits
import Verif.Proofs.SpongeFail
import Verif.Proofs.Bounds
import Verif.Props.Lengths
import Verif.Spec.Protocol
import Verif.Proofs.Count
import Verif.Proofs.Level
import Verif.Props.Protocol
import Verif.Spec.Fork
import Verif.Proofs.Fork
import Verif.Props.Fork
import Verif.Proofs.Domain
import Verif.Props.Domain
import Verif.Spec.Slots
import Verif.Model.Loops
import Verif.Proofs.LoopsBase
import Verif.Proofs.LoopsAes
import Verif.Proofs.LoopsParts
import Verif.Proofs.LoopsSign
import Verif.Proofs.LoopsPoly
import Verif.Proofs.LoopsView
import Verif.Proofs.LoopsSignAll
import Verif.Proofs.LoopsVerify
import Verif.Proofs.LoopsVerView
import Verif.Proofs.LoopsVerAll
import Verif.Proofs.LoopsKey
import Verif.Props.Loops
import Verif.Props.LoopsAes
import Verif.Model.Lookups
import Verif.Spec.Leak
import Verif.Proofs.Leak
import Verif.Props.Leak
import Verif.Spec.Grind
import Verif.Proofs.Grind
import Verif.Props.Grind
import Verif.Model.LoopsField
import Verif.Proofs.LoopsField
import Verif.Proofs.LoopsCodec
import Verif.Props.LoopsField
import Verif.Model.Threads
import Verif.Proofs.Threads
import Verif.Props.Threads
import Verif.Model.Bench
import Verif.Spec.Line
import Verif.Proofs.Bench
import Verif.Props.Bench
import Verif.Spec.Oracle
import Verif.Proofs.Oracle
import Verif.Proofs.Forger
import Verif.Proofs.Bound
import Verif.Props.Forger
import Verif.Model.Fixed
import Verif.Proofs.Fixed
import Verif.Props.Fixed
import Verif.Spec.Ends
import Verif.Proofs.Ends
import Verif.Props.Ends
import Verif.Spec.Simulate
import Verif.Proofs.Simulate
import Verif.Proofs.Programmed
import Verif.Proofs.Accident
import Verif.Props.Simulate
import Verif.Spec.Hidden
import Verif.Proofs.Rekey
import Verif.Proofs.Unseen
import Verif.Proofs.Guess
import Verif.Props.Hidden
import Verif.Vectors
import Verif.Spec.Unforgeable
import Verif.Proofs.Play
import Verif.Proofs.Unforgeable
import Verif.Proofs.Settled
import Verif.Props.Unforgeable
import Verif.Model.KeccakRest
import Verif.Spec.KeccakRest
import Verif.Proofs.KeccakRest
import Verif.Props.KeccakRest
import Verif.Model.Helpers
import Verif.Spec.Helpers
import Verif.Proofs.Helpers
import Verif.Props.Helpers
import Verif.Model.Careful
import Verif.Proofs.Careful
import Verif.Props.Careful
import Verif.Model.KeccakX4Rest
import Verif.Spec.KeccakX4Rest
import Verif.Proofs.KeccakX4Rest
import Verif.Proofs.KeccakX4Out
import Verif.Proofs.KeccakX4Loop
import Verif.Proofs.Kravatte
import Verif.Proofs.KravatteLoop
import Verif.Proofs.KravatteExpand
import Verif.Props.KeccakX4Rest
import Verif.Props.Kravatte
import Verif.Model.KeccakHash
import Verif.Spec.KeccakHash
import Verif.Proofs.KeccakBits
import Verif.Proofs.KeccakHash
import Verif.Props.KeccakHash
import Verif.Model.KeccakX4Bytes
import Verif.Proofs.KeccakX4Bytes
import Verif.Props.KeccakX4Bytes
import Verif.Model.KeccakPl4
import Verif.Proofs.KeccakPl4
import Verif.Props.KeccakPl4
import Verif.Model.KeccakAvx2Rest
import Verif.Proofs.KeccakAvx2Rest
import Verif.Props.KeccakAvx2Rest
import Verif.Model.KeccakHash4
import Verif.Proofs.KeccakHash4
import Verif.Props.KeccakHash4
import Verif.Model.TestRef
import Verif.Proofs.TestRef
import Verif.Props.TestRef
import Verif.Spec.Average
import Verif.Model.BenchOut
import Verif.Proofs.BenchOut
import Verif.Props.BenchOut
import Verif.Model.RestoreKs
import Verif.Props.RestoreKs
import Verif.Model.Morphism
import Verif.Proofs.Morphism
import Verif.Props.Morphism
import Verif.Model.TestCases
import Verif.Props.TestCases
import Verif.Model.TestUtil
import Verif.Proofs.TestUtil
import Verif.Props.TestUtil
import Verif.Model.TestRest
import Verif.Props.TestRest
import Verif.Model.Span
import Verif.Props.Span
import Verif.Model.SpanRep
import Verif.Props.SpanRep
