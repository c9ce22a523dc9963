import Verif.Model.Gkr
import Verif.Model.Field
import Verif.Props.Common
import Verif.Props.Mle
import Verif.Props.Eq
import Verif.Props.Lagrange
import Verif.Props.Gates
import Verif.Props.Circuit
import Verif.Props.Sumcheck
import Verif.Props.SumcheckPar
import Verif.Props.Gkr
import Verif.Props.Hash
import Verif.Props.Mimc
import Verif.Props.GkrSound
import Verif.Props.ForgeAny
import Verif.Props.ForgeTransplant
import Verif.Props.GkrUntrusted
import Verif.Props.GkrPanics
import Verif.Props.InputBinding
import Verif.Props.Counting
import Verif.Props.Transcript
import Verif.Props.Snark
import Verif.Props.AssignTwice
import Verif.Props.Pretty
import Verif.Props.ConcPool
import Verif.Props.ConcProve
import Verif.Props.SumcheckTesting
import Verif.Props.ConcAttain
import Verif.Props.ProveAttain
import Verif.Props.Heap
import Verif.Props.HeapGkr
import Verif.Props.HeapProve
import Verif.Props.ConcHeap
import Verif.Props.ConcCell
import Verif.Props.ConcGkr
import Verif.Props.ConcGkrProve
import Verif.Props.ConcMimc
import Verif.Props.RepeatedGates
import Verif.Props.GadgetBinding
import Verif.Props.InitialPoint
import Verif.Props.RoundClaims
import Verif.Model.Tests
import Verif.Props.Tests
import Verif.Props.SnarkAny
import Verif.Spec.Bench
import Verif.Model.Bench
import Verif.Props.Bench
import Verif.Model.UnitTests
import Verif.Props.UnitTests
import Verif.Model.HashTest
import Verif.Props.HashTest
import Verif.Model.Harness
import Verif.Model.Init
import Verif.Spec.Harness
import Verif.Props.Harness
import Verif.Props.HarnessBlocked
import Verif.Props.Init
import Verif.Model.R1cs
import Verif.Spec.R1cs
import Verif.Props.R1cs
import Verif.Props.FixedTests
import Verif.Model.MachInt
import Verif.Props.MachInt
import Verif.Model.GadgetBench
import Verif.Props.GadgetBench
import Verif.Model.Repaired
import Verif.Proofs.Repaired
import Verif.Props.Repaired
import Verif.Props.DrawnPoint
import Verif.Props.HashedTranscript
import Verif.Props.RepairedBench
import Verif.Model.TranscriptProve
import Verif.Proofs.TranscriptProve
import Verif.Props.TranscriptProver
import Verif.Spec.ProofSize
import Verif.Props.ProofSize
import Verif.Spec.Crash
import Verif.Proofs.Crash
import Verif.Proofs.CrashPools
import Verif.Proofs.CrashProve
import Verif.Proofs.CrashProveRun
import Verif.Proofs.CrashProveEnd
import Verif.Props.Crash
import Verif.Proofs.Stall
import Verif.Proofs.StallProve
import Verif.Props.Never
import Verif.Spec.TrueProof
import Verif.Proofs.TrueRounds
import Verif.Proofs.TrueProof
import Verif.Spec.TrueTranscript
import Verif.Proofs.TrueTranscript
import Verif.Props.OnlyProof
import Verif.Props.OnlyProofT
import Verif.Props.NeverPipeline
import Verif.Props.ChunkSizes
import Verif.Props.Chunking
import Verif.Props.Instances
import Verif.Props.ChunkingConc
import Verif.Props.RepairedBatch
import Verif.Props.ChunkingGadget
