import Verif.Field.Primes
import Verif.Circuit.Base
import Verif.Circuit.Logic
import Verif.Circuit.BaseSound
import Verif.Circuit.Complete
import Verif.Circuit.BaseComplete
import Verif.Circuit.Program
import Verif.Circuit.ProgramLemmas
import Verif.Circuit.Shape
import Verif.Circuit.BaseProps
import Verif.Integer.Model
import Verif.Integer.Shape
import Verif.Integer.Spec
import Verif.Integer.Basic
import Verif.Integer.Math
import Verif.Integer.Sound
import Verif.Integer.SoundOps
import Verif.Integer.SoundZero
import Verif.Integer.Complete
import Verif.Integer.CompleteOps
import Verif.Integer.CompleteMul
import Verif.Integer.CompleteDiv
import Verif.Integer.Program
import Verif.Integer.ProgramLemmas
import Verif.Integer.ProgramComplete
import Verif.Integer.ProgramShape
import Verif.Integer.Props
import Verif.Ecc.Curve
import Verif.Ecc.Model
import Verif.Ecc.Values
import Verif.Ecc.Spec
import Verif.Ecc.Sound
import Verif.Ecc.Scalar
import Verif.Ecc.Mul
import Verif.Ecc.Grows
import Verif.Ecc.Program
import Verif.Ecc.ProgramLemmas
import Verif.Ecc.Complete
import Verif.Ecc.Curvature
import Verif.Ecc.CompleteAdd
import Verif.Ecc.CompleteConst
import Verif.Ecc.Shape
import Verif.Ecc.Count
import Verif.Ecc.Measure
import Verif.Api.MeasureChip
import Verif.Api.MeasureRead
import Verif.Ecc.ProgramShape
import Verif.Ecc.Props
import Verif.Ecc.CompleteProgram
import Verif.Ecc.CompleteProps
import Verif.Ecc.SmallMultiples
import Verif.Api.Chip
import Verif.Api.Mock
import Verif.Api.CircuitChip
import Verif.Api.Field
import Verif.Api.Schema
import Verif.Api.Sums
import Verif.Api.Multiopen
import Verif.Api.Plonk
import Verif.Api.Params
import Verif.Api.Keys
import Verif.Api.Transcript
import Verif.Api.Build
import Verif.Api.BuildSpec
import Verif.Api.Record
import Verif.Api.Verify
import Verif.Api.Total
import Verif.Api.Arguments
import Verif.Api.Soundness
import Verif.Api.Props
import Verif.Api.VerifyProps
import Verif.Ecc.Noncanonical
import Verif.Api.Poseidon
import Verif.Api.PoseidonCircuit
import Verif.Api.PoseidonProps
import Verif.Sol.Evm
import Verif.Sol.EvmProps
import Verif.Sol.Sha
import Verif.Sol.ShaProps
import Verif.Sol.Syntax
import Verif.Sol.LinearScan
import Verif.Sol.PoolProps
import Verif.Sol.Ssa
import Verif.Sol.Allocate
import Verif.Sol.LinearScanProps
import Verif.Sol.CombineProps
import Verif.Sol.Aggregate
import Verif.Sol.AggregateProps
import Verif.Sol.MergeProps
import Verif.Sol.PackProps
import Verif.Sol.PowProps
import Verif.Sol.SeqProps
import Verif.Sol.PipelineProps
import Verif.Sol.MergeableCheck
import Verif.Sol.Profile
import Verif.Sol.HashOrder
import Verif.Top.Expose
import Verif.Top.ExposeProps
import Verif.Top.Synthesize
import Verif.Top.CreateProof
import Verif.Sol.Gen
import Verif.Sol.GenLogic
import Verif.Sol.GenFrame
import Verif.Sol.GenRun
import Verif.Sol.Script
import Verif.Sol.ScriptRuns
import Verif.Api.Frame
import Verif.Api.Rotations
import Verif.Sol.Live
import Verif.Sol.Contract
import Verif.Sol.ContractSha
import Verif.Api.Link
import Verif.Api.LinkVerify
import Verif.Api.LinkRead
import Verif.Sol.Tame
import Verif.Top.ContractVerify
import Verif.Api.Checked
import Verif.Api.LinkBytes
import Verif.Sol.GenTotal
import Verif.Sol.ContractRuns
import Verif.Sol.ContractTotal
import Verif.Top.ContractAccepts
import Verif.Top.TinyContract
import Verif.Api.LinkPoseidon
import Verif.Api.Guarded
import Verif.Api.GuardedCircuit
import Verif.Top.SynthComplete
import Verif.Top.SynthExample
import Verif.Top.SynthPanics
import Verif.Sol.Mulexp
import Verif.Sol.Parsed
import Verif.Top.Files
import Verif.Top.Commands
import Verif.Top.CommandProps
import Verif.Top.SharedName
import Verif.Top.EndToEnd
import Verif.Top.TinyRun
import Verif.Top.Tally
import Verif.Top.OptimisedRun
import Verif.Top.ZeroInput
import Verif.Api.LinkShape
import Verif.Top.SynthShape
import Verif.Api.Honest
import Verif.Top.HonestAggregate
import Verif.Top.PublicSize
import Verif.Ecc.Forge
import Verif.Api.ForgeChip
import Verif.Top.ForgedPair
import Verif.Ecc.CompleteMeasure
import Verif.Api.GuardedMeasure
import Verif.Top.Measure
import Verif.Top.MeasureExample
import Verif.Sol.Solidity
import Verif.Sol.Render
import Verif.Sol.RenderProps
import Verif.Sol.RenderRun
import Verif.Sol.RenderStmt
import Verif.Sol.RenderProg
import Verif.Sol.RenderGen
import Verif.Top.ContractText
import Verif.Top.SetupFiles
import Verif.Sol.Pairing
import Verif.Sol.Twist
import Verif.Top.PairingText
import Verif.Sdk.Lookup
import Verif.Sdk.Product
import Verif.Sdk.Shuffle
import Verif.Sol.Template
import Verif.Sol.TemplateText
import Verif.Sol.TemplateValues
import Verif.Sol.TemplateRun
import Verif.Sol.TemplateProps
import Verif.Sol.TemplateAssign
import Verif.Sol.TemplateHash
import Verif.Sol.TemplateLoops
import Verif.Sol.TemplateLink
import Verif.Sol.TemplatePairing
import Verif.Top.VerifyText
