import Verif.Cli.Files
import Verif.Cli.FilesOk
import Verif.Gen.Agree
import Verif.Gen.Compile
import Verif.Gen.Copy
import Verif.Gen.Cut
import Verif.Gen.Display
import Verif.Gen.DisplayOk
import Verif.Gen.Evolve
import Verif.Gen.Float
import Verif.Gen.FloatNear
import Verif.Gen.Format
import Verif.Gen.FormatEvolve
import Verif.Gen.FormatLemmas
import Verif.Gen.FormatRead
import Verif.Gen.FormatView
import Verif.Gen.FormatWrite
import Verif.Gen.Items
import Verif.Gen.Lemmas
import Verif.Gen.Modes
import Verif.Gen.NoErr
import Verif.Gen.Paths
import Verif.Gen.Pipeline
import Verif.Gen.Program
import Verif.Gen.Progress
import Verif.Gen.ReadBack
import Verif.Gen.Rename
import Verif.Gen.Run
import Verif.Gen.SlotCount
import Verif.Gen.Spec
import Verif.Gen.Tree
import Verif.Gen.TreeRead
import Verif.Gen.Untrusted
import Verif.Gen.Widen
import Verif.Gen.Workable
import Verif.Gen.WorkableOk
import Verif.Gen.Write
import Verif.Gen.WriteOk
import Verif.Hash.Debug
import Verif.Hash.Map
import Verif.Hash.Messages
import Verif.Ir.Accept
import Verif.Ir.Analysis
import Verif.Ir.Arrange
import Verif.Ir.Ast
import Verif.Ir.Blame
import Verif.Ir.Companion
import Verif.Ir.Deep
import Verif.Ir.DeepBound
import Verif.Ir.DeepLow
import Verif.Ir.DeepTotal
import Verif.Ir.Heck
import Verif.Ir.HeckLemmas
import Verif.Ir.Ignored
import Verif.Ir.InOrder
import Verif.Ir.Keywords
import Verif.Ir.Outcome
import Verif.Ir.Report
import Verif.Ir.Resolve
import Verif.Ir.SchemaSpec
import Verif.Ir.Starts
import Verif.Ir.Steps
import Verif.Ir.StepsBound
import Verif.Ir.StepsLow
import Verif.Ir.StepsText
import Verif.Ir.StepsTotal
import Verif.Ir.Str
import Verif.Ir.Transform
import Verif.Ir.Types
import Verif.Mem.Build
import Verif.Mem.BuildCost
import Verif.Mem.CastRef
import Verif.Mem.Cost
import Verif.Mem.Create
import Verif.Mem.Erase
import Verif.Mem.Graph
import Verif.Mem.Inside
import Verif.Mem.Logic
import Verif.Mem.Message
import Verif.Mem.Model
import Verif.Mem.Uninit
import Verif.Mem.Word
import Verif.Mem.WordAgree
import Verif.Mem.WordBuild
import Verif.Mem.WordBuildOps
import Verif.Mem.WordBuildRun
import Verif.Mem.WordBuildSame
import Verif.Mem.WordBuildSim
import Verif.Mem.WordInside
import Verif.Mem.WordRelease
import Verif.Parse.Again
import Verif.Parse.Ascii
import Verif.Parse.Compile
import Verif.Parse.Complete
import Verif.Parse.Depth
import Verif.Parse.DepthBound
import Verif.Parse.DepthConst
import Verif.Parse.DepthDecl
import Verif.Parse.DepthExact
import Verif.Parse.DepthLow
import Verif.Parse.Exact
import Verif.Parse.Fuel
import Verif.Parse.Grammar
import Verif.Parse.Nom
import Verif.Parse.Numbers
import Verif.Parse.Print
import Verif.Parse.Render
import Verif.Parse.Reprint
import Verif.Parse.Sound
import Verif.Parse.SoundDecl
import Verif.Parse.Special
import Verif.Parse.Steps
import Verif.Parse.StepsBound
import Verif.Parse.StepsConstants
import Verif.Parse.StepsDecl
import Verif.Parse.StepsGrammar
import Verif.Parse.StepsLow
import Verif.Parse.StepsNested
import Verif.Parse.StepsValue
import Verif.Parse.Suffix
import Verif.Parse.Tokens
import Verif.Parse.Words
import Verif.Props.Analysis
import Verif.Props.AnalysisSteps
import Verif.Props.Api
import Verif.Props.Attributes
import Verif.Props.Blame
import Verif.Props.BuildCost
import Verif.Props.BuilderMem
import Verif.Props.Bytes
import Verif.Props.CastRef
import Verif.Props.Check
import Verif.Props.CodeSize
import Verif.Props.Compare
import Verif.Props.Compiles
import Verif.Props.Copy
import Verif.Props.Cost
import Verif.Props.Cut
import Verif.Props.DefaultText
import Verif.Props.Defaults
import Verif.Props.Emitted
import Verif.Props.Endian
import Verif.Props.Evolve
import Verif.Props.Files
import Verif.Props.Finish
import Verif.Props.Format
import Verif.Props.Gen
import Verif.Props.Generator
import Verif.Props.Growth
import Verif.Props.Hygiene
import Verif.Props.Interop
import Verif.Props.Items
import Verif.Props.Iter
import Verif.Props.Lifetimes
import Verif.Props.Memory
import Verif.Props.Modes
import Verif.Props.Names
import Verif.Props.Nested
import Verif.Props.Offsets
import Verif.Props.Own
import Verif.Props.Parser
import Verif.Props.ParserExact
import Verif.Props.Pipeline
import Verif.Props.Program
import Verif.Props.Protocol
import Verif.Props.Reader
import Verif.Props.Rename
import Verif.Props.Reproducible
import Verif.Props.Reserved
import Verif.Props.Rpc
import Verif.Props.Size
import Verif.Props.Slice
import Verif.Props.Stack
import Verif.Props.StackIr
import Verif.Props.Steps
import Verif.Props.Stream
import Verif.Props.Tables
import Verif.Props.Text
import Verif.Props.Tokens
import Verif.Props.Traits
import Verif.Props.Tree
import Verif.Props.Uninit
import Verif.Props.Unions
import Verif.Props.Untrusted
import Verif.Props.VTables
import Verif.Props.Values
import Verif.Props.Versions
import Verif.Props.WholeProgram
import Verif.Props.Word
import Verif.Props.WordBuild
import Verif.Rs.Access
import Verif.Rs.Calls
import Verif.Rs.Create
import Verif.Rs.CreateAll
import Verif.Rs.Default
import Verif.Rs.Emit
import Verif.Rs.Encode
import Verif.Rs.Enums
import Verif.Rs.Eval
import Verif.Rs.Find
import Verif.Rs.Graph
import Verif.Rs.GraphOk
import Verif.Rs.Locate
import Verif.Rs.Modes
import Verif.Rs.Read
import Verif.Rs.Resolve
import Verif.Rs.Step
import Verif.Rs.Syntax
import Verif.Rs.TableAt
import Verif.Rs.Total
import Verif.Rs.Traits
import Verif.Rs.TypeOf
import Verif.Rs.TypedAccess
import Verif.Rs.TypedConverse
import Verif.Rs.TypedCreate
import Verif.Rs.TypedEnum
import Verif.Rs.TypedItems
import Verif.Rs.TypedProgram
import Verif.Rs.TypedTable
import Verif.Rs.TypedTableConverse
import Verif.Rs.TypedUnion
import Verif.Rs.Types
import Verif.Rs.Typing
import Verif.Rs.Unions
import Verif.Rt.AProgress
import Verif.Rt.Abs
import Verif.Rt.Basic
import Verif.Rt.Builder
import Verif.Rt.Caller
import Verif.Rt.CallerOk
import Verif.Rt.Compare
import Verif.Rt.Cut
import Verif.Rt.Dangling
import Verif.Rt.Dense
import Verif.Rt.Endian
import Verif.Rt.Finish
import Verif.Rt.FinishRead
import Verif.Rt.Growth
import Verif.Rt.History
import Verif.Rt.Layout
import Verif.Rt.Lemmas
import Verif.Rt.Modes
import Verif.Rt.Progress
import Verif.Rt.Read
import Verif.Rt.ReadLemmas
import Verif.Rt.Refine
import Verif.Rt.RefineOps
import Verif.Rt.RefineVT
import Verif.Rt.Sample
import Verif.Rt.Scalar
import Verif.Rt.Size
import Verif.Rt.Slice
import Verif.Rt.Spec
import Verif.Rt.TableBuild
import Verif.Rt.TableIn
import Verif.Rt.TableLayout
import Verif.Rt.TableRT
import Verif.Rt.VTHist
import Verif.Rt.VTableEq
import Verif.Rt.Values
import Verif.Rt.VecEq
import Verif.Src.Api
import Verif.Src.ApiAll
import Verif.Src.Check
import Verif.Src.CheckAccess
import Verif.Src.CheckAll
import Verif.Src.CheckBuilder
import Verif.Src.CheckCreate
import Verif.Src.CheckEnum
import Verif.Src.CheckFields
import Verif.Src.CheckItems
import Verif.Src.CheckTable
import Verif.Src.CheckTypes
import Verif.Src.Erase
import Verif.Src.Full
import Verif.Src.FullErase
import Verif.Src.FullPrint
import Verif.Src.Legible
import Verif.Src.Lex
import Verif.Src.LexOk
import Verif.Src.Lifetimes
import Verif.Src.LifetimesAll
import Verif.Src.LifetimesItems
import Verif.Src.LifetimesOk
import Verif.Src.Modes
import Verif.Src.Own
import Verif.Src.OwnAll
import Verif.Src.OwnItems
import Verif.Src.Print
import Verif.Src.Quote
import Verif.Src.Read
import Verif.Src.RoundExpr
import Verif.Src.RoundItem
import Verif.Src.RoundTy
import Verif.Src.Rpc
import Verif.Src.Size
import Verif.Src.SizeLow
import Verif.Src.SizeText
import Verif.Src.Spell
import Verif.Src.Spellable
import Verif.Src.Tokens
import Verif.Src.Traits
import Verif.Src.TraitsAll
import Verif.Src.TraitsItems
import Verif.Src.TraitsOk
import Verif.Src.TraitsTypes
import Verif.Src.Tree
import Verif.Src.Words
import Verif.Src.Written
import Verif.Tests.Analysis
import Verif.Tests.Check
import Verif.Tests.Emitted
import Verif.Tests.Examples
import Verif.Tests.Kernel
import Verif.Tests.Parser
import Verif.Tests.Types
