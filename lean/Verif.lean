import Verif.Model.Base
import Verif.Model.Float
import Verif.Model.Value
import Verif.Model.Domain
import Verif.Model.Maybe
import Verif.Model.StructInfo
import Verif.Model.Constraint
import Verif.Model.Validate
import Verif.Model.Reference
import Verif.Model.Registry
import Verif.Model.Schema
import Verif.Model.Builder
import Verif.Model.GoText
import Verif.Model.Generator
import Verif.Model.Cli
import Verif.Model.Server
import Verif.Model.ObjectLocks
import Verif.Model.Hooks
import Verif.Model.Main
import Verif.Model.Gentest
import Verif.Model.Genmaybe
import Verif.Model.Memory
import Verif.Model.Calls
import Verif.Model.Validators
import Verif.Model.Graph
import Verif.Model.Typed
import Verif.Model.Sharing
import Verif.Model.TestValidator
import Verif.Model.Messages
import Verif.Model.Fmt
import Verif.Model.Effort
import Verif.Spec.Basic
import Verif.Spec.Scalar
import Verif.Spec.Array
import Verif.Spec.Object
import Verif.Spec.Tree
import Verif.Spec.Defaults
import Verif.Spec.Reference
import Verif.Spec.Maybe
import Verif.Spec.Struct
import Verif.Spec.Builder
import Verif.Spec.JsonSchema
import Verif.Spec.GoSyntax
import Verif.Spec.Generator
import Verif.Spec.GenProg
import Verif.Spec.Pipeline
import Verif.Spec.Cli
import Verif.Spec.Buildable
import Verif.Spec.Server
import Verif.Spec.ObjectLocks
import Verif.Spec.OrderDefaults
import Verif.Spec.Unseen
import Verif.Spec.SchemaDefaults
import Verif.Spec.PipelineDefaults
import Verif.Spec.Decimal
import Verif.Spec.Hooks
import Verif.Spec.Gentest
import Verif.Spec.Shows
import Verif.Spec.Genmaybe
import Verif.Spec.NotObject
import Verif.Spec.Merges
import Verif.Spec.Selects
import Verif.Spec.Memory
import Verif.Spec.Rounding
import Verif.Spec.Calls
import Verif.Spec.Validators
import Verif.Spec.Graph
import Verif.Spec.Faults
import Verif.Spec.Typed
import Verif.Spec.Sharing
import Verif.Spec.MetaSchema
import Verif.Spec.BuildDet
import Verif.Spec.OwnTests
import Verif.Spec.Readable
import Verif.Spec.Pointers
import Verif.Spec.NamePlaces
import Verif.Spec.Keep
import Verif.Spec.KeepSchema
import Verif.Spec.Parts
import Verif.Spec.Replace
import Verif.Spec.Blames
import Verif.Spec.Accuses
import Verif.Spec.Reported
import Verif.Spec.Matches
import Verif.Spec.Rewritten
import Verif.Spec.Stricter
import Verif.Spec.Narrower
import Verif.Spec.Nesting
import Verif.Spec.Unique
import Verif.Spec.Effort
import Verif.Spec.Revised
import Verif.Spec.Words
import Verif.Spec.TolerantSchema
import Verif.Spec.Trim
import Verif.Lemmas.Sched
import Verif.Lemmas.Basic
import Verif.Lemmas.Float
import Verif.Lemmas.Domain
import Verif.Lemmas.Scalar
import Verif.Lemmas.Assoc
import Verif.Lemmas.Loop
import Verif.Lemmas.Struct
import Verif.Lemmas.Frame
import Verif.Lemmas.Object
import Verif.Lemmas.ReadOnly
import Verif.Lemmas.Array
import Verif.Lemmas.ObjectCore
import Verif.Lemmas.ObjView
import Verif.Lemmas.ObjExact
import Verif.Lemmas.Induct
import Verif.Lemmas.Preserve
import Verif.Lemmas.Policies
import Verif.Lemmas.MapEnd
import Verif.Lemmas.Refine
import Verif.Lemmas.Determined
import Verif.Lemmas.Terminate
import Verif.Lemmas.RefMachine
import Verif.Lemmas.Inline
import Verif.Lemmas.Embed
import Verif.Lemmas.Registry
import Verif.Lemmas.StructEnd
import Verif.Lemmas.SchemaInd
import Verif.Lemmas.BuilderShape
import Verif.Lemmas.BuilderRefs
import Verif.Lemmas.SchemaFinite
import Verif.Lemmas.BuilderTypes
import Verif.Lemmas.Tracks
import Verif.Lemmas.SchemaTypes
import Verif.Lemmas.SchemaArray
import Verif.Lemmas.SchemaObject
import Verif.Lemmas.SchemaNode
import Verif.Lemmas.SchemaRefs
import Verif.Lemmas.SchemaMeaning
import Verif.Lemmas.Quote
import Verif.Lemmas.FmtText
import Verif.Lemmas.GenText
import Verif.Lemmas.GenBuild
import Verif.Lemmas.GenTree
import Verif.Lemmas.GenObj
import Verif.Lemmas.RebuildSim
import Verif.Lemmas.RebuildSem
import Verif.Lemmas.GenDet
import Verif.Lemmas.GenProg
import Verif.Lemmas.GenRun
import Verif.Lemmas.GenMain
import Verif.Lemmas.Percent
import Verif.Lemmas.Pipeline
import Verif.Lemmas.PipelineRun
import Verif.Lemmas.Cli
import Verif.Lemmas.Buildable
import Verif.Lemmas.BuildOk
import Verif.Lemmas.Server
import Verif.Lemmas.ObjectLocks
import Verif.Lemmas.PreRun
import Verif.Lemmas.OrderDefaults
import Verif.Lemmas.OrderTrees
import Verif.Lemmas.Repeat
import Verif.Lemmas.Inert
import Verif.Lemmas.Erase
import Verif.Lemmas.BuildPlain
import Verif.Lemmas.BuildUnseen
import Verif.Lemmas.SchemaPlain
import Verif.Lemmas.Intify
import Verif.Lemmas.PipelineDefaults
import Verif.Lemmas.BuildablePlain
import Verif.Lemmas.Decimal
import Verif.Lemmas.Hooks
import Verif.Lemmas.HooksSim
import Verif.Lemmas.HooksFail
import Verif.Lemmas.ShowsAcc
import Verif.Lemmas.ShowsSim
import Verif.Lemmas.ShowsTree
import Verif.Lemmas.EmbedSet
import Verif.Lemmas.StructFill
import Verif.Lemmas.Memory
import Verif.Lemmas.MemoryObj
import Verif.Lemmas.MemoryFrame
import Verif.Lemmas.MemoryLayout
import Verif.Lemmas.Directives
import Verif.Lemmas.Rounding
import Verif.Lemmas.Extend
import Verif.Lemmas.Calls
import Verif.Lemmas.Graph
import Verif.Lemmas.Faults
import Verif.Lemmas.FaultsTree
import Verif.Lemmas.TypedValues
import Verif.Lemmas.TypedSim
import Verif.Lemmas.TypedFail
import Verif.Lemmas.Sharing
import Verif.Lemmas.SharingRuns
import Verif.Lemmas.MetaSchema
import Verif.Lemmas.GenSame
import Verif.Lemmas.BuildDet
import Verif.Lemmas.BuildTable
import Verif.Lemmas.SameProg
import Verif.Lemmas.Covers
import Verif.Lemmas.GenNames
import Verif.Lemmas.Stays
import Verif.Lemmas.Pointers
import Verif.Lemmas.Keep
import Verif.Lemmas.KeepTwice
import Verif.Lemmas.BuildKeep
import Verif.Lemmas.SchemaKeep
import Verif.Lemmas.PipelineKeep
import Verif.Lemmas.KeepValid
import Verif.Lemmas.Parts
import Verif.Lemmas.Like
import Verif.Lemmas.Blames
import Verif.Lemmas.Accuses
import Verif.Lemmas.ReportedScalars
import Verif.Lemmas.ReportedLoops
import Verif.Lemmas.ReportedObj
import Verif.Lemmas.ReportedTree
import Verif.Lemmas.ReportedFixed
import Verif.Lemmas.Matches
import Verif.Lemmas.BuildRename
import Verif.Lemmas.BuildPure
import Verif.Lemmas.Rewritten
import Verif.Lemmas.RewrittenBuild
import Verif.Lemmas.Stricter
import Verif.Lemmas.Narrower
import Verif.Lemmas.Nesting
import Verif.Lemmas.Unique
import Verif.Lemmas.Effort
import Verif.Lemmas.EffortFuel
import Verif.Lemmas.Revised
import Verif.Lemmas.EffortExact
import Verif.Lemmas.UniqueWords
import Verif.Lemmas.TolerantSchema
import Verif.Lemmas.Trim
import Verif.Props.Combinators
import Verif.Props.Scalars
import Verif.Props.Arrays
import Verif.Props.Objects
import Verif.Props.Defaults
import Verif.Props.Order
import Verif.Props.References
import Verif.Props.Maybes
import Verif.Props.Structs
import Verif.Props.Builder
import Verif.Props.Conforming
import Verif.Props.Generator
import Verif.Props.Pipeline
import Verif.Props.GenOrder
import Verif.Props.Cli
import Verif.Props.Buildable
import Verif.Props.Server
import Verif.Props.ObjectLocks
import Verif.Props.OrderDefaults
import Verif.Props.Unseen
import Verif.Props.ConformingDefaults
import Verif.Props.PipelineDefaults
import Verif.Props.CommandDefaults
import Verif.Props.Decimals
import Verif.Props.Hooks
import Verif.Props.Main
import Verif.Props.Gentest
import Verif.Props.Shows
import Verif.Props.NotObjects
import Verif.Props.Genmaybe
import Verif.Props.StructCalls
import Verif.Props.NilMaps
import Verif.Props.Shadowing
import Verif.Props.StructMaps
import Verif.Props.StructFill
import Verif.Props.Memory
import Verif.Props.Literals
import Verif.Props.Exact
import Verif.Props.Calls
import Verif.Props.Validators
import Verif.Props.Graph
import Verif.Props.Faults
import Verif.Props.Reread
import Verif.Props.Typed
import Verif.Props.Sharing
import Verif.Props.MetaSchema
import Verif.Props.Deterministic
import Verif.Props.Reproduced
import Verif.Props.Rebuilt
import Verif.Props.OwnTests
import Verif.Props.Messages
import Verif.Props.OwnExamples
import Verif.Props.FillAny
import Verif.Props.Pointers
import Verif.Props.LiteralNames
import Verif.Props.Kept
import Verif.Props.Enforced
import Verif.Props.EnforcedCommand
import Verif.Props.EnumExact
import Verif.Props.Parts
import Verif.Props.Replace
import Verif.Props.Laws
import Verif.Props.Blames
import Verif.Props.Reported
import Verif.Props.Matches
import Verif.Props.Rewritten
import Verif.Props.Stricter
import Verif.Props.UnseenOrder
import Verif.Props.Narrower
import Verif.Props.Nesting
import Verif.Props.Unique
import Verif.Props.Effort
import Verif.Props.Revised
import Verif.Props.ConformingUnique
import Verif.Props.RevisedSchema
import Verif.Props.ConformingLength
import Verif.Props.Trim
import Verif.Props.TrimConforming
