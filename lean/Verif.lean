import Verif.Base
import Verif.Names
import Verif.Element
import Verif.Native
import Verif.Value
import Verif.Serializer
import Verif.Lemmas.Dict
import Verif.Lemmas.Elem
import Verif.Lemmas.Mono
import Verif.Lemmas.Rel
import Verif.Lemmas.Content
import Verif.Lemmas.NoCrash
import Verif.Lemmas.Progress
import Verif.Lemmas.Terminate
import Verif.Spec
import Verif.Props.Search
import Verif.Lemmas.Everywhere
import Verif.Lemmas.Strings
import Verif.Lemmas.Sim
import Verif.Lemmas.SimMeta
import Verif.Example
import Verif.Lemmas.Pieces
import Verif.Props.Reading
import Verif.Props.Flow
import Verif.Props.Invariance
import Verif.Props.Order
import Verif.Tactic
import Verif.Lemmas.SimOrder
import Verif.Lemmas.SimUnordered
import Verif.Lemmas.SimEq
import Verif.Lemmas.Candidate
import Verif.Lemmas.Items
import Verif.Props.Unions
import Verif.Props.UnionErrors
import Verif.Props.Collections
import Verif.Props.Errors
import Verif.Lemmas.Frame
import Verif.Props.Lines
import Verif.Props.Names
import Verif.Lemmas.Drop
import Verif.Props.Fields
import Verif.Lemmas.Write
import Verif.Lemmas.Parallel
import Verif.Props.Writing
import Verif.Props.Children
import Verif.Lemmas.Reread
import Verif.Props.Special
import Verif.Props.Wrapped
import Verif.Props.Backends
import Verif.Props.SkipEmpty
import Verif.SpecRoundTrip
import Verif.Lemmas.Emit
import Verif.Lemmas.EmitItems
import Verif.Lemmas.EmitLists
import Verif.Lemmas.EmitLevel
import Verif.Lemmas.EmitWrap
import Verif.Lemmas.EmitModel
import Verif.Props.RoundTrip
import Verif.Compile
import Verif.SpecCompile
import Verif.Lemmas.Compile
import Verif.Lemmas.CompileNames
import Verif.Lemmas.CompileSupported
import Verif.Props.Definition
import Verif.Lemmas.CompileMono
import Verif.Lemmas.CompileFinite
import Verif.Props.Accepted
import Verif.Props.Lexical
import Verif.Heap
import Verif.SpecHeap
import Verif.Lemmas.Heap
import Verif.Lemmas.HeapDeser
import Verif.HeapWrite
import Verif.Lemmas.HeapVal
import Verif.Lemmas.HeapSer
import Verif.Props.Identity
import Verif.Props.Declarations
import Verif.Lemmas.CompileParents
import Verif.Props.Paths
import Verif.Registry
import Verif.Props.Registry
import Verif.Hooks
import Verif.Props.Hooks
import Verif.Lemmas.CompileBuilt
import Verif.Props.History
import Verif.Props.Bases
import Verif.SpecUnread
import Verif.Lemmas.Unread
import Verif.Props.Unread
import Verif.Lemmas.LinesIn
import Verif.Lemmas.Place
import Verif.Lemmas.SimAttrs
import Verif.Props.Attributes
import Verif.Threaded
import Verif.Lemmas.Threaded
import Verif.Props.Context
import Verif.Conc
import Verif.ConcWrite
import Verif.SpecConc
import Verif.Lemmas.Para
import Verif.Lemmas.ParaDeser
import Verif.Lemmas.ParaSer
import Verif.Lemmas.Interleave
import Verif.Lemmas.Runs
import Verif.Lemmas.RunsDeser
import Verif.Lemmas.RunsSer
import Verif.Lemmas.Calls
import Verif.Props.Concurrency
import Verif.SpecWrite
import Verif.Lemmas.Shaped
import Verif.Props.Shape
import Verif.SpecEffort
import Verif.Lemmas.Effort
import Verif.Props.Effort
import Verif.Define
import Verif.SpecDefine
import Verif.Lemmas.Define
import Verif.Props.Define
import Verif.Text
import Verif.SpecText
import Verif.ExampleXml
import Verif.Lemmas.ExampleXml
import Verif.Props.Text
import Verif.SpecIndent
import Verif.Props.Indent
import Verif.SpecProgram
import Verif.Lemmas.CompileKeyed
import Verif.Lemmas.CompileProgram
import Verif.Props.Program
import Verif.Config
import Verif.Mypy
import Verif.SpecConfig
import Verif.Props.Config
import Verif.Props.Generic
import Verif.SpecTyped
import Verif.Lemmas.Typed
import Verif.Props.Typed
import Verif.SpecDeclared
import Verif.Lemmas.CompileBecomes
import Verif.Props.Declared
import Verif.SpecTypedProgram
import Verif.Lemmas.TypedProgram
import Verif.Props.TypedProgram
import Verif.SpecVocabulary
import Verif.Props.Vocabulary
import Verif.Props.TypedText
import Verif.SpecProgramVocabulary
import Verif.Props.ProgramVocabulary
import Verif.SpecHidden
import Verif.Lemmas.Hidden
import Verif.Lemmas.HiddenCompile
import Verif.Props.Hidden
import Verif.Props.Injective
import Verif.SpecModes
import Verif.Lemmas.Modes
import Verif.Lemmas.ModesCompile
import Verif.Props.Modes
import Verif.SpecStable
import Verif.Lemmas.Stable
import Verif.Props.Stable
import Verif.Lemmas.StableProgram
import Verif.Props.StableProgram
import Verif.Props.StableComputed
import Verif.SpecEvolve
import Verif.Lemmas.Evolve
import Verif.Props.Evolve
import Verif.SpecSet
import Verif.Lemmas.SetFields
import Verif.Props.SetFields
import Verif.SpecOmit
import Verif.Lemmas.Omit
import Verif.Props.Omit
import Verif.SpecLocal
import Verif.Lemmas.Local
import Verif.Props.Local
import Verif.SpecEvolveWrite
import Verif.Lemmas.EvolveWrite
import Verif.Props.EvolveWrite
import Verif.Props.Exact
import Verif.Props.ExactNames
import Verif.Props.ExactWrite
import Verif.SpecLossless
import Verif.Lemmas.Lossless
import Verif.Props.Lossless
import Verif.SpecFieldOrder
import Verif.Lemmas.FieldOrder
import Verif.Lemmas.FieldOrderModel
import Verif.Props.FieldOrder
import Verif.Lemmas.OnlyTaken
import Verif.Props.OnlyTaken
import Verif.SpecPlace
import Verif.Lemmas.RestOf
import Verif.Lemmas.LocFree
import Verif.Lemmas.Gives
import Verif.Props.Place
import Verif.Props.Excluded
import Verif.SpecSubDoc
import Verif.Lemmas.SubDoc
import Verif.Props.SubDoc
import Verif.SpecPieces
import Verif.Props.Pieces
import Verif.Lemmas.SimVal
import Verif.SpecVerdict
import Verif.Props.OrderValues
import Verif.Props.ExactScopes
import Verif.Props.Discriminator
import Verif.Props.SubModel
import Verif.Props.Stricter
import Verif.Props.TupleList
import Verif.Props.Sides
import Verif.Props.Nillable
import Verif.Props.RootField
import Verif.Props.Rename
import Verif.Props.Retag
import Verif.Props.Meanwhile
import Verif.Props.Retext
import Verif.Props.Rekey
import Verif.Props.EmptyString
import Verif.Props.MoveLines
import Verif.Props.Pi
import Verif.Props.StrictCut
import Verif.Props.PiStrict
import Verif.Axioms
