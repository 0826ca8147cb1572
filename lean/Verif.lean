import Verif.Props.Markup
import Verif.Props.LexerStringTokens
import Verif.Lemmas.MarkupText
import Verif.Lemmas.MarkupParse
import Verif.Lemmas.Markup
import Verif.Spec.Markup
import Verif.Model.Markup
import Verif.Props.Math
import Verif.Props.LexerSpans
import Verif.Props.LexerWords
import Verif.Props.LexerStrings
import Verif.Props.LexerNumbers
import Verif.Props.LexerTriple
import Verif.Props.LexerCrash
import Verif.Props.LexerOps
import Verif.Props.Location
import Verif.Props.Messages
import Verif.Props.SymbolTable
import Verif.Props.Sections
import Verif.Props.Sources
import Verif.Props.ParseOrder
import Verif.Props.Registration
import Verif.Props.Eval
import Verif.Props.EvalOps
import Verif.Props.Extension
import Verif.Props.Soundness
import Verif.Model.CanBeNull
import Verif.Lemmas.PyEq
import Verif.Lemmas.Witness
import Verif.Props.Frame
import Verif.Props.Membership
import Verif.Props.Unions
import Verif.Props.Inherited
import Verif.Lemmas.ParseFile
import Verif.Props.References
import Verif.Model.Checks
import Verif.Spec.Checks
import Verif.Props.Checks
import Verif.Props.LexerComments
import Verif.Spec.CheckSafety
import Verif.Spec.Conform
import Verif.Spec.Extension
import Verif.Spec.Grammar
import Verif.Spec.Numbers
import Verif.Spec.Objects
import Verif.Spec.Parsed
import Verif.Spec.References
import Verif.Spec.Separators
import Verif.Spec.Text
import Verif.Spec.Written
import Verif.Lemmas.ElabSound
import Verif.Lemmas.ExprNames
import Verif.Lemmas.ExprSound
import Verif.Lemmas.ExprSteps
import Verif.Lemmas.ExprTotal
import Verif.Lemmas.Extension
import Verif.Lemmas.FieldMap
import Verif.Lemmas.LexExact
import Verif.Lemmas.LexNumbers
import Verif.Lemmas.LexScan
import Verif.Lemmas.LexTokens
import Verif.Lemmas.Lexer
import Verif.Lemmas.ParseObject
import Verif.Lemmas.ParseRules
import Verif.Lemmas.ParseValue
import Verif.Lemmas.ParseWitness
import Verif.Lemmas.ParseWritten
import Verif.Lemmas.Resolve
import Verif.Lemmas.Run
import Verif.Lemmas.Sound
import Verif.Lemmas.Static
import Verif.Lemmas.Typing
import Verif.Lemmas.WrittenFacts
import Verif.Model.Elab
import Verif.Model.Eval
import Verif.Model.Lexer
import Verif.Model.Location
import Verif.Model.Math
import Verif.Model.Messages
import Verif.Model.PySort
import Verif.Model.PyStr
import Verif.Model.Sections
import Verif.Model.Sources
import Verif.Model.SymbolTable
import Verif.Model.Types
import Verif.Model.Values
import Verif.Model.Run.Objects
import Verif.Model.Parse.Expr
import Verif.Model.Parse.Object
import Verif.Model.Parse.Rsl
import Verif.Model.Parse.State
import Verif.Model.Parse.Value
import Verif.Props.Objects
import Verif.Lemmas.ExprComplete
import Verif.Lemmas.ExprAccepts
import Verif.Props.Grammar
import Verif.Spec.TypeRules
import Verif.Lemmas.TypeRules
import Verif.Props.TypeRules
import Verif.Spec.Meaning
import Verif.Lemmas.Meaning
import Verif.Lemmas.MeaningElab
import Verif.Lemmas.MeaningMain
import Verif.Props.Meaning
import Verif.Model.Vcg
import Verif.Props.Vcg
import Verif.Spec.Declarations
import Verif.Lemmas.Growth
import Verif.Lemmas.RslInv
import Verif.Lemmas.RslTypes
import Verif.Lemmas.RslRecords
import Verif.Lemmas.ElabGrow
import Verif.Lemmas.RslChecks
import Verif.Model.Run.Preamble
import Verif.Model.Run.Process
import Verif.Spec.Preamble
import Verif.Lemmas.Says
import Verif.Lemmas.SaysRun
import Verif.Lemmas.Preamble
import Verif.Lemmas.ChecksKept
import Verif.Lemmas.Process
import Verif.Lemmas.Blame
import Verif.Lemmas.Registering
import Verif.Props.Passed
import Verif.Props.Process
import Verif.Props.Runs
import Verif.Props.RunSamples
import Verif.Spec.RslText
import Verif.Lemmas.RslText
import Verif.Props.RslText
import Verif.Model.Lint
import Verif.Spec.Lint
import Verif.Lemmas.Lint
import Verif.Props.Lint
import Verif.Props.Accepts
import Verif.Spec.Project
import Verif.Lemmas.Project
import Verif.Props.ProjectRun
import Verif.Spec.Export
import Verif.Lemmas.Float
import Verif.Lemmas.Export
import Verif.Props.Export
import Verif.Props.ExportSamples
import Verif.Model.Export
import Verif.Model.Vcg.Graph
import Verif.Model.Vcg.Terms
import Verif.Model.Vcg.Translate
import Verif.Spec.Solver
import Verif.Spec.Strict
import Verif.Spec.Analysis
import Verif.Lemmas.Vcg.Bounds
import Verif.Lemmas.Vcg.Functional
import Verif.Lemmas.Vcg.Initial
import Verif.Lemmas.Vcg.Live
import Verif.Lemmas.Vcg.Mono
import Verif.Lemmas.Vcg.Mono2
import Verif.Lemmas.Vcg.Ops
import Verif.Lemmas.Vcg.Ops2
import Verif.Lemmas.Vcg.Ops3
import Verif.Lemmas.Vcg.Ops4
import Verif.Lemmas.Vcg.Preamble
import Verif.Lemmas.Vcg.Rep
import Verif.Lemmas.Vcg.RepEq
import Verif.Lemmas.Vcg.Strict
import Verif.Lemmas.Vcg.Total
import Verif.Lemmas.Vcg.TrSound
import Verif.Lemmas.Vcg.TrSound2
import Verif.Lemmas.Vcg.World
import Verif.Lemmas.Vcg.Checks
import Verif.Lemmas.Vcg.Order
import Verif.Lemmas.Vcg.Weaken
import Verif.Props.Analysis
import Verif.Props.Reports
import Verif.Lemmas.Vcg.Paths
import Verif.Props.AnalysisSamples
import Verif.Lemmas.Vcg.NoCrash
import Verif.Lemmas.Vcg.NoCrash2
import Verif.Spec.Verifiable
import Verif.Model.Vcg.Declared
import Verif.Props.Verify
import Verif.Props.VerifySamples
import Verif.Model.Vcg.Example
import Verif.Props.ExampleNumbers
import Verif.Props.ExampleStrings
import Verif.Lemmas.Ids
import Verif.Spec.Shapes
import Verif.Lemmas.Shapes
import Verif.Props.Guarantee
import Verif.Props.GuaranteeSamples
import Verif.Model.Quote
import Verif.Spec.Quote
import Verif.Lemmas.Spelled
import Verif.Lemmas.Quote
import Verif.Lemmas.QuoteMain
import Verif.Props.Quote
import Verif.Model.Imports
import Verif.Spec.Imports
import Verif.Lemmas.Unimport
import Verif.Lemmas.UnimportValue
import Verif.Lemmas.UnimportExpr
import Verif.Lemmas.UnimportFile
import Verif.Lemmas.UnimportRsl
import Verif.Lemmas.UnimportLoaded
import Verif.Props.Imports
import Verif.Lemmas.Recovery
import Verif.Props.Recovery
import Verif.Spec.Layout
import Verif.Lemmas.Layout
import Verif.Lemmas.LayoutExpr
import Verif.Lemmas.LayoutFile
import Verif.Lemmas.LayoutRun
import Verif.Props.Layout
import Verif.Lemmas.StaticSound
import Verif.Lemmas.Calm
import Verif.Lemmas.CalmExpr
import Verif.Lemmas.CalmFile
import Verif.Lemmas.CalmRun
import Verif.Props.Robust
import Verif.Props.Counts
import Verif.Model.CrossRef
import Verif.Props.CrossRef
import Verif.Model.Emit
import Verif.Props.Emit
import Verif.Props.Categories
import Verif.Spec.Gap
import Verif.Lemmas.LexShift
import Verif.Lemmas.LexPrefix
import Verif.Props.LayoutText
import Verif.Model.Progress
import Verif.Props.Progress
import Verif.Spec.Sorts
import Verif.Lemmas.Vcg.Apt
import Verif.Lemmas.Vcg.Sorts
import Verif.Lemmas.Vcg.SortsF
import Verif.Lemmas.Vcg.Script
import Verif.Lemmas.Vcg.ScriptTr
import Verif.Lemmas.Vcg.ScriptG
import Verif.Lemmas.Vcg.SortOf
import Verif.Props.Sorts
import Verif.Props.SortsSamples
import Verif.Spec.Unneeded
import Verif.Lemmas.Rename
import Verif.Lemmas.RenameValue
import Verif.Lemmas.RenameExpr
import Verif.Lemmas.RenameFile
import Verif.Lemmas.RenameMarkup
import Verif.Lemmas.RenameRun
import Verif.Lemmas.RenameLoad
import Verif.Props.Unneeded
import Verif.Props.UnneededSamples
import Verif.Props.Builtins
import Verif.Props.LintTags
import Verif.Props.QuoteNumbers
import Verif.Model.Summary
import Verif.Spec.Summary
import Verif.Props.Summary
import Verif.Props.FileList
import Verif.Spec.Rearrange
import Verif.Lemmas.RearrangeNames
import Verif.Lemmas.RearrangeWritten
import Verif.Lemmas.RearrangeFiles
import Verif.Lemmas.RearrangeRefs
import Verif.Lemmas.RearrangeEval
import Verif.Props.Rearrange
import Verif.Props.RearrangeSamples
import Verif.Model.Dump
import Verif.Spec.Dump
import Verif.Lemmas.Dump
import Verif.Lemmas.DumpOk
import Verif.Lemmas.DumpLines
import Verif.Lemmas.TabsKept
import Verif.Props.Dump
import Verif.Props.DumpSamples
import Verif.Spec.Removed
import Verif.Lemmas.Removed
import Verif.Props.Removed
import Verif.Props.RemovedSamples
import Verif.Lemmas.DumpTold
import Verif.Props.DumpTold
import Verif.Spec.LessChecks
import Verif.Lemmas.SameExpr
import Verif.Lemmas.LessChecks
import Verif.Props.LessChecks
import Verif.Props.TokenSamples
import Verif.Props.LessChecksSamples
import Verif.Lemmas.Resection
import Verif.Props.Resection
import Verif.Props.ResectionSamples
import Verif.Spec.Reorder
import Verif.Lemmas.Reorder
import Verif.Props.Reorder
import Verif.Props.ReorderSamples
import Verif.Props.NoLint
import Verif.Props.TagSamples
import Verif.Props.NoLintSamples
import Verif.Props.RunOrder
import Verif.Props.RunOrderSamples
import Verif.Props.SetOrder
import Verif.Props.SkipTrlc
import Verif.Props.SkipTrlcSamples
import Verif.Props.SeparatorTuples
import Verif.Props.TripleExact
import Verif.Props.ReferencesExact
import Verif.Props.Resume
