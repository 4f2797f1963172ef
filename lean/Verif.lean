import Verif.Model.Base
import Verif.Model.Range
import Verif.Model.Text
import Verif.Model.Cursor
import Verif.Model.Match
import Verif.Model.Rules
import Verif.Model.Check
import Verif.Model.Program
import Verif.Spec.Lines
import Verif.Proofs.Text
import Verif.Proofs.Cursor
import Verif.Spec.Check
import Verif.Proofs.Contracts
import Verif.Proofs.Rules
import Verif.Proofs.Errors
import Verif.Proofs.Program
import Verif.Spec.Labels
import Verif.Spec.Program
import Verif.Proofs.FirstLeaf
import Verif.Proofs.Blocks
import Verif.Proofs.EndToEnd
import Verif.Model.Literal
import Verif.Spec.Literal
import Verif.Proofs.Literal
import Verif.Model.Filecheck
import Verif.Spec.Placement
import Verif.Spec.Matching
import Verif.Spec.InOrder
import Verif.Proofs.Placement
import Verif.Proofs.Layout
import Verif.Proofs.Completeness
import Verif.Props.FileCheck
import Verif.Props.FileCheckLiteral
import Verif.Props.Plain
import Verif.Spec.Structure
import Verif.Spec.LabelChain
import Verif.Proofs.Structure
import Verif.Props.Compile
import Verif.Props.Checks
import Verif.Proofs.Reports
import Verif.Props.Tally
import Verif.Props.Env
import Verif.Props.Text
import Verif.Props.Number
import Verif.Props.Options
import Verif.Model.Source
import Verif.Model.Manager
import Verif.Spec.Source
import Verif.Proofs.Source
import Verif.Props.Source
import Verif.Props.Manager
import Verif.Model.BoolExpr
import Verif.Spec.BoolExpr
import Verif.Proofs.BoolExpr
import Verif.Props.BoolExpr
import Verif.Model.PathTree
import Verif.Spec.PathTree
import Verif.Proofs.PathTree
import Verif.Proofs.PathForest
import Verif.Proofs.PathIter
import Verif.Props.PathTree
import Verif.Model.PathChildren
import Verif.Proofs.PathChildren
import Verif.Props.PathChildren
import Verif.Model.Substitutions
import Verif.Spec.Substitutions
import Verif.Proofs.Substitutions
import Verif.Props.Substitutions
import Verif.Model.Script
import Verif.Spec.Script
import Verif.Proofs.Script
import Verif.Props.Script
import Verif.Model.Config
import Verif.Props.Config
import Verif.Model.Execute
import Verif.Model.Environ
import Verif.Model.TestList
import Verif.Props.Execute
import Verif.Props.Environ
import Verif.Props.TestList
import Verif.Model.Runner
import Verif.Props.Runner
import Verif.Model.Report
import Verif.Spec.Report
import Verif.Props.Report
import Verif.Model.Listing
import Verif.Spec.Listing
import Verif.Props.Listing
import Verif.Model.Registry
import Verif.Spec.Registry
import Verif.Proofs.Registry
import Verif.Proofs.Discovery
import Verif.Proofs.Files
import Verif.Props.Registry
import Verif.Props.LocalConfig
import Verif.Model.Lexer
import Verif.Model.Grammar
import Verif.Model.Parser
import Verif.Spec.Lexer
import Verif.Proofs.Grammar
import Verif.Proofs.Directives
import Verif.Proofs.Recognise
import Verif.Proofs.Split
import Verif.Proofs.ParseLines
import Verif.Proofs.DagAll
import Verif.Props.DagAll
import Verif.Spec.CheckLine
import Verif.Spec.NumericText
import Verif.Proofs.ReadLine
import Verif.Proofs.ReadFile
import Verif.Proofs.Unambiguous
import Verif.Proofs.NumericText
import Verif.Props.CheckFile
import Verif.Props.CheckFileCases
import Verif.Props.NumericExpr
import Verif.Model.Regex
import Verif.Model.Smart
import Verif.Model.Pattern
import Verif.Spec.Regex
import Verif.Proofs.Regex
import Verif.Proofs.RegexSyntax
import Verif.Proofs.Utf8
import Verif.Proofs.RegexLang
import Verif.Proofs.RegexFormat
import Verif.Spec.Pattern
import Verif.Proofs.Static
import Verif.Proofs.FormatText
import Verif.Proofs.StaticSound
import Verif.Proofs.Agree
import Verif.Proofs.SmartSound
import Verif.Proofs.SmartRun
import Verif.Proofs.Segments
import Verif.Proofs.PatternSound
import Verif.Proofs.StaticComplete
import Verif.Proofs.Documented
import Verif.Props.Pattern
import Verif.Proofs.Search
import Verif.Proofs.Expr
import Verif.Props.Search
import Verif.Props.Variables
import Verif.Model.Sets
import Verif.Spec.Satisfies
import Verif.Proofs.Sets
import Verif.Proofs.DagThreaded
import Verif.Proofs.DagRx
import Verif.Proofs.FileSound
import Verif.Proofs.NonEmpty
import Verif.Proofs.SetsTotal
import Verif.Props.CheckText
import Verif.Props.Sets
import Verif.Spec.Orderly
import Verif.Proofs.Tame
import Verif.Proofs.TameProgram
import Verif.Proofs.TameInput
import Verif.Proofs.TameVerify
import Verif.Proofs.TamePlain
import Verif.Proofs.TameFile
import Verif.Proofs.TameText
import Verif.Proofs.TameCheck
import Verif.Props.NoPanic
import Verif.Model.Cli
import Verif.Spec.Cli
import Verif.Proofs.Cli
import Verif.Proofs.CliEval
import Verif.Props.Cli
import Verif.Spec.FirstMatch
import Verif.Proofs.ExactRules
import Verif.Proofs.ExactGroups
import Verif.Proofs.ExactBody
import Verif.Proofs.ExactBlocks
import Verif.Proofs.ExactFile
import Verif.Proofs.ExactLiteral
import Verif.Proofs.CompileTotal
import Verif.Props.FirstMatch
import Verif.Proofs.CaptureText
import Verif.Proofs.ExactText
import Verif.Props.FirstMatchText
import Verif.Proofs.Lineless
import Verif.Proofs.LinelessCompile
import Verif.Props.SetsMore
import Verif.Spec.Guarded
import Verif.Proofs.NotWords
import Verif.Props.NotWords
import Verif.Spec.Words
import Verif.Proofs.Words
import Verif.Proofs.WordsCompile
import Verif.Proofs.WordsReport
import Verif.Props.Words
import Verif.Model.Walk
import Verif.Props.Walk
import Verif.Proofs.SmartFrame
import Verif.Props.VariablesAll
import Verif.Spec.LineNumbers
import Verif.Model.Lines
import Verif.Proofs.LineNumbers
import Verif.Props.LineNumbers
import Verif.Proofs.Simulate
import Verif.Proofs.SimulateCheck
import Verif.Proofs.SimulateCompile
import Verif.Proofs.SimulateFile
import Verif.Proofs.IgnoreCase
import Verif.Proofs.IgnoreCaseFile
import Verif.Proofs.IgnoreCaseSets
import Verif.Model.Span
import Verif.Props.Span
import Verif.Model.Input
import Verif.Props.Input
import Verif.Spec.IgnoreCase
import Verif.Props.IgnoreCase
import Verif.Spec.Spaces
import Verif.Proofs.Spaces
import Verif.Proofs.SpaceSets
import Verif.Props.Spaces
import Verif.Spec.Agree
import Verif.Proofs.AgreeRun
import Verif.Proofs.AgreeFile
import Verif.Props.Unused
import Verif.Model.Command
import Verif.Spec.Command
import Verif.Proofs.Prefixes
import Verif.Proofs.Mentions
import Verif.Props.Command
import Verif.Model.Pipes
import Verif.Spec.Pipes
import Verif.Props.Pipes
import Verif.Props.Unsatisfied
import Verif.Props.Position
import Verif.Spec.Safe
import Verif.Proofs.PatternTotal
import Verif.Props.Abort
import Verif.Spec.LabelVars
import Verif.Proofs.BindsNothing
import Verif.Props.LabelVars
import Verif.Props.Carried
import Verif.Model.CursorUse
import Verif.Props.CursorUse
