import Verif.Model.Outcome
import Verif.Model.Values
import Verif.Model.ExprType
import Verif.Model.Operations
import Verif.Spec.Values
import Verif.Lemmas.Values
import Verif.Spec.Operators
import Verif.Lemmas.Operators
import Verif.Props.Arithmetic
import Verif.Props.Typing
import Verif.Lemmas.Text
import Verif.Model.Tokenize
import Verif.Spec.Tokens
import Verif.Props.Text
import Verif.Lemmas.Tokenize
import Verif.Lemmas.TokenizeRun
import Verif.Lemmas.Positions
import Verif.Props.Tokens
import Verif.Model.Tribool
import Verif.Model.TokenTables
import Verif.Props.Tables
import Verif.Model.MapStack
import Verif.Props.MapStack
import Verif.Model.Vm
import Verif.Spec.Vm
import Verif.Props.Vm
import Verif.Model.Ast
import Verif.Model.Codegen
import Verif.Lemmas.Codegen
import Verif.Spec.Code
import Verif.Props.Codegen
import Verif.Model.ConstEval
import Verif.Spec.Source
import Verif.Spec.Static
import Verif.Spec.Loaded
import Verif.Lemmas.Source
import Verif.Lemmas.Sim
import Verif.Lemmas.SimStmt
import Verif.Lemmas.SimProg
import Verif.Lemmas.CodeOk
import Verif.Lemmas.Run
import Verif.Props.Compile
import Verif.Props.CompileCases
import Verif.Model.Html
import Verif.Spec.Html
import Verif.Lemmas.Html
import Verif.Props.Html
import Verif.Model.CodeString
import Verif.Props.CodeString
import Verif.Model.Parse
import Verif.Spec.Grammar
import Verif.Lemmas.Parse
import Verif.Lemmas.ParseRun
import Verif.Lemmas.ParseSound
import Verif.Lemmas.ParseFuel
import Verif.Lemmas.ParseScan
import Verif.Lemmas.ParseComplete
import Verif.Lemmas.ParseCompleteDecl
import Verif.Props.Parse
import Verif.Props.ParseCases
import Verif.Lemmas.ParseOwn
import Verif.Props.ParseNodes
import Verif.Model.Tree
import Verif.Model.NameLookup
import Verif.Model.Instantiate
import Verif.Model.Analyze
import Verif.Spec.Scopes
import Verif.Lemmas.Scopes
import Verif.Props.Scopes
import Verif.Props.Instances
import Verif.Lemmas.VmValues
import Verif.Spec.Analysis
import Verif.Lemmas.AnalyzeState
import Verif.Lemmas.AnalyzeInv
import Verif.Lemmas.AnalyzeInst
import Verif.Lemmas.AnalyzeExpr
import Verif.Lemmas.AnalyzeStmt
import Verif.Lemmas.AnalyzeDone
import Verif.Lemmas.AnalyzeCompile
import Verif.Lemmas.AnalyzePure
import Verif.Lemmas.AnalyzeVals
import Verif.Lemmas.AnalyzeStmtVals
import Verif.Lemmas.AnalyzeSig
import Verif.Lemmas.AnalyzeFn
import Verif.Lemmas.AnalyzeProgram
import Verif.Lemmas.AnalyzeNames
import Verif.Lemmas.AnalyzeShape
import Verif.Props.Analysis
import Verif.Props.AnalysisValues
import Verif.Props.AnalysisCases
import Verif.Spec.Ends
import Verif.Lemmas.AnalyzeEnds
import Verif.Lemmas.AnalyzeFuel
import Verif.Props.AnalysisEnds
import Verif.Spec.Calm
import Verif.Lemmas.AnalyzeCalm
import Verif.Lemmas.AnalyzeCalmFn
import Verif.Lemmas.AnalyzeCalmStmt
import Verif.Props.AnalysisCalm
import Verif.Model.Build
import Verif.Model.Compile
import Verif.Spec.Build
import Verif.Lemmas.Build
import Verif.Lemmas.BuildThrows
import Verif.Props.Build
import Verif.Model.Bmd
import Verif.Spec.Bmd
import Verif.Lemmas.BmdText
import Verif.Lemmas.BmdSound
import Verif.Lemmas.BmdTree
import Verif.Lemmas.BmdEnds
import Verif.Lemmas.BmdMono
import Verif.Lemmas.BmdUnique
import Verif.Props.Bmd
import Verif.Lemmas.BmdAccept
import Verif.Props.BmdAccept
import Verif.Model.Annotations
import Verif.Spec.Annotations
import Verif.Lemmas.Annotations
import Verif.Lemmas.AnnotationsTree
import Verif.Props.Annotations
import Verif.Spec.Spelled
import Verif.Lemmas.TokenizeComplete
import Verif.Lemmas.SpelledText
import Verif.Props.TokensComplete
import Verif.Model.GenBms
import Verif.Spec.GenBms
import Verif.Lemmas.GenBms
import Verif.Lemmas.BuildUnique
import Verif.Props.GenBms
import Verif.Model.DocHtml
import Verif.Spec.DocHtml
import Verif.Lemmas.DocHtml
import Verif.Lemmas.DocHtmlCode
import Verif.Lemmas.DocHtmlGoes
import Verif.Lemmas.DocHtmlDoc
import Verif.Lemmas.DocHtmlSane
import Verif.Lemmas.DocHtmlDepth
import Verif.Lemmas.DocHtmlTidy
import Verif.Lemmas.DocHtmlUses
import Verif.Props.DocHtml
import Verif.Spec.BmdNames
import Verif.Lemmas.BmdNames
import Verif.Props.BmdNames
import Verif.Model.ToString
import Verif.Spec.ToString
import Verif.Props.ToString
import Verif.Model.GenC
import Verif.Spec.CLang
import Verif.Spec.GenC
import Verif.Lemmas.CLang
import Verif.Lemmas.CReader
import Verif.Lemmas.GenC
import Verif.Lemmas.GenCStmt
import Verif.Lemmas.GenCTypes
import Verif.Lemmas.CStmts
import Verif.Props.GenC
import Verif.Props.GenCProgram
import Verif.Spec.CSem
import Verif.Lemmas.CSem
import Verif.Lemmas.CSemExpr
import Verif.Lemmas.CSemStmt
import Verif.Lemmas.CSemSound
import Verif.Lemmas.CSemProgram
import Verif.Props.CSem
import Verif.Model.Diagnostics
import Verif.Spec.Diagnostics
import Verif.Lemmas.Diagnostics
import Verif.Lemmas.ParseBlame
import Verif.Props.Diagnostics
import Verif.Spec.DocErrors
import Verif.Lemmas.DocErrors
import Verif.Props.DiagnosticsDoc
import Verif.Model.Output
import Verif.Spec.Terminal
import Verif.Props.Output
import Verif.Model.Dump
import Verif.Spec.Places
import Verif.Spec.Dump
import Verif.Lemmas.ParsePlaces
import Verif.Props.Dump
import Verif.Spec.WellTyped
import Verif.Lemmas.AnalyzeTyped
import Verif.Lemmas.AnalyzeTypedFn
import Verif.Lemmas.AnalyzeTypedStmt
import Verif.Props.Accepted
import Verif.Props.AnalysisReport
import Verif.Model.Generate
import Verif.Spec.Generate
import Verif.Lemmas.Generate
import Verif.Lemmas.GeneratePlain
import Verif.Lemmas.GenerateSafe
import Verif.Lemmas.GenerateTree
import Verif.Props.Generate
import Verif.Model.Cli
import Verif.Spec.Cli
import Verif.Props.Cli
import Verif.Spec.DocDump
import Verif.Lemmas.DocSpans
import Verif.Props.DocDump
import Verif.Spec.Sum
import Verif.Model.Variant
import Verif.Model.Result
import Verif.Lemmas.Sum
import Verif.Lemmas.Result
import Verif.Props.Sum
import Verif.Spec.Finite
import Verif.Lemmas.VmRank
import Verif.Lemmas.CodeForward
import Verif.Lemmas.Settles
import Verif.Lemmas.FiniteExpr
import Verif.Lemmas.FiniteStmt
import Verif.Lemmas.FiniteFn
import Verif.Lemmas.FiniteProgram
import Verif.Props.AnalysisFinite
import Verif.Spec.Blame
import Verif.Lemmas.Blame
import Verif.Lemmas.BlameNames
import Verif.Lemmas.BlameState
import Verif.Lemmas.BlameCompile
import Verif.Lemmas.BlameCopy
import Verif.Lemmas.BlameExpr
import Verif.Lemmas.BlameFn
import Verif.Props.Blame
import Verif.Lemmas.Layout
import Verif.Lemmas.LayoutBuild
import Verif.Props.Layout
import Verif.Lemmas.Placed
import Verif.Props.Rejected
import Verif.Props.Machine
import Verif.Lemmas.Order
import Verif.Lemmas.OrderTyped
import Verif.Props.Order
import Verif.Lemmas.Renumber
import Verif.Lemmas.RenumberTyped
import Verif.Lemmas.RenumberPlain
import Verif.Lemmas.RenumberNew
import Verif.Props.Again
import Verif.Lemmas.RenumberVm
import Verif.Lemmas.RenumberGen
import Verif.Lemmas.RenumberInst
import Verif.Lemmas.RenumberAna
import Verif.Lemmas.RenumberBoth
import Verif.Props.Addresses
import Verif.Lemmas.RenumberC
import Verif.Props.SameOutput
import Verif.Model.DumpCode
import Verif.Props.DumpCode
import Verif.Lemmas.DumpGen
import Verif.Props.DumpGen
import Verif.Audit
