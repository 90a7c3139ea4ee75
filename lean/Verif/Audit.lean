import Lean
import Verif.Props.Analysis
import Verif.Props.AnalysisValues
import Verif.Props.AnalysisEnds
import Verif.Props.Accepted
import Verif.Props.AnalysisCalm
import Verif.Props.AnalysisCases
import Verif.Props.Build
import Verif.Props.Bmd
import Verif.Props.BmdAccept
import Verif.Props.Annotations
import Verif.Props.TokensComplete
import Verif.Props.GenBms
import Verif.Props.Arithmetic
import Verif.Props.Typing
import Verif.Props.Text
import Verif.Props.Tokens
import Verif.Props.Tables
import Verif.Props.MapStack
import Verif.Props.Vm
import Verif.Props.Codegen
import Verif.Props.Compile
import Verif.Props.CompileCases
import Verif.Props.Html
import Verif.Props.CodeString
import Verif.Props.ParseNodes
import Verif.Props.Scopes
import Verif.Props.Instances
import Verif.Props.DocHtml
import Verif.Props.BmdNames
import Verif.Props.ToString
import Verif.Props.GenC
import Verif.Props.GenCProgram
import Verif.Props.CSem
import Verif.Props.Diagnostics
import Verif.Props.DiagnosticsDoc
import Verif.Props.Output
import Verif.Props.Dump
import Verif.Props.AnalysisReport
import Verif.Props.Generate
import Verif.Props.Cli
import Verif.Props.Sum
import Verif.Props.Blame
import Verif.Props.Layout
import Verif.Props.Rejected
import Verif.Props.Machine
import Verif.Props.Order
import Verif.Props.Again
import Verif.Props.Addresses
import Verif.Props.SameOutput
import Verif.Props.DumpCode
import Verif.Props.DumpGen
import Verif.Props.DocDump
import Verif.Props.AnalysisFinite

/-!
# Axiom audit

Fails the build if any theorem of this development whose name starts with `Bms.C<digit>`
depends on an axiom other than the three standard ones.
-/

open Lean Elab Command in
run_cmd do
  let env ← getEnv
  let allowed : List Name := [``propext, ``Classical.choice, ``Quot.sound]
  let mut count : Nat := 0
  for (n, _) in env.constants.map₁.toList do
    match n with
    | .str (.str .anonymous "Bms") s =>
      if s.startsWith "C" && ((s.toList.drop 1).headD 'x').isDigit then
        let axs ← liftCoreM (collectAxioms n)
        for a in axs do
          unless allowed.contains a do
            throwError "{n} depends on axiom {a}"
        count := count + 1
    | _ => pure ()
  logInfo m!"{count} property theorems, no axioms beyond propext, Classical.choice, Quot.sound"
