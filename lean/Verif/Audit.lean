import Lean.Util.CollectAxioms
import Lean.Elab.Command
import Verif.Props.Unify
import Verif.Props.Ground
import Verif.Props.Annot
import Verif.Props.Query
import Verif.Props.QueryActs
import Verif.Props.Beliefs
import Verif.Props.Step
import Verif.Props.Plans
import Verif.Props.Messages
import Verif.Props.Env
import Verif.Props.Perform
import Verif.Props.Body
import Verif.Props.Loop
import Verif.Props.Registry
import Verif.Props.Compare
import Verif.Props.Items
import Verif.Props.Lexer
import Verif.Props.Strings
import Verif.Props.Fold
import Verif.Props.Parser
import Verif.Props.Print
import Verif.Props.Script
import Verif.Props.ParseErrors
import Verif.Props.Build
import Verif.Props.AskHow
import Verif.Props.Optimize
import Verif.Props.Reprint
import Verif.Props.Std
import Verif.Props.Effects
import Verif.Props.Output
import Verif.Props.Simple
import Verif.Props.Assign
import Verif.Props.Loops
import Verif.Props.FoldQuery
import Verif.Props.ParserRepl
import Verif.Props.Negation
import Verif.Props.Dump
import Verif.Props.Safe
import Verif.Props.Symbolic
import Verif.Props.Paths
import Verif.Props.Order
import Verif.Props.WaitText
import Verif.Props.Rounds
import Verif.Props.Main
import Verif.Props.FoldSafe
import Verif.Props.Deep
import Verif.Props.RoundsDeep
import Verif.Props.FoldDeep
import Verif.Props.Escapes
import Verif.Props.Renamed
import Verif.Props.Owns
import Verif.Props.MainPrompt
import Verif.Props.AgentDump
import Verif.Tests.Unit
import Verif.Tests.Language
import Verif.Tests.Actions
import Verif.Tests.Messages
import Verif.Tests.Evaluated
import Verif.Props.Args
import Verif.Props.Outcome
import Verif.Props.Message
import Verif.Props.Repl

/-!
# Audit

Building this file fails if a theorem of the namespace `Verif` depends on an axiom other
than `propext`, `Classical.choice` and `Quot.sound`.
-/

open Lean Elab Command in
run_cmd do
  let env ← getEnv
  let mut count : Nat := 0
  for (name, info) in env.constants.map₁.toList do
    if (`Verif).isPrefixOf name && info.isTheorem && !name.isInternal then
      for ax in ← liftCoreM (collectAxioms name) do
        unless ax == ``propext || ax == ``Classical.choice || ax == ``Quot.sound do
          throwError "{name} depends on {ax}"
      count := count + 1
  if count < 50 then throwError "theorems not found"
