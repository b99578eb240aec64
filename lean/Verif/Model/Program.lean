import Verif.Model.Freeze
import Verif.Model.Query

/-!
# Programs: events, actions, plan bodies, instructions
-/

namespace Verif

/-- `Trigger`, `agentspeak/__init__.py` 221-224. -/
inductive Trigger where
  | addition | removal
deriving DecidableEq, Repr

/-- `GoalType`, `agentspeak/__init__.py` 227-233. -/
inductive GoalType where
  | achievement | test | belief | tellHow | askHow
deriving DecidableEq, Repr

/-- `Event`, `runtime.py` 316-323. -/
structure Event where
  trigger : Trigger
  goalType : GoalType
  head : Term
deriving Repr

/-- `Waiter`, `runtime.py` 326-329. -/
structure Waiter where
  event : Option Event
  deadline : Option Rat
deriving Repr

/-- Argument specifications of `add_function`, `add_predicate`, `add_procedure`, see
`_zip_specs`, `agentspeak/__init__.py` 953-984.  (Classes other than the five built in
conversions are not modelled; `Environment` and `Agent` consume no argument.) -/
inductive Spec where
  | any | int | float | aslStr | tuple
deriving DecidableEq, Repr

/-- Action implementations: `stdlib.py` 62-425 (without `.dump` and `.control_flow`), `.sum` of
`ext_stdlib.py`, and the wrappers of `Actions.add_function`, `add_predicate`, `add_procedure`
(`agentspeak/__init__.py` 1024-1084) around a Python function given as a parameter. -/
inductive Act where
  | broadcast | send | print | csv | fail | myName | concat | substring | member | ground
  | findall | count | abolish | wait | range | unbindAll | date | time | sum
  | fn (specs : List Spec) (f : List Term → Ev Term)
  | pred (specs : List Spec) (f : List Term → Ev Bool)
  | proc (specs : List Spec) (f : List Term → Ev Unit)

/-- Suspended generators of actions.

* `start`: not started.
* `fin`: suspended after the only `yield`, or exhausted.
* `items`: `.member` and `.range` and `.substring` after a `yield`: choicepoint, the
  term to unify, a term representing the iterator over the items to come. -/
inductive ActGen where
  | start (a : Act) (t : Term)
  | fin
  | items (c : Nat) (x : Term) (rest : Term)

/-- The functions of instructions, `runtime.py` 902-954. -/
inductive InstrF where
  | noop
  | addBelief (t : Term)
  | removeBelief (t : Term)
  | testBelief (t : Term)
  | call (trigger : Trigger) (goalType : GoalType) (t : Term)
  | callDelayed (trigger : Trigger) (goalType : GoalType) (t : Term)
  | pushQuery (q : Query Act)
  | nextOrFail
  | popQuery
  | pushChoicepoint
  | popChoicepoint

/-- `Instruction`, `runtime.py` 957-963; instructions are identified by their index in the
code store. -/
structure Instr where
  f : InstrF
  success : Option Nat := none
  failure : Option Nat := none

/-- Plan bodies: `AstBody`, `AstFormula`, `AstFor`, `AstIfThenElse`, `AstWhile` of
`parser.py`, with the terms and queries already built (`runtime.py` 40-153).  In
`replace`, `pat` is the term built by `BuildReplacePatternVisitor` (82-91), see
`Term.replacePattern`. -/
inductive Stmt where
  | add (t : Term)
  | remove (t : Term)
  | test (t : Term)
  | replace (pat t : Term)
  | achieve (t : Term)
  | achieveLater (t : Term)
  | query (q : Query Act)
  | forall_ (q : Query Act) (body : List Stmt)
  | ite (q : Query Act) (thn els : Option (List Stmt))
  | while_ (q : Query Act) (body : List Stmt)

mutual
/-- `BuildReplacePatternVisitor`, `runtime.py` 82-91, as a function of the term that
`BuildTermVisitor` builds: expressions become wildcards, variables become new variables
(numbered from `k`, the same one for all occurrences); everything else is kept. -/
def Term.replacePattern (k : Nat) : Term → Term
  | .un _ _ => .wild
  | .bin _ _ _ => .wild
  | .var x => .var (k + x)
  | .lit f args annots => .lit f (Term.replacePatternL k args) (Term.replacePatternL k annots)
  | .tup xs => .tup (Term.replacePatternL k xs)
  | .cons h t => .cons (Term.replacePattern k h) (Term.replacePattern k t)
  | t => t
def Term.replacePatternL (k : Nat) : List Term → List Term
  | [] => []
  | t :: ts => Term.replacePattern k t :: Term.replacePatternL k ts
end

/-- `Plan`, `runtime.py` 301-313; `body` is the index of the first instruction.  `text` is
what `plan_to_str` (731-754) returns; it is a parameter here.  (`plan_to_str` empties
`plan.args` when the head has arguments, so a second call on the same plan raises; this is
not modelled.) -/
structure Plan where
  trigger : Trigger
  goalType : GoalType
  head : Term
  context : Query Act
  body : Nat
  label : Option String
  text : String

/-- A plan of a program: `AstPlan` with terms and queries built; variables numbered
from 0. -/
structure PlanSrc where
  trigger : Trigger
  goalType : GoalType
  head : Term
  context : Query Act := .tru
  body : List Stmt := []
  label : Option String := none
  text : String := ""

end Verif
