import Verif.Model.World
import Verif.Model.Repl

/-!
# Output for developers: `.control_flow` (`stdlib.py` 430-457) and `dump_variables`
(`runtime.py` 1082-1092)

The texts of instructions, contexts and values are left out: what is printed are lists of edges,
and of names and values.
-/

namespace Verif

/-- A line with an edge, `stdlib.py` 443-447.  An instruction is printed with its address
(`Instruction.__repr__`, `runtime.py` 965-968), here its number. -/
inductive Edge where
  | success (i j : Nat)
  | failure (i j : Nat)
deriving DecidableEq, Repr

/-- The lines for one instruction, `stdlib.py` 443-447. -/
def Instr.edges (i : Nat) (x : Instr) : List Edge :=
  (x.success.map (Edge.success i)).toList ++ (x.failure.map (Edge.failure i)).toList

/-- `if instr.success and instr.success not in closed_instrs: open_instrs.add(instr.success)`,
`stdlib.py` 450-453. -/
def openInstr (j : Option Nat) (closed opened : List Nat) : List Nat :=
  match j with
  | none => opened
  | some j => if j ∈ closed then opened else opened.insert j

/-- The loop over the instructions of a plan, `stdlib.py` 438-453.  Sets are lists without
repetitions; which item `pop` removes (the one at position `pop s`) is a parameter.  There is
fuel for the loop. -/
def graphLoop (pop : List Nat → Nat) (c : Code) : Nat → List Nat → List Nat → Option (List Edge)
  | _, [], _ => some []
  | 0, _ :: _, _ => none
  | n + 1, i :: rest, closed =>
    let opened := i :: rest
    let i := opened.getD (pop opened) i
    let closed := closed.insert i
    let opened := openInstr (c.instr i).failure closed (openInstr (c.instr i).success closed (opened.erase i))
    (graphLoop pop c n opened closed).map ((c.instr i).edges i ++ ·)

/-- What is printed for a plan, `stdlib.py` 437-453: the line with name, context and body, and the
edges. -/
structure PlanGraph where
  plan : Plan
  edges : List Edge

/-- `for plans in agent.plans.values(): for plan in plans:`, `stdlib.py` 435-436. -/
def World.allPlans (w : World) (a : Nat) : List Plan := (w.ags a).plans.flatMap fun x => w.plists x.2

/-- The contents of `control_flow.dot`, `stdlib.py` 434-454. -/
def controlFlow (pop : List Nat → Nat) (n a : Nat) (w : World) : Option (List PlanGraph) :=
  (w.allPlans a).mapM fun p => (graphLoop pop w.code n [p.body] []).map (PlanGraph.mk p)

/-- Lexicographic order of texts, by code points. -/
def textLe : List Char → List Char → Bool
  | [], _ => true
  | _ :: _, [] => false
  | c :: cs, d :: ds => if c = d then textLe cs ds else decide (c < d)

/-- What `dump_variables` prints: names with values, and the names without, with their
variables. -/
structure Shown where
  bound : List (List Char × Term) := []
  unbound : List (List Char × Term) := []

/-- The loop of `dump_variables`, `runtime.py` 1085-1089.  (`deref` recurses: fuel.) -/
def showVars (n : Nat) (sc : Scope) : List (List Char × Term) → Ev Shown
  | [] => .ok {}
  | (x, t) :: rest =>
    match t with
    | .var v =>
      match sc v with
      | some _ => (deref n sc (.var v)).bind fun u => (showVars n sc rest).map fun r => { r with bound := (x, u) :: r.bound }
      | none => (showVars n sc rest).map fun r => { r with unbound := (x, .var v) :: r.unbound }
    | t => (showVars n sc rest).map fun r => { r with unbound := (x, t) :: r.unbound }

/-- Insertion by name. -/
def insertName (x : List Char × Term) : List (List Char × Term) → List (List Char × Term)
  | [] => [x]
  | y :: l => if textLe x.1 y.1 then x :: y :: l else y :: insertName x l

/-- `sorted(variables.items())`, `runtime.py` 1085: a stable sort. -/
def sortNames (l : List (List Char × Term)) : List (List Char × Term) := l.foldr insertName []

/-- `dump_variables`, `runtime.py` 1082-1092: `variables` in the order of their names.  (A
wildcard, under the name `_`, is never in a scope.  No two names are equal: variables are never
compared.) -/
def dumpVariables (n : Nat) (names : List (List Char × Term)) (sc : Scope) : Ev Shown :=
  showVars n sc (sortNames names)

/-- `dump_variables(variables, intention.scope)` after a command, `runtime.py` 1137. -/
def ReplSt.shown (n : Nat) (s : ReplSt) : Ev Shown := dumpVariables n s.names (s.st.w.ints s.int).b.scope

end Verif
