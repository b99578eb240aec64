import Verif.Model.Compile

/-!
# Agents, intentions and the environment as data

Objects that are shared or compared by identity (agents, intentions, belief sets, plan
lists, instructions) live in heaps and are identified by numbers.
-/

namespace Verif

/-- What the model takes from the host as parameters: arithmetic; the parser applied to
the text of a plan (`runtime.py` 505-530) and of an event (`stdlib.py` 373-383); printing
of terms other than strings and truth values by `asl_str` (`str`) and of terms other than strings
by Python's `str` (`pyStr`: `str(1.0)` is `1.0`, but `asl_str(1.0)` is `1`;
numbers do not know here whether they are of type `int`); the date (year, month, day) and the time (hour,
minute, second) after a number of readings of the clock. -/
class Host extends Arith where
  parsePlan : String → Ev PlanSrc
  parseEvent : String → Ev Event
  str : Term → String
  pyStr : Term → String := str
  date : Nat → Rat × Rat × Rat := fun _ => (1970, 1, 1)
  time : Nat → Rat × Rat × Rat := fun _ => (0, 0, 0)

/-- `Intention`, `runtime.py` 334-346.  `b` are `scope` and `stack`; the tops of
`queries` (`query_stack`) and `cps` (`choicepoint_stack`) are the heads of the lists. -/
structure Intention where
  instr : Option Nat := none
  headTerm : Option Term := none
  callingTerm : Option Term := none
  b : BSt := BSt.init
  queries : List (Gen Act ActGen) := []
  cps : List Nat := []
  waiter : Option Waiter := none

/-- Keys of `agent.plans`, `runtime.py` 385. -/
abbrev PlanKey := Trigger × GoalType × String × Nat

/-- `Agent`, `runtime.py` 349-359.  `beliefs` and `plans` map keys to set and list
objects; `intentions` is a deque of stacks of intentions (top first).

Simplification: looking up a key that is missing in one of the `defaultdict`s does not
create the entry; entries are created by additions only. -/
structure Agent where
  name : String
  beliefs : String × Nat → Option Nat := fun _ => none
  rules : String × Nat → List (Rule Act) := fun _ => []
  plans : List (PlanKey × Nat) := []
  intentions : List (List Nat) := []

/-- What is printed by `.print` (without the colour), or written to the file of the agent by `.csv`. -/
structure Output where
  toFile : Bool
  name : String
  text : String
deriving DecidableEq, Repr

/-- Everything.  `reg` is `env.agents` (757-759).  Objects with numbers ≥ `nag`, `nset`,
`nplist`, `nint` do not exist yet.  `clock` are the values `env.time()` will return, one
after the other; `ticks` of them have been read.  `cur` and `curInt` are the agent and
the intention passed to the query that is running.

`events` is a history variable that the code does not have: the events that have been
delivered (by `Agent.call`, after freezing the term), the latest first, with the receiving
agents.  Nothing depends on it; it is there to state what happened.  `out` is what has been
printed and written so far, the latest first. -/
structure World where
  ags : Nat → Agent
  nag : Nat
  reg : List (String × Nat)
  sets : Nat → List Term
  nset : Nat
  plists : Nat → List Plan
  nplist : Nat
  ints : Nat → Intention
  nint : Nat
  code : Code
  clock : Nat → Rat
  ticks : Nat
  cur : Nat
  curInt : Nat
  events : List (Nat × Event)
  out : List Output

namespace World

/-- `Environment()`, `runtime.py` 757-759: no agents. -/
def init (clock : Nat → Rat) : World where
  ags _ := { name := "" }
  nag := 0
  reg := []
  sets _ := []
  nset := 0
  plists _ := []
  nplist := 0
  ints _ := {}
  nint := 0
  code := Code.empty
  clock := clock
  ticks := 0
  cur := 0
  curInt := 0
  events := []
  out := []

/-- The belief set of agent `a` for a predicate, `self.beliefs[group]`. -/
def beliefs (w : World) (a : Nat) (g : String × Nat) : List Term :=
  match (w.ags a).beliefs g with
  | some r => w.sets r
  | none => []

/-- Change an agent object. -/
def setAg (w : World) (a : Nat) (x : Agent) : World := { w with ags := fun i => if i = a then x else w.ags i }

/-- Change an intention object. -/
def setInt (w : World) (i : Nat) (x : Intention) : World := { w with ints := fun j => if j = i then x else w.ints j }

/-- Change the contents of a belief set object. -/
def setSet (w : World) (r : Nat) (xs : List Term) : World := { w with sets := fun j => if j = r then xs else w.sets j }

/-- Change the contents of a plan list object. -/
def setPlist (w : World) (r : Nat) (ps : List Plan) : World :=
  { w with plists := fun j => if j = r then ps else w.plists j }

/-- Change the belief set of an agent in place; create it if there is none. -/
def setBeliefs (w : World) (a : Nat) (g : String × Nat) (xs : List Term) : World :=
  match (w.ags a).beliefs g with
  | some r => w.setSet r xs
  | none =>
    { (w.setSet w.nset xs).setAg a
        { w.ags a with beliefs := fun g' => if g' = g then some w.nset else (w.ags a).beliefs g' } with
      nset := w.nset + 1 }

/-- The plans of agent `a` for a key, `self.plans[key]`. -/
def plansFor (w : World) (a : Nat) (k : PlanKey) : List Plan :=
  match (w.ags a).plans.lookup k with
  | some r => w.plists r
  | none => []

/-- `Agent.add_plan`, `runtime.py` 384-385. -/
def addPlan (w : World) (a : Nat) (k : PlanKey) (p : Plan) : World :=
  match (w.ags a).plans.lookup k with
  | some r => w.setPlist r (w.plists r ++ [p])
  | none =>
    { (w.setPlist w.nplist [p]).setAg a { w.ags a with plans := (w.ags a).plans ++ [(k, w.nplist)] } with
      nplist := w.nplist + 1 }

/-- Change the waiter of an intention. -/
def setWaiter (w : World) (i : Nat) (x : Option Waiter) : World := w.setInt i { w.ints i with waiter := x }

/-- `env.time()`, `runtime.py` 868-869. -/
def time (w : World) : Rat × World := (w.clock w.ticks, { w with ticks := w.ticks + 1 })

end World

mutual
/-- A statement with all variables renumbered. -/
def Stmt.rename (ρ : VarId → VarId) : Stmt → Stmt
  | .add t => .add (t.rename ρ)
  | .remove t => .remove (t.rename ρ)
  | .test t => .test (t.rename ρ)
  | .replace p t => .replace (p.rename ρ) (t.rename ρ)
  | .achieve t => .achieve (t.rename ρ)
  | .achieveLater t => .achieveLater (t.rename ρ)
  | .query q => .query (q.rename ρ)
  | .forall_ q b => .forall_ (q.rename ρ) (Stmt.renameL ρ b)
  | .ite q a b => .ite (q.rename ρ) (Stmt.renameO ρ a) (Stmt.renameO ρ b)
  | .while_ q b => .while_ (q.rename ρ) (Stmt.renameL ρ b)
def Stmt.renameL (ρ : VarId → VarId) : List Stmt → List Stmt
  | [] => []
  | x :: xs => Stmt.rename ρ x :: Stmt.renameL ρ xs
def Stmt.renameO (ρ : VarId → VarId) : Option (List Stmt) → Option (List Stmt)
  | none => none
  | some b => some (Stmt.renameL ρ b)
end

mutual
/-- All variables of a statement are below this number. -/
def Stmt.bound : Stmt → Nat
  | .add t | .remove t | .test t | .achieve t | .achieveLater t => t.bound
  | .replace p t => max p.bound t.bound
  | .query q => q.bound
  | .forall_ q b | .while_ q b => max q.bound (Stmt.boundL b)
  | .ite q a b => max q.bound (max (Stmt.boundO a) (Stmt.boundO b))
def Stmt.boundL : List Stmt → Nat
  | [] => 0
  | x :: xs => max (Stmt.bound x) (Stmt.boundL xs)
def Stmt.boundO : Option (List Stmt) → Nat
  | none => 0
  | some b => Stmt.boundL b
end

/-- All variables of a plan are below this number. -/
def PlanSrc.bound (p : PlanSrc) : Nat := max p.head.bound (max p.context.bound (Stmt.boundL p.body))

/-- `len(t)` arguments and functor of a literal: the key of a plan, `runtime.py` 385. -/
def planKey (tr : Trigger) (gt : GoalType) (head : Term) : PlanKey :=
  match head with
  | .lit f as _ => (tr, gt, f, as.length)
  | _ => (tr, gt, "", 0)

/-- Build a plan with new `Var` objects, compile its body and add it to the agent:
`runtime.py` 528-547 and 784-807. -/
def buildPlan (a : Nat) (src : PlanSrc) (s : QSt World) : QSt World :=
  let ρ := (s.nv + ·)
  let p : Plan := ⟨src.trigger, src.goalType, src.head.rename ρ, src.context.rename ρ, s.w.code.size, src.label, src.text⟩
  let w := { s.w with code := compileBody (Stmt.renameL ρ src.body) s.w.code }
  { s with nv := s.nv + src.bound, w := w.addPlan a (planKey src.trigger src.goalType src.head) p }

end Verif
