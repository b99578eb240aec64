import Verif.Model.Stdlib
import Verif.Model.Lists
import Verif.Model.Actions
import Verif.Model.Build

/-!
# The functions of the standard library (`agentspeak/stdlib.py` 208-264, `ext_stdlib.py` 10-32)

Python functions that are made into actions with `add_function`, `add_predicate` and
`add_procedure`, and the registries `agentspeak.stdlib.actions` and
`agentspeak.ext_stdlib.actions`.
-/

namespace Verif

/-- `a < b`, with fuel that is always sufficient. -/
def pyLess (a b : Term) : Ev Bool := pyLt (a.size + b.size) true a b

/-- The loop of Python's `min`: an item replaces the smallest one so far if it is smaller. -/
def minGo (m : Term) : List Term → Ev Term
  | [] => .ok m
  | x :: xs => (pyLess x m).bind fun b => minGo (if b then x else m) xs

/-- The loop of Python's `max`: an item replaces the largest one so far if it is larger. -/
def maxGo (m : Term) : List Term → Ev Term
  | [] => .ok m
  | x :: xs => (pyLess m x).bind fun b => maxGo (if b then x else m) xs

/-- `.min`, `stdlib.py` 210. -/
def fnMin : List Term → Ev Term
  | [.tup []] => .err (.py "ValueError")
  | [.tup (x :: xs)] => minGo x xs
  | _ => .err (.py "TypeError")

/-- `.max`, `stdlib.py` 211. -/
def fnMax : List Term → Ev Term
  | [.tup []] => .err (.py "ValueError")
  | [.tup (x :: xs)] => maxGo x xs
  | _ => .err (.py "TypeError")

/-- `.length`, `stdlib.py` 212. -/
def fnLength : List Term → Ev Term
  | [t] => (pyLen t).map fun k : Nat => .num (k : Rat)
  | _ => .err (.py "TypeError")

/-- `.nth`, `stdlib.py` 215-218. -/
def fnNth : List Term → Ev Term
  | [.num q, .tup xs] =>
    if 0 ≤ q then
      match xs[q.floor.toNat]? with
      | some x => .ok x
      | none => .err (.py "IndexError")
    else .err (.py "AssertionError")
  | _ => .err (.py "TypeError")

/-- Put an item into a list that is sorted with the largest item first: it is compared with the
items from the left, and stays in front of the first one that is not larger. -/
def insertSorted (x : Term) : List Term → Ev (List Term)
  | [] => .ok [x]
  | y :: ys => (pyLess x y).bind fun b => if b then (insertSorted x ys).map (y :: ·) else .ok (x :: y :: ys)

/-- Put the items `xs` one after the other into a list that is sorted with the largest item first. -/
def sortGo : List Term → List Term → Ev (List Term)
  | acc, [] => .ok acc
  | acc, x :: xs => (insertSorted x acc).bind fun acc => sortGo acc xs

/-- `.sort`, `stdlib.py` 221-223.  Python's `sorted` is modelled by insertion: every item is moved
to the left as long as it is smaller than its neighbour.  Like `sorted`, this is stable and uses
only `<`, and does nothing if no item is smaller than the one before.  Otherwise Python compares
other pairs: if some pairs of items cannot be compared, it may raise `TypeError` for other lists
than this function, and if `<` is no (weak) order, the result may differ. -/
def fnSort : List Term → Ev Term
  | [.tup xs] => (sortGo [] xs).map fun ys => .tup ys.reverse
  | _ => .err (.py "TypeError")

/-- `.tail`, `ext_stdlib.py` 23-25. -/
def fnTail : List Term → Ev Term
  | [.tup xs] => .ok (.tup xs.tail)
  | _ => .err (.py "TypeError")

/-- `.floor`, `ext_stdlib.py` 28. -/
def fnFloor : List Term → Ev Term
  | [.num q] => .ok (.num (q.floor : Rat))
  | _ => .err (.py "TypeError")

/-- `.ceil`, `ext_stdlib.py` 29. -/
def fnCeil : List Term → Ev Term
  | [.num q] => .ok (.num (q.ceil : Rat))
  | _ => .err (.py "TypeError")

/-- `.round`, `ext_stdlib.py` 30: halves are rounded to the even neighbour. -/
def fnRound : List Term → Ev Term
  | [.num q] =>
    let k := (q + 1 / 2).floor
    .ok (.num ((if (k : Rat) = q + 1 / 2 ∧ k % 2 = 1 then k - 1 else k : Int) : Rat))
  | _ => .err (.py "TypeError")

/-- A predicate of one argument. -/
def predOf (p : Term → Bool) : List Term → Ev Bool
  | [t] => .ok (p t)
  | _ => .err (.py "TypeError")

/-- One call of a method of a registry. -/
inductive Registration where
  | action (functor : String) (arity : Option Nat) (a : Act)
  | function (functor : String) (specs : List Spec) (f : List Term → Ev Term)
  | predicate (functor : String) (specs : List Spec) (f : List Term → Ev Bool)
  | procedure (functor : String) (specs : List Spec) (f : List Term → Ev Unit)

/-- The effect of a call on registry `i`, see `Regs`. -/
def Registration.run (i : Nat) (h : Regs Act) : Registration → Ev (Regs Act)
  | .action f k a => h.add i f k a
  | .function f specs g => h.addFunction i f (specs.map fun _ => .arg) (.fn specs g)
  | .predicate f specs g => h.addPredicate i f (specs.map fun _ => .arg) (.pred specs g)
  | .procedure f specs g => h.addPredicate i f (specs.map fun _ => .arg) (.proc specs g)

/-- Run calls on registry `i`. -/
def registerAll (i : Nat) : List Registration → Regs Act → Ev (Regs Act)
  | [], h => .ok h
  | r :: rs, h => (r.run i h).bind fun h => registerAll i rs h

/-- The action only yields (or writes something). -/
def yields : Act := .proc [] fun _ => .ok ()

/-- `stdlib.py` 59-461 and `init_optimizer_actions`, `optimizer.py` 1826-1851, in this order.  `.random` is a parameter.  The output of `.dump` and `.control_flow` is not
modelled. -/
def stdRegistrations (random : List Term → Ev Term) : List Registration :=
  [.action ".broadcast" (some 2) .broadcast, .action ".send" (some 3) .send, .action ".print" none .print, .action ".fail" (some 0) .fail,
   .action ".my_name" (some 1) .myName, .action ".concat" none .concat, .function ".random" [] random, .function ".min" [.tuple] fnMin,
   .function ".max" [.tuple] fnMax, .function ".length" [.any] fnLength, .function ".nth" [.int, .tuple] fnNth, .function ".sort" [.tuple] fnSort,
   .action ".substring" (some 3) .substring, .action ".member" (some 2) .member, .predicate ".atom" [.any] (predOf Term.isAtom),
   .predicate ".literal" [.any] (predOf Term.isLiteral), .predicate ".list" [.any] (predOf Term.isList),
   .predicate ".number" [.any] (predOf Term.isNumber), .predicate ".string" [.any] (predOf Term.isString),
   .predicate ".structure" [.any] (predOf Term.isStructure), .action ".ground" (some 1) .ground, .action ".findall" (some 3) .findall,
   .action ".count" (some 2) .count, .action ".abolish" (some 1) .abolish, .action ".date" (some 3) .date, .action ".time" (some 3) .time,
   .action ".wait" (some 2) .wait, .action ".wait" (some 1) .wait,
   .action ".range" (some 2) .range, .action ".dump" (some 0) yields, .action ".unbind_all" (some 0) .unbindAll,
   .action ".control_flow" (some 0) yields, .action ".inf_mark_nosidef" (some 1) yields, .action ".inf_nosideef" (some 0) yields,
   .action ".inf_side_effect" none yields, .action ".inf_disable_global" (some 0) yields, .action ".inf_disable_local" (some 0) yields]

/-- `ext_stdlib.py` 10-63, without `.geometric`.  `.randint` is a parameter. -/
def extRegistrations (randint : List Term → Ev Term) : List Registration :=
  [.action ".raise" (some 0) (.proc [] fun _ => .err (.py "RuntimeError")), .procedure ".raise" [.any] (fun _ => .err (.py "RuntimeError")),
   .function ".tail" [.tuple] fnTail, .function ".floor" [.float] fnFloor, .function ".ceil" [.float] fnCeil, .function ".round" [.float] fnRound,
   .function ".randint" [.int, .int] randint, .action ".sum" (some 3) .sum, .action ".csv" none .csv]

/-- The registries after importing `agentspeak.stdlib` (0) and `agentspeak.ext_stdlib` (1). -/
def loadStd (random randint : List Term → Ev Term) : Ev (Regs Act) :=
  (registerAll 0 (stdRegistrations random) (Regs.empty.new none)).bind fun h => registerAll 1 (extRegistrations randint) (h.new (some 0))

/-- `agentspeak.stdlib.actions.lookup` (0) and `agentspeak.ext_stdlib.actions.lookup` (1). -/
def stdLookup (random randint : List Term → Ev Term) (i : Nat) : Lookup := fun f k =>
  match (loadStd random randint).bind fun h => h.lookup 2 i f k with
  | .ok a => some a
  | _ => none

end Verif
