import Verif.Model.Text
import Verif.Model.Dump

/-!
# `Agent.dump` (`agentspeak/runtime.py` 360-379), the action `.dump` (`stdlib.py` 413-417)

The headings, which are log messages, are left out.
-/

namespace Verif

/-- What is listed: the arguments of the calls of `print`, `runtime.py` 364, 369, 374 and 379. -/
inductive Listed where
  | belief (t : Term)
  | rule (r : Rule Act)
  | plan (p : Plan)
  | intention (i j : Nat)

section
variable [Floats]

/-- `str(rule)`, `runtime.py` 297-298. -/
def Rule.show (W : Wording) (r : Rule Act) : Ev (List Char) :=
  (r.query.show W).bind fun q => .ok (r.head.pyStr W ++ " :- ".toList ++ q)

/-- `"* %s%s%s : %s <- ... ." % (plan.trigger.value, plan.goal_type.value, plan.head, plan.context)`,
`runtime.py` 374. -/
def Plan.line (W : Wording) (p : Plan) : Ev (List Char) :=
  (p.context.show W).bind fun c =>
    .ok ("* ".toList ++ p.trigger.lexeme ++ p.goalType.lexeme ++ p.head.pyStr W ++ " : ".toList ++ c ++ " <- ... .".toList)

/-- The text of a line; `Intention` has no `__str__`. -/
def Listed.line (W : Wording) : Listed → Ev (List Char)
  | .belief t => .ok (t.show W)
  | .rule r => r.show W
  | .plan p => p.line W
  | .intention i j => .ok ((toString i).toList ++ ' ' :: (toString j).toList ++ ' ' :: W.default "Intention")

/-- `for x in xs: print(x)`: the lines that are printed, and how the loop ends. -/
def printEach (W : Wording) : List Listed → List (List Char) × Ev Unit
  | [] => ([], .ok ())
  | x :: xs =>
    match x.line W with
    | .ok l => (l :: (printEach W xs).1, (printEach W xs).2)
    | .err e => ([], .err e)
    | .oof => ([], .oof)

end

/-- The beliefs, rules, plans and intentions of an agent in the order in which they are
visited.  The model does not have the order of the keys of `self.beliefs` and `self.rules`; it
is given by `bs` and `rs`.  Sets of beliefs are visited in the order in which the model
has them. -/
def World.listed (w : World) (a : Nat) (bs rs : List (String × Nat)) : List Listed :=
  (bs.flatMap fun k => (((w.ags a).beliefs k).map w.sets).getD []).map .belief ++
  (rs.flatMap (w.ags a).rules).map .rule ++
  (w.allPlans a).map .plan ++
  (w.ags a).intentions.zipIdx.flatMap fun s => (List.range s.1.length).map fun j => .intention s.2 j

/-- `Agent.dump`, `runtime.py` 360-379. -/
def World.dump [Floats] (W : Wording) (w : World) (a : Nat) (bs rs : List (String × Nat)) : List (List Char) × Ev Unit :=
  printEach W (w.listed a bs rs)

end Verif
