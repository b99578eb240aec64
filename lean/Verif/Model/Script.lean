import Verif.Model.Fold
import Verif.Model.Program

/-!
# Plans and agents in the parser (`agentspeak/parser.py` 142-425, 679-1045, 1316-1440)

As in `Verif.Model.Fold`, errors that are logged without being raised are counted, without a
limit; warnings and source locations are left out.
-/

namespace Verif

/-- `FormulaType`, `agentspeak/__init__.py` 236-243. -/
inductive FType where
  | term | test | achieve | achieveLater | add | remove | replace
  deriving DecidableEq, Repr

/-- `FormulaType.value` -/
def FType.lexeme : FType → List Char
  | .term => [] | .test => ['?'] | .achieve => ['!'] | .achieveLater => ['!', '!'] | .add => ['+'] | .remove => ['-'] | .replace => ['-', '+']

/-- `Trigger.value`, `agentspeak/__init__.py` 219-222. -/
def Trigger.lexeme : Trigger → List Char
  | .addition => ['+'] | .removal => ['-']

/-- `GoalType.value`, `agentspeak/__init__.py` 225-231. -/
def GoalType.lexeme : GoalType → List Char
  | .achievement => ['!'] | .test => ['?'] | .belief => [] | .tellHow => ['+', '^'] | .askHow => ['+', '?']

/-- The statements of plan bodies: `AstFormula` 167-177, `AstWhile` 313-331, `AstFor` 334-352,
`AstIfThenElse` 355-378 with `else_body` `None` (`if_`) or not (`ifElse`).  An `AstBody`
(291-310) is a list of statements. -/
inductive AStmt where
  | formula (ty : FType) (term : Ast)
  | while_ (cond : Ast) (body : List AStmt)
  | for_ (gen : Ast) (body : List AStmt)
  | if_ (cond : Ast) (thn : List AStmt)
  | ifElse (cond : Ast) (thn els : List AStmt)

/-- `isinstance(formula, AstFormula)` -/
def AStmt.isFormula : AStmt → Bool
  | .formula _ _ => true
  | _ => false

/-- `AstEvent`, `parser.py` 270-288. -/
structure AEvent where
  trigger : Trigger
  goalType : GoalType
  head : Ast

/-- `AstPlan`, `parser.py` 233-267; `annotation_terms` and `args` (which are functions of the
label and the event, and not used) are left out. -/
structure APlan where
  label : Option Ast
  event : AEvent
  context : Option Ast
  body : Option (List AStmt)

/-- `AstRule`, `parser.py` 142-152. -/
structure ARule where
  head : Ast
  consequence : Ast

/-- `AstAgent`, `parser.py` 381-390; an `AstGoal` (155-164) is its literal. -/
structure AAgent where
  rules : List ARule := []
  beliefs : List Ast := []
  goals : List Ast := []
  plans : List APlan := []

/-- `agent.beliefs += …` for all parts, `parser.py` 987-990 and 1000-1003. -/
def AAgent.append (a b : AAgent) : AAgent :=
  ⟨a.rules ++ b.rules, a.beliefs ++ b.beliefs, a.goals ++ b.goals, a.plans ++ b.plans⟩

/-! ## Printing -/

/-- `agentspeak.util.indent`, `util.py` 30-31, for text whose only line breaks are line feeds:
two spaces at the beginning of every line (there is no line after a line feed at the end, and
the empty text has no line).  The argument says if a line begins here. -/
def indentGo : Bool → List Char → List Char
  | _, [] => []
  | b, c :: cs =>
    if c = '\n' then (if b then [' ', ' '] else []) ++ (if cs.isEmpty then [] else '\n' :: indentGo true cs)
    else (if b then [' ', ' '] else []) ++ c :: indentGo false cs

/-- `agentspeak.util.indent`, `util.py` 30-31. -/
def indent (s : List Char) : List Char := indentGo true s

section
variable [Floats]

/-- `;\n` between the formulas, `AstBody.__str__`, `parser.py` 299-310. -/
def joinStmts : List (List Char) → List Char
  | [] => []
  | [u] => u
  | u :: us => u ++ ';' :: '\n' :: joinStmts us

/-- The body in a loop or a branch, `parser.py` 327-329, 348-350, 370-372, 373-376. -/
def blockText (printed : List (List Char)) : List Char :=
  if printed.isEmpty then [] else indent (joinStmts printed) ++ [';', '\n']

mutual
/-- `__str__` of formulas, loops and branches: `parser.py` 176-177, 322-331, 343-352, 365-378. -/
def AStmt.print : AStmt → List Char
  | .formula ty t => ty.lexeme ++ t.print
  | .while_ c b => "while (".toList ++ c.print ++ ") {\n".toList ++ blockText (AStmt.prints b) ++ ['}']
  | .for_ g b => "for (".toList ++ g.print ++ ") {\n".toList ++ blockText (AStmt.prints b) ++ ['}']
  | .if_ c t => "if (".toList ++ c.print ++ ") {\n".toList ++ blockText (AStmt.prints t) ++ ['}']
  | .ifElse c t e =>
    "if (".toList ++ c.print ++ ") {\n".toList ++ blockText (AStmt.prints t) ++
      (if e.isEmpty then [] else "} else {\n".toList ++ blockText (AStmt.prints e)) ++ ['}']
def AStmt.prints : List AStmt → List (List Char)
  | [] => []
  | s :: ss => AStmt.print s :: AStmt.prints ss
end

/-- `AstBody.__str__`, `parser.py` 299-310. -/
def printBody (b : List AStmt) : List Char := joinStmts (AStmt.prints b)

/-- `AstEvent.__str__`, `parser.py` 283-288. -/
def AEvent.print (e : AEvent) : List Char := e.trigger.lexeme ++ e.goalType.lexeme ++ e.head.print

/-- `AstPlan.__str__`, `parser.py` 249-267. -/
def APlan.print (p : APlan) : List Char :=
  (match p.label with | some l => '@' :: l.print ++ ['\n'] | none => []) ++ p.event.print ++
    (match p.context with | some c => " : ".toList ++ c.print | none => []) ++
    (match p.body with | some b => " <-\n".toList ++ indent (printBody b) | none => [])

/-- `AstRule.__str__`, `parser.py` 151-152. -/
def ARule.print (r : ARule) : List Char := r.head.print ++ " :- ".toList ++ r.consequence.print

/-- One part of `AstAgent.__str__`: every item is printed with a full stop, after a line feed
if it is not at the beginning of the text. -/
def printAll (sep : List Char) : List Char → List (List Char) → List Char
  | acc, [] => acc
  | acc, u :: us => printAll sep (acc ++ (if acc.isEmpty then [] else sep) ++ u ++ ['.']) us

/-- Another line feed before the beliefs and the goals, `parser.py` 400-402 and 409-411. -/
def gap {α : Type} (acc : List Char) (xs : List α) : List Char :=
  if xs.isEmpty then acc else acc ++ (if acc.isEmpty then [] else ['\n'])

/-- `AstAgent.__str__`, `parser.py` 392-424. -/
def AAgent.print (a : AAgent) : List Char :=
  let s := printAll ['\n'] [] (a.rules.map ARule.print)
  let s := printAll ['\n'] (gap s a.beliefs) (a.beliefs.map Ast.print)
  let s := printAll ['\n'] (gap s a.goals) (a.goals.map fun g => '!' :: g.print)
  printAll ['\n', '\n'] s (a.plans.map APlan.print)

end

/-! ## Parsing statements and plans -/

/-- `tok.token.formula_type`, `lexer.py` 119-126. -/
def formulaType (t : Tok) : Option FType :=
  match t.kind with
  | .doubleExclam => some .achieveLater | .exclam => some .achieve | .question => some .test | .minusPlus => some .replace
  | .opPlus => some .add | .opMinus => some .remove
  | _ => none

/-- `tok.token.trigger`, `lexer.py` 125-126. -/
def trigger? (t : Tok) : Option Trigger :=
  match t.kind with
  | .opPlus => some .addition | .opMinus => some .removal
  | _ => none

/-- `tok.token.goal_type`, `lexer.py` 120-121. -/
def goalType? (t : Tok) : Option GoalType :=
  match t.kind with
  | .exclam => some .achievement | .question => some .test
  | _ => none

section
variable [Unicode] [Floats]

/-- The current token must be `w`; then `next(tokens)`. -/
def expect (w : List Char) (ts : List Tok) : Ev (List Tok) := if at? w ts then advance ts else syntaxError

/-- `(`, a term, `)`: the heads of loops and branches, `parser.py` 743-751, 774-782, 805-813. -/
def parseHead (n : Nat) (ts : List Tok) : PR Ast :=
  (expect ['('] ts).bind fun ts =>
  (parseTerm n ts).bind fun (c, ts) =>
  (expect [')'] ts).bind fun ts => .ok (c, ts)

mutual

/-- `parse_body_formula`, `parser.py` 842-860, with `parse_while` 735-763, `parse_for` 766-794
and `parse_if_then_else` 797-839. -/
def parseStmt : Nat → List Tok → PR AStmt
  | 0, _ => .oof
  | n + 1, ts =>
    if at? "while".toList ts then
      (advance ts).bind fun ts =>
      (parseHead n ts).bind fun (c, ts) =>
      (parseBlock n ts).bind fun (b, ts) => .ok (.while_ c b, ts)
    else if at? "if".toList ts then
      (advance ts).bind fun ts =>
      (parseHead n ts).bind fun (c, ts) =>
      (parseBlock n ts).bind fun (b, ts) =>
      if at? "else".toList ts then
        (advance ts).bind fun ts =>
        (parseBlock n ts).bind fun (e, ts) => .ok (.ifElse c b e, ts)
      else .ok (.if_ c b, ts)
    else if at? "for".toList ts then
      (advance ts).bind fun ts =>
      (parseHead n ts).bind fun (c, ts) =>
      (parseBlock n ts).bind fun (b, ts) => .ok (.for_ c b, ts)
    else
      match ts with
      | [] => .err (.py "StopIteration")
      | t :: _ =>
        match formulaType t with
        | some ty => (advance ts).bind fun ts => (parseTerm n ts).bind fun (a, ts) => .ok (.formula ty a, ts)
        | none => (parseTerm n ts).bind fun (a, ts) => .ok (.formula .term a, ts)

/-- `{`, statements, `}`: `parser.py` 753-761, 784-792, 815-823, 829-837. -/
def parseBlock : Nat → List Tok → PR (List AStmt)
  | 0, _ => .oof
  | n + 1, ts =>
    (expect ['{'] ts).bind fun ts =>
    (parseBody n ts).bind fun (b, ts) =>
    (expect ['}'] ts).bind fun ts => .ok (b, ts)

/-- `parse_body`, `parser.py` 711-732. -/
def parseBody : Nat → List Tok → PR (List AStmt)
  | 0, _ => .oof
  | n + 1, ts =>
    if at? ['}'] ts then .ok ([], ts)
    else
      (parseStmt n ts).bind fun (f, ts) =>
      if at? [';'] ts then
        (advance ts).bind fun ts => (parseBody n ts).bind fun (rest, ts) => .ok (f :: rest, ts)
      else if at? ['}'] ts then .ok ([f], ts)
      else if f.isFormula then syntaxError
      else (parseBody n ts).bind fun (rest, ts) => .ok (f :: rest, ts)

end

/-- `parse_plan_body`, `parser.py` 863-881. -/
def parsePlanBody : Nat → List Tok → PR (List AStmt)
  | 0, _ => .oof
  | n + 1, ts =>
    (parseStmt n ts).bind fun (f, ts) =>
    if at? [';'] ts then
      (advance ts).bind fun ts => (parsePlanBody n ts).bind fun (rest, ts) => .ok (f :: rest, ts)
    else if at? ['.'] ts then .ok ([f], ts)
    else if f.isFormula then syntaxError
    else (parsePlanBody n ts).bind fun (rest, ts) => .ok (f :: rest, ts)

/-- `parse_event`, `parser.py` 884-900. -/
def parseEvent (n : Nat) (ts : List Tok) : PR AEvent :=
  match ts with
  | [] => .err (.py "StopIteration")
  | t :: _ =>
    match trigger? t with
    | none => syntaxError
    | some tr =>
      (advance ts).bind fun ts =>
      match ts with
      | [] => .err (.py "StopIteration")
      | u :: us =>
        match goalType? u with
        | some g => (advance (u :: us)).bind fun ts => (parseLiteral n ts).bind fun (h, ts) => .ok (⟨tr, g, h⟩, ts)
        | none => (parseLiteral n (u :: us)).bind fun (h, ts) => .ok (⟨tr, .belief, h⟩, ts)

/-- `parse_plan`, `parser.py` 903-935. -/
def parsePlan (n : Nat) (ts : List Tok) : PR APlan :=
  (if at? ['@'] ts then
    (advance ts).bind fun ts => (parseLiteral n ts).bind fun (l, ts) => .ok (some l, ts)
   else .ok (none, ts)).bind fun (label, ts) =>
  (parseEvent n ts).bind fun (event, ts) =>
  (if at? [':'] ts then
    (advance ts).bind fun ts => (parseTerm n ts).bind fun (c, ts) => .ok (some c, ts)
   else .ok (none, ts)).bind fun (context, ts) =>
  (if at? ['<', '-'] ts then
    (advance ts).bind fun ts => (parsePlanBody n ts).bind fun (b, ts) => .ok (some b, ts)
   else .ok (none, ts)).bind fun (body, ts) =>
  .ok (⟨label, event, context, body⟩, ts)

/-- What is between two full stops. -/
inductive Clause where
  | rule (r : ARule)
  | belief (a : Ast)
  | goal (a : Ast)
  | plan (p : APlan)

/-- `agent.rules.append(…)` and so on, `parser.py` 1025, 1030, 1036, 1043. -/
def AAgent.add (a : AAgent) : Clause → AAgent
  | .rule r => { a with rules := a.rules ++ [r] }
  | .belief b => { a with beliefs := a.beliefs ++ [b] }
  | .goal g => { a with goals := a.goals ++ [g] }
  | .plan p => { a with plans := a.plans ++ [p] }

/-- `parse_rule_or_belief`, `parser.py` 679-696. -/
def parseRuleOrBelief (n : Nat) (ts : List Tok) : PR Clause :=
  (parseLiteral n ts).bind fun (h, ts) =>
  if at? [':', '-'] ts then
    (advance ts).bind fun ts => (parseTerm n ts).bind fun (c, ts) => .ok (.rule ⟨h, c⟩, ts)
  else .ok (.belief h, ts)

/-- `parse_initial_goal`, `parser.py` 699-708. -/
def parseGoal (n : Nat) (ts : List Tok) : PR Clause :=
  (expect ['!'] ts).bind fun ts => (parseLiteral n ts).bind fun (h, ts) => .ok (.goal h, ts)

/-- Is it a clause that begins here?  `parser.py` 1017, 1031, 1037. -/
def startsClause (t : Tok) : Bool :=
  decide (t.kind = .functor) || t.lexeme = ['!'] || t.lexeme = ['@'] || t.lexeme = ['+'] || t.lexeme = ['-']

/-- The branches of `parse_agent` for clauses, `parser.py` 1017-1043, up to the full stop.  The
current token satisfies `startsClause`. -/
def parsePart (n : Nat) (ts : List Tok) : PR Clause :=
  match ts with
  | t :: _ =>
    if t.kind = Kind.functor then parseRuleOrBelief n ts
    else if t.lexeme = ['!'] then parseGoal n ts
    else (parsePlan n ts).bind fun (p, ts) => .ok (.plan p, ts)
  | [] => .err (.py "StopIteration")

/-- The same with the full stop (`parser.py` 1022, 1027, 1033, 1040), which is the current token
afterwards. -/
def parseClause (n : Nat) (ts : List Tok) : PR Clause :=
  (parsePart n ts).bind fun (c, ts) => if at? ['.'] ts then .ok (c, ts) else syntaxError

end

/-! ## Validation -/

section
variable [Arith]

/-- `xs = [x.accept(…) for x in xs]`; `none` means that there is a `None` somewhere. -/
def mapFold {α : Type} (f : α → Nat → Res Nat (Option α)) : List α → Nat → Res Nat (Option (List α))
  | [], s => .ok (some []) s
  | x :: xs, s => (f x s).bind fun y s => (mapFold f xs s).bind fun ys s => .ok (y.bind fun y => ys.map (y :: ·)) s

/-- `x.accept(…) if x else None` -/
def optFold {α : Type} (f : α → Nat → Res Nat (Option α)) : Option α → Nat → Res Nat (Option (Option α))
  | none, s => .ok (some none) s
  | some x, s => (f x s).bind fun y s => .ok (y.map some) s

mutual
/-- `ConstFoldVisitor` for statements: `visit_formula` 1371-1380, `visit_while` 1344-1347,
`visit_for` 1339-1342, `visit_if_then_else` 1333-1337. -/
def foldStmt : AStmt → Nat → Res Nat (Option AStmt)
  | .formula ty t, s =>
    if ty = .term then (fold .logical t s).bind fun t s => .ok (t.map (.formula ty)) s
    else
      match t with
      | .lit f ts as => (fold .term (.lit f ts as) s).bind fun t s => .ok (t.map (.formula ty)) s
      | .var x => (fold .term (.var x) s).bind fun t s => .ok (t.map (.formula ty)) s
      | t => .ok (some (.formula ty t)) (s + 1)
  | .while_ c b, s => (fold .logical c s).bind fun c s => (foldStmts b s).bind fun b s =>
    .ok (c.bind fun c => b.map fun b => .while_ c b) s
  | .for_ c b, s => (fold .logical c s).bind fun c s => (foldStmts b s).bind fun b s =>
    .ok (c.bind fun c => b.map fun b => .for_ c b) s
  | .if_ c b, s => (fold .logical c s).bind fun c s => (foldStmts b s).bind fun b s =>
    .ok (c.bind fun c => b.map fun b => .if_ c b) s
  | .ifElse c b e, s => (fold .logical c s).bind fun c s => (foldStmts b s).bind fun b s => (foldStmts e s).bind fun e s =>
    .ok (c.bind fun c => b.bind fun b => e.map fun e => .ifElse c b e) s
/-- `visit_body`, `parser.py` 1349-1351. -/
def foldStmts : List AStmt → Nat → Res Nat (Option (List AStmt))
  | [], s => .ok (some []) s
  | x :: xs, s => (foldStmt x s).bind fun y s => (foldStmts xs s).bind fun ys s =>
    .ok (y.bind fun y => ys.map fun ys => y :: ys) s
end

/-- `visit_rule`, `parser.py` 1386-1389. -/
def foldRule (r : ARule) (s : Nat) : Res Nat (Option ARule) :=
  (fold .term r.head s).bind fun h s => (fold .logical r.consequence s).bind fun c s =>
    .ok (h.bind fun h => c.map fun c => ⟨h, c⟩) s

/-- `visit_event` and `visit_plan`, `parser.py` 1353-1363. -/
def foldPlan (p : APlan) (s : Nat) : Res Nat (Option APlan) :=
  (optFold (fold .term) p.label s).bind fun l s =>
  (fold .term p.event.head s).bind fun h s =>
  (optFold (fold .logical) p.context s).bind fun c s =>
  (optFold foldStmts p.body s).bind fun b s =>
    .ok (l.bind fun l => h.bind fun h => c.bind fun c => b.map fun b => ⟨l, { p.event with head := h }, c, b⟩) s

/-- `visit_agent`, `parser.py` 1326-1331. -/
def foldAgent (a : AAgent) (s : Nat) : Res Nat (Option AAgent) :=
  (mapFold foldRule a.rules s).bind fun rs s =>
  (mapFold (fold .const) a.beliefs s).bind fun bs s =>
  (mapFold (fold .term) a.goals s).bind fun gs s =>
  (mapFold foldPlan a.plans s).bind fun ps s =>
    .ok (rs.bind fun rs => bs.bind fun bs => gs.bind fun gs => ps.map fun ps => ⟨rs, bs, gs, ps⟩) s

mutual
/-- The number of operators that `FindOpVisitor` finds, `parser.py` 1082-1115 (those inside
other operators are not counted). -/
def Ast.ops : Ast → Nat
  | .const _ => 0
  | .var _ => 0
  | .lit _ ts as => Ast.opsL ts + Ast.opsL as
  | .list ts => Ast.opsL ts
  | .linked h t => h.ops + t.ops
  | .un _ _ => 1
  | .bin _ _ _ => 1
def Ast.opsL : List Ast → Nat
  | [] => 0
  | a :: as => a.ops + Ast.opsL as
end

mutual
/-- `list(ast.accept(FindVariablesVisitor()))`, `parser.py` 1048-1079: the names; `none`
stands for `None`, which is what is found for every variable under an operator.  There is no
method for linked lists. -/
def Ast.findVars : Ast → Ev (List (Option (List Char)))
  | .const _ => .ok []
  | .var x => .ok [some x]
  | .lit _ ts as => (Ast.findVarsL ts).bind fun xs => (Ast.findVarsL as).bind fun ys => .ok (xs ++ ys)
  | .list ts => Ast.findVarsL ts
  | .linked _ _ => .err (.py "AttributeError")
  | .un _ a => a.findVars.bind fun xs => .ok (xs.map fun _ => none)
  | .bin _ l r => l.findVars.bind fun xs => r.findVars.bind fun ys => .ok ((xs ++ ys).map fun _ => none)
def Ast.findVarsL : List Ast → Ev (List (Option (List Char)))
  | [] => .ok []
  | a :: as => a.findVars.bind fun xs => (Ast.findVarsL as).bind fun ys => .ok (xs ++ ys)
end

/-- The checks of a base belief, `parser.py` 1406-1417: `variable.name` raises for `None`. -/
def checkBelief (b : Ast) (s : Nat) : Res Nat Unit :=
  (Res.lift b.findVars s).bind fun vs s =>
  if none ∈ vs then .err (.py "AttributeError") s else .ok () (s + b.ops)

/-- The loop over the base beliefs, `parser.py` 1406-1417. -/
def checkBeliefs : List Ast → Nat → Res Nat Unit
  | [], s => .ok () s
  | b :: bs, s => (checkBelief b s).bind fun _ s => checkBeliefs bs s

/-- `validate`, `parser.py` 1403-1433.  The answer `none` stands for a tree with `None` in it
(an error has been logged then); in the code, the checks can raise `AttributeError` in this
case. -/
def validate (a : AAgent) (s : Nat) : Res Nat (Option AAgent) :=
  (foldAgent a s).bind fun a s =>
  match a with
  | none => .ok none s
  | some a =>
    (checkBeliefs a.beliefs s).bind fun _ s =>
    .ok (some a) (s + (a.rules.map fun r => r.head.ops).sum + (a.plans.map fun p => p.event.head.ops).sum)

end

/-! ## Paths of included files (`posixpath`) -/

/-- `path.split("/")` -/
def splitSlash : List Char → List (List Char)
  | [] => [[]]
  | c :: cs =>
    if c = '/' then [] :: splitSlash cs
    else
      match splitSlash cs with
      | w :: ws => (c :: w) :: ws
      | [] => [[c]]

/-- `"/".join(…)` -/
def joinSlash : List (List Char) → List Char
  | [] => []
  | [w] => w
  | w :: ws => w ++ '/' :: joinSlash ws

/-- `os.path.join(a, b)` -/
def joinPath (a b : List Char) : List Char :=
  if b.head? = some '/' then b else if a = [] ∨ a.getLast? = some '/' then a ++ b else a ++ '/' :: b

/-- `os.path.dirname(path)`: everything up to the last slash, without slashes at the end unless
there is nothing else. -/
def dirname (path : List Char) : List Char :=
  let up := (path.reverse.dropWhile (· ≠ '/'))
  let short := up.dropWhile (· = '/')
  if short = [] then up.reverse else short.reverse

/-- The loop of `os.path.normpath`; `acc` is `new_comps`, the last first. -/
def normComps (root : Bool) : List (List Char) → List (List Char) → List (List Char)
  | acc, [] => acc.reverse
  | acc, w :: ws =>
    if w = [] ∨ w = ['.'] then normComps root acc ws
    else if w ≠ ['.', '.'] ∨ (root = false ∧ acc = []) ∨ acc.head? = some ['.', '.'] then normComps root (w :: acc) ws
    else normComps root acc.tail ws

/-- `os.path.normpath(path)` -/
def normpath (path : List Char) : List Char :=
  let slashes := path.takeWhile (· = '/')
  let root := if slashes = [] then [] else if slashes.length = 2 then ['/', '/'] else ['/']
  let p := root ++ joinSlash (normComps (!root.isEmpty) [] (splitSlash path))
  if p = [] then ['.'] else p

/-! ## Agents -/

section
variable [Unicode] [Floats] [Arith]

/-- What `parse` (`parser.py` 1436-1440) makes of an exception of one of the functions above:
`raise log.error(…)`, also for `StopIteration`; others go on. -/
def raised {α : Type} (e : Err) (s : Nat) : Res Nat α :=
  match e with
  | .asl m => .err (.asl m) (s + 1)
  | .py k => if k = "StopIteration" then .err (.asl "end of file") (s + 1) else .err (.py k) s

/-- Run one of the functions above. -/
def parsing {α : Type} (x : Ev α) (s : Nat) : Res Nat α :=
  match x with
  | .ok a => .ok a s
  | .err e => raised e s
  | .oof => .oof

/-- The directive `include`, `parser.py` 954-968, from the token `include` to the closing
brace, which is the current token afterwards: the name of the file. -/
def parseInclude (ts : List Tok) : PR (List Char) :=
  (advance ts).bind fun ts =>
  (expect ['('] ts).bind fun ts =>
  match ts with
  | [] => .err (.py "StopIteration")
  | t :: _ =>
    if t.kind = .string then
      (parseString t.lexeme).bind fun name =>
      (advance ts).bind fun ts =>
      (expect [')'] ts).bind fun ts =>
      if at? ['}'] ts then .ok (name.map Char.ofNat, ts) else syntaxError
    else syntaxError

/-- The directive `begin`, `parser.py` 992-997, from the token `begin` to the closing brace:
the name of the directive is ignored. -/
def parseBegin (n : Nat) (ts : List Tok) : PR Unit :=
  (advance ts).bind fun ts =>
  (parseLiteral n ts).bind fun (_, ts) =>
  if at? ['}'] ts then .ok ((), ts) else syntaxError

/-- The directive `end`, `parser.py` 1004-1008. -/
def parseEnd (ts : List Tok) : PR Unit :=
  (advance ts).bind fun ts => if at? ['}'] ts then .ok ((), ts) else syntaxError

/-- `return validate(agent, log)`, `parser.py` 950 and 1012. -/
def closeAgent (acc : Option AAgent) (rest : List Tok) (s : Nat) : Res Nat (Option AAgent × List Tok) :=
  match acc with
  | none => .ok (none, rest) s
  | some a => (validate a s).bind fun a s => .ok (a, rest) s

/-- `parse` and `parse_agent`, `parser.py` 938-1045 and 1436-1440.  The tokens are those to
come; the answer is with the tokens that are left (after the end of a directive).  `files`
are the files that can be included, as tokens (without illegal characters, which raise
`AttributeError` since `1` is passed as the log, 985); `included` is `included_files` and
`file` is `filename`; `dir` says if this is inside a directive.  `acc` is `agent`, or `none`
for a tree with `None` in it, see `validate`. -/
def parseAgent (files : List Char → Option (List Tok)) :
    Nat → List (List Char) → List Char → Bool → Option AAgent → List Tok → Nat → Res Nat (Option AAgent × List Tok)
  | 0, _, _, _, _, _, _ => .oof
  | n + 1, included, file, dir, acc, ts, s =>
    match ts with
    | [] => if dir then .err (.asl "end of file") (s + 1) else closeAgent acc [] s
    | t :: us =>
      if t.lexeme = ['{'] then
        if at? "include".toList us then
          (parsing (parseInclude us) s).bind fun (name, rest) s =>
          let path := joinPath (dirname file) name
          if path ∈ included then parseAgent files n included file dir acc rest.tail (s + 1)
          else
            match files path with
            | none => parseAgent files n included file dir acc rest.tail (s + 1)
            | some toks =>
              (parseAgent files n (normpath path :: included) path false (some {}) toks s).bind fun (sub, _) s =>
              parseAgent files n included file dir (acc.bind fun a => sub.map a.append) rest.tail s
        else if at? "begin".toList us then
          (parsing (parseBegin n us) s).bind fun (_, rest) s =>
          (parseAgent files n included file true (some {}) rest.tail s).bind fun (sub, rest) s =>
          parseAgent files n included file dir (acc.bind fun a => sub.map a.append) rest s
        else if at? "end".toList us then
          (parsing (parseEnd us) s).bind fun (_, rest) s =>
          if dir then closeAgent acc rest.tail s
          else parseAgent files n included file dir acc rest.tail (s + 1)
        else if us.isEmpty then raised (.py "StopIteration") s
        else raised (.asl "syntax") s
      else if startsClause t then
        (parsing (parseClause n (t :: us)) s).bind fun (c, rest) s =>
        parseAgent files n included file dir (acc.map (·.add c)) rest.tail s
      else parseAgent files n included file dir acc us (s + 1)

/-- `parse(filename, tokens, log)`, `parser.py` 1436-1440 (with `included_files`, 939). -/
def parseFile (files : List Char → Option (List Tok)) (n : Nat) (file : List Char) (ts : List Tok) : Res Nat (Option AAgent) :=
  (parseAgent files n [normpath file] file false (some {}) ts 0).bind fun (a, _) s => .ok a s

end

end Verif
