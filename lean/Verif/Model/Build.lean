import Verif.Model.Script
import Verif.Model.Env

/-!
# From syntax trees to programs (`agentspeak/runtime.py` 40-166, 505-549, 772-826, 966-1088)

The visitors of `runtime.py` turn the tree of a plan into a term for the head, a query for the
context and instructions for the body.  Here the result is a `PlanSrc`; the chain of
instructions is made from it by `compileBody` (C11).  `Var` objects are numbered in the order
of their creation, separately for every clause.  As in `Verif.Model.Script`, errors that are
logged are counted without a limit, and warnings are left out.
-/

namespace Verif

/-- The dict `variables` (the latest item first) and the number of `Var` objects created. -/
structure VTab where
  names : List (List Char × Term) := []
  next : Nat := 0

/-- `BuildTermVisitor.visit_variable`, `runtime.py` 70-80. -/
def VTab.get (t : VTab) (x : List Char) : Term × VTab :=
  match t.names.lookup x with
  | some v => (v, t)
  | none =>
    if x = ['_'] then (.wild, { t with names := (x, .wild) :: t.names })
    else (.var t.next, ⟨(x, .var t.next) :: t.names, t.next + 1⟩)

mutual
/-- `BuildTermVisitor`, `runtime.py` 40-80 (`pat = false`), and `BuildReplacePatternVisitor`,
83-91 (`pat = true`): operators become wildcards, and what is below them is not visited.  The
annotations are not merged to a set. -/
def makeTerm (pat : Bool) : Ast → VTab → Term × VTab
  | .const v, t => (v.term, t)
  | .var x, t => t.get x
  | .lit f ts as, t =>
    let (ts, t) := makeTerms pat ts t
    let (as, t) := makeTerms pat as t
    (.lit (String.ofList f) ts as, t)
  | .list ts, t =>
    let (ts, t) := makeTerms pat ts t
    (.tup ts, t)
  | .linked x y, t =>
    let (x, t) := makeTerm pat x t
    let (y, t) := makeTerm pat y t
    (.cons x y, t)
  | .un op x, t =>
    if pat then (.wild, t)
    else
      let (x, t) := makeTerm pat x t
      (.un op x, t)
  | .bin op x y, t =>
    if pat then (.wild, t)
    else
      let (x, t) := makeTerm pat x t
      let (y, t) := makeTerm pat y t
      (.bin op x y, t)
def makeTerms (pat : Bool) : List Ast → VTab → List Term × VTab
  | [], t => ([], t)
  | a :: as, t =>
    let (x, t) := makeTerm pat a t
    let (xs, t) := makeTerms pat as t
    (x :: xs, t)
end

/-- The state of the visitors: the variables and the number of errors logged. -/
structure Bld where
  tab : VTab := {}
  errs : Nat := 0

/-- `ast.accept(BuildTermVisitor(variables))` -/
def Bld.term (s : Bld) (a : Ast) : Term × Bld :=
  let (x, t) := makeTerm false a s.tab
  (x, { s with tab := t })

/-- `actions.lookup(functor, arity)`, `agentspeak/__init__.py` 1086-1095; `none` stands for
`KeyError`.  (See `Regs.lookup`.) -/
abbrev Lookup := String → Nat → Option Act

/-- `BuildQueryVisitor`, `runtime.py` 94-149.  `raise log.error(…)` for constants; other wrong
binary operators are only logged.  For a wrong unary operator, the attribute `lexeme` is
looked up in the enumeration, where it does not exist.  There are no methods for lists. -/
def makeQuery (acts : Lookup) : Ast → Bld → Res Bld (Query Act)
  | .lit f ts as, s =>
    let (x, s) := s.term (.lit f ts as)
    match acts (String.ofList f) ts.length with
    | some a => .ok (.act a x) s
    | none => .ok (.term x) s
  | .const (.bool true), s => .ok .tru s
  | .const (.bool false), s => .ok .fls s
  | .const _, s => .err (.asl "non-boolean const in query context") { s with errs := s.errs + 1 }
  | .bin .and l r, s => (makeQuery acts l s).bind fun l s => (makeQuery acts r s).bind fun r s => .ok (.and l r) s
  | .bin .or l r, s => (makeQuery acts l s).bind fun l s => (makeQuery acts r s).bind fun r s => .ok (.or l r) s
  | .bin .unify l r, s =>
    let (l, s) := s.term l
    let (r, s) := s.term r
    .ok (.unify l r) s
  | .bin op l r, s =>
    let s := if op.compOp then s else { s with errs := s.errs + 1 }
    let (x, s) := s.term (.bin op l r)
    .ok (.term x) s
  | .un .not a, s => (makeQuery acts a s).bind fun q s => .ok (.not q) s
  | .un _ _, s => .err (.py "AttributeError") s
  | .var x, s =>
    let (x, s) := s.term (.var x)
    .ok (.term x) s
  | .list _, s => .err (.py "AttributeError") s
  | .linked _ _, s => .err (.py "AttributeError") s

mutual
/-- `BuildInstructionsVisitor`, `runtime.py` 978-1082: the terms and queries of a statement, in
the order in which they are built. -/
def makeStmt (acts : Lookup) : AStmt → Bld → Res Bld Stmt
  | .formula .add a, s => let (x, s) := s.term a; .ok (.add x) s
  | .formula .remove a, s => let (x, s) := s.term a; .ok (.remove x) s
  | .formula .test a, s => let (x, s) := s.term a; .ok (.test x) s
  | .formula .replace a, s =>
    let (p, t) := makeTerm true a { next := s.tab.next }
    let (x, s) := { s with tab := { s.tab with next := t.next } : Bld }.term a
    .ok (.replace p x) s
  | .formula .achieve a, s => let (x, s) := s.term a; .ok (.achieve x) s
  | .formula .achieveLater a, s => let (x, s) := s.term a; .ok (.achieveLater x) s
  | .formula .term a, s => (makeQuery acts a s).bind fun q s => .ok (.query q) s
  | .for_ g b, s => (makeQuery acts g s).bind fun q s => (makeStmts acts b s).bind fun b s => .ok (.forall_ q b) s
  | .while_ c b, s => (makeQuery acts c s).bind fun q s => (makeStmts acts b s).bind fun b s => .ok (.while_ q b) s
  | .if_ c b, s => (makeQuery acts c s).bind fun q s => (makeStmts acts b s).bind fun b s => .ok (.ite q (some b) none) s
  | .ifElse c b e, s =>
    (makeQuery acts c s).bind fun q s => (makeStmts acts b s).bind fun b s => (makeStmts acts e s).bind fun e s =>
    .ok (.ite q (some b) (some e)) s
/-- `BuildInstructionsVisitor.visit_body`, `runtime.py` 1084-1088. -/
def makeStmts (acts : Lookup) : List AStmt → Bld → Res Bld (List Stmt)
  | [], s => .ok [] s
  | x :: xs, s => (makeStmt acts x s).bind fun x s => (makeStmts acts xs s).bind fun xs s => .ok (x :: xs) s
end

/-- Has the node an attribute `terms`? -/
def Ast.hasTerms : Ast → Bool
  | .lit _ _ _ => true
  | .list _ => true
  | _ => false

/-- `ast.annotations` and `ast.functor` of a literal. -/
def Ast.annotations : Ast → List Ast
  | .lit _ _ as => as
  | _ => []

/-- `label.functor`, as it is used in `runtime.py` 620-629; a label is a literal (`parse_plan`). -/
def Ast.functorName : Ast → String
  | .lit f _ _ => String.ofList f
  | _ => ""

/-- The context of a plan, `runtime.py` 789-792. -/
def makeContext (acts : Lookup) : Option Ast → Bld → Res Bld (Query Act)
  | some c, s => makeQuery acts c s
  | none, s => .ok .tru s

/-- The body of a plan, `runtime.py` 794-797. -/
def makeBody (acts : Lookup) : Option (List AStmt) → Bld → Res Bld (List Stmt)
  | some b, s => makeStmts acts b s
  | none, s => .ok [] s

/-- One plan: `runtime.py` 784-806 in `build_agent_from_ast`, and the same in `_tell_how`,
526-549.  Computing `plan.args` (804, 547) raises `AttributeError` if one of the annotations of
the event has no attribute `terms`.  The text of the plan (`plan_to_str`) is a parameter. -/
def makePlan (acts : Lookup) (text : APlan → String) (p : APlan) (errs : Nat) : Res Nat PlanSrc :=
  let (head, s) := ({ errs := errs } : Bld).term p.event.head
  let plan := (makeContext acts p.context s).bind fun context s => (makeBody acts p.body s).bind fun body s =>
    if p.event.head.annotations.all Ast.hasTerms then
      .ok { trigger := p.event.trigger, goalType := p.event.goalType, head := head, context := context, body := body,
            label := p.label.map Ast.functorName, text := text p : PlanSrc } s
    else .err (.py "AttributeError") s
  match plan with
  | .ok p s => .ok p s.errs
  | .err e s => .err e s.errs
  | .oof => .oof

/-- One rule: `runtime.py` 778-782. -/
def makeRule (acts : Lookup) (r : ARule) (errs : Nat) : Res Nat (Rule Act) :=
  let (head, s) := ({ errs := errs } : Bld).term r.head
  match makeQuery acts r.consequence s with
  | .ok q s => .ok ⟨head, q⟩ s.errs
  | .err e s => .err e s.errs
  | .oof => .oof

/-- A list of clauses, one after the other. -/
def makeAll {α β : Type} (f : α → Nat → Res Nat β) : List α → Nat → Res Nat (List β)
  | [], s => .ok [] s
  | x :: xs, s => (f x s).bind fun y s => (makeAll f xs s).bind fun ys s => .ok (y :: ys) s

/-- The clauses of `build_agent_from_ast`, `runtime.py` 772-823: what is added to the agent (the
calls are in `buildAgent`), and `log.throw()` (823). -/
def makeAgent (acts : Lookup) (text : APlan → String) (a : AAgent) : Res Nat AgentSrc :=
  (makeAll (makeRule acts) a.rules 0).bind fun rules s =>
  (makeAll (makePlan acts text) a.plans s).bind fun plans s =>
  let fresh := fun b : Ast => (makeTerm false b {}).1
  if s = 0 then .ok ⟨rules, plans, a.beliefs.map fresh, a.goals.map fresh⟩ s
  else .err (.asl "errors") s

/-! ## From text -/

section
variable [Unicode] [Floats] [Arith]

/-- `_build_agent`, `runtime.py` 829-840: `parse`, `log.throw()`, `build_agent_from_ast`. -/
def makeSource (acts : Lookup) (text : APlan → String) (files : List Char → Option (List Tok)) (n : Nat) (file : List Char)
    (ts : List Tok) : Res Nat AgentSrc :=
  (parseFile files n file ts).bind fun a s =>
  match a, s with
  | some a, 0 => makeAgent acts text a
  | _, s => .err (.asl "errors") s

/-- `_tell_how`, `runtime.py` 505-549, with the tokens of the text: the plan that is added.  The
first token is taken without looking if there is one; if it is not `@`, `+` or `-`, the variable
`ast_plan` has no value.  There is no `log.throw()`.  `acts` are the standard actions here
(`agentspeak.stdlib.actions`, line 529), not those of the agent. -/
def toldPlan (acts : Lookup) (text : APlan → String) (n : Nat) (ts : List Tok) : Ev PlanSrc :=
  match ts with
  | [] => .err (.py "IndexError")
  | t :: _ =>
    if t.lexeme = ['@'] ∨ t.lexeme = ['+'] ∨ t.lexeme = ['-'] then
      (parsePlan n ts).bind fun (p, ts) =>
      if at? ['.'] ts then
        match makePlan acts text p 0 with
        | .ok p _ => .ok p
        | .err e _ => .err e
        | .oof => .oof
      else syntaxError
    else .err (.py "UnboundLocalError")

/-- `BuildEventVisitor`, `runtime.py` 152-166: constants are folded (`ConstFoldVisitor`), errors
are raised (`Log(LOGGER, 1)`); the operators that are left are errors, which is checked before
building the term here. -/
def makeEvent (e : AEvent) : Ev Event :=
  match fold .term e.head 0 with
  | .ok (some h) 0 => if h.ops = 0 then .ok ⟨e.trigger, e.goalType, (makeTerm false h {}).1⟩ else .err (.asl "errors")
  | .ok _ _ => .err (.asl "errors")
  | .err e 0 => .err e
  | .err _ _ => .err (.asl "errors")
  | .oof => .oof

/-- The event of `.wait`, `stdlib.py` 373-383, with the tokens of the text. -/
def waitEvent (n : Nat) (ts : List Tok) : Ev Event :=
  (parseEvent n ts).bind fun (e, ts) => if at? ['.'] ts then makeEvent e else syntaxError

end

end Verif
