import Verif.Model.Build
import Verif.Spec.Script

/-!
# What the clauses of a program stand for
-/

namespace Verif

/-- Names of variables: `_` is the wildcard, and different names are different variables. -/
structure Naming (vars : List Char → Term) : Prop where
  wild : vars ['_'] = .wild
  var : ∀ x, x ≠ ['_'] → ∃ n : Nat, vars x = .var n
  inj : ∀ x y (n : Nat), vars x = .var n → vars y = .var n → x = y

/-- The query of a syntax tree, with the variables given by `vars`: an action if one is
registered with this name and arity, otherwise a query of beliefs and rules; the logical
connectives, unification, comparisons, and variables. -/
inductive QueryOf (acts : Lookup) (vars : List Char → Term) : Ast → Query Act → Prop where
  | act {f ts as a} : acts (String.ofList f) ts.length = some a →
      QueryOf acts vars (.lit f ts as) (.act a (Ast.build vars (.lit f ts as)))
  | belief {f ts as} : acts (String.ofList f) ts.length = none →
      QueryOf acts vars (.lit f ts as) (.term (Ast.build vars (.lit f ts as)))
  | tru : QueryOf acts vars (.const (.bool true)) .tru
  | fls : QueryOf acts vars (.const (.bool false)) .fls
  | and {l r p q} : QueryOf acts vars l p → QueryOf acts vars r q → QueryOf acts vars (.bin .and l r) (.and p q)
  | or {l r p q} : QueryOf acts vars l p → QueryOf acts vars r q → QueryOf acts vars (.bin .or l r) (.or p q)
  | not {a q} : QueryOf acts vars a q → QueryOf acts vars (.un .not a) (.not q)
  | unify {l r} : QueryOf acts vars (.bin .unify l r) (.unify (l.build vars) (r.build vars))
  | comp {op l r} : op.compOp = true → QueryOf acts vars (.bin op l r) (.term (.bin op (l.build vars) (r.build vars)))
  | var {x} : QueryOf acts vars (.var x) (.term (vars x))

mutual

/-- The statement of a syntax tree.  The belief that is replaced by `-+` is found with a
pattern that has variables of its own, and wildcards for the expressions. -/
inductive StmtOf (acts : Lookup) (vars : List Char → Term) : AStmt → Stmt → Prop where
  | add {a} : StmtOf acts vars (.formula .add a) (.add (a.build vars))
  | remove {a} : StmtOf acts vars (.formula .remove a) (.remove (a.build vars))
  | test {a} : StmtOf acts vars (.formula .test a) (.test (a.build vars))
  | replace {a pvars} : Naming pvars → (∀ x y (n : Nat), pvars x = .var n → vars y ≠ .var n) →
      StmtOf acts vars (.formula .replace a) (.replace ((a.build pvars).replacePattern 0) (a.build vars))
  | achieve {a} : StmtOf acts vars (.formula .achieve a) (.achieve (a.build vars))
  | achieveLater {a} : StmtOf acts vars (.formula .achieveLater a) (.achieveLater (a.build vars))
  | query {a q} : QueryOf acts vars a q → StmtOf acts vars (.formula .term a) (.query q)
  | for_ {a q b b'} : QueryOf acts vars a q → StmtsOf acts vars b b' → StmtOf acts vars (.for_ a b) (.forall_ q b')
  | while_ {a q b b'} : QueryOf acts vars a q → StmtsOf acts vars b b' → StmtOf acts vars (.while_ a b) (.while_ q b')
  | if_ {a q b b'} : QueryOf acts vars a q → StmtsOf acts vars b b' → StmtOf acts vars (.if_ a b) (.ite q (some b') none)
  | ifElse {a q b b' e e'} : QueryOf acts vars a q → StmtsOf acts vars b b' → StmtsOf acts vars e e' →
      StmtOf acts vars (.ifElse a b e) (.ite q (some b') (some e'))

inductive StmtsOf (acts : Lookup) (vars : List Char → Term) : List AStmt → List Stmt → Prop where
  | nil : StmtsOf acts vars [] []
  | cons {x y xs ys} : StmtOf acts vars x y → StmtsOf acts vars xs ys → StmtsOf acts vars (x :: xs) (y :: ys)

end

/-- The rule of a syntax tree: one naming for the head and the consequence. -/
def RuleOf (acts : Lookup) (r : ARule) (r' : Rule Act) : Prop :=
  ∃ vars, Naming vars ∧ r'.head = r.head.build vars ∧ QueryOf acts vars r.consequence r'.query

/-- The plan of a syntax tree: one naming for the head, the context and the body. -/
structure PlanWith (acts : Lookup) (vars : List Char → Term) (p : APlan) (p' : PlanSrc) : Prop where
  trigger : p'.trigger = p.event.trigger
  goalType : p'.goalType = p.event.goalType
  head : p'.head = p.event.head.build vars
  noContext : p.context = none → p'.context = .tru
  context : ∀ c, p.context = some c → QueryOf acts vars c p'.context
  noBody : p.body = none → p'.body = []
  body : ∀ b, p.body = some b → StmtsOf acts vars b p'.body
  noLabel : p.label = none → p'.label = none
  label : ∀ f ts as, p.label = some (.lit f ts as) → p'.label = some (String.ofList f)

/-- The plan of a syntax tree. -/
def BuiltPlan (acts : Lookup) (p : APlan) (p' : PlanSrc) : Prop := ∃ vars, Naming vars ∧ PlanWith acts vars p p'

/-- The belief or goal of a syntax tree. -/
def FactOf (a : Ast) (t : Term) : Prop := ∃ vars, Naming vars ∧ t = a.build vars

/-- Related, one by one. -/
inductive EachPair {α β : Type} (R : α → β → Prop) : List α → List β → Prop where
  | nil : EachPair R [] []
  | cons {x y xs ys} : R x y → EachPair R xs ys → EachPair R (x :: xs) (y :: ys)

/-- The program of a syntax tree; every clause has its own variables. -/
structure AgentOf (acts : Lookup) (a : AAgent) (src : AgentSrc) : Prop where
  rules : EachPair (RuleOf acts) a.rules src.rules
  plans : EachPair (BuiltPlan acts) a.plans src.plans
  beliefs : EachPair FactOf a.beliefs src.beliefs
  goals : EachPair FactOf a.goals src.goals

/-- A part of a query that is a query, too. -/
inductive Ast.Sub (b : Ast) : Ast → Prop where
  | self : Ast.Sub b b
  | andL {l r} : Ast.Sub b l → Ast.Sub b (.bin .and l r)
  | andR {l r} : Ast.Sub b r → Ast.Sub b (.bin .and l r)
  | orL {l r} : Ast.Sub b l → Ast.Sub b (.bin .or l r)
  | orR {l r} : Ast.Sub b r → Ast.Sub b (.bin .or l r)
  | not {a} : Ast.Sub b a → Ast.Sub b (.un .not a)

/-- The operator `=..` is not used in a query. -/
def Ast.NoDecompose (a : Ast) : Prop := ∀ l r, ¬(Ast.bin .decompose l r).Sub a

mutual
/-- A query of a statement. -/
inductive AStmt.Asks : AStmt → Ast → Prop where
  | term {a} : AStmt.Asks (.formula .term a) a
  | for_ {a b} : AStmt.Asks (.for_ a b) a
  | forBody {a b q} : StmtsAsk b q → AStmt.Asks (.for_ a b) q
  | while_ {a b} : AStmt.Asks (.while_ a b) a
  | whileBody {a b q} : StmtsAsk b q → AStmt.Asks (.while_ a b) q
  | if_ {a b} : AStmt.Asks (.if_ a b) a
  | ifBody {a b q} : StmtsAsk b q → AStmt.Asks (.if_ a b) q
  | ifElse {a b e} : AStmt.Asks (.ifElse a b e) a
  | ifElseThen {a b e q} : StmtsAsk b q → AStmt.Asks (.ifElse a b e) q
  | ifElseElse {a b e q} : StmtsAsk e q → AStmt.Asks (.ifElse a b e) q
/-- A query of one of the statements. -/
inductive StmtsAsk : List AStmt → Ast → Prop where
  | head {x xs q} : AStmt.Asks x q → StmtsAsk (x :: xs) q
  | tail {x xs q} : StmtsAsk xs q → StmtsAsk (x :: xs) q
end

/-- A query of a plan. -/
def APlan.Asks (p : APlan) (q : Ast) : Prop := p.context = some q ∨ ∃ b, p.body = some b ∧ StmtsAsk b q

/-- The annotations of an event are literals and lists. -/
def Ast.PlainAnnots (a : Ast) : Prop := ∀ f ts as, a = .lit f ts as → ∀ x ∈ as, (∃ g us bs, x = .lit g us bs) ∨ ∃ us, x = .list us

/-- What can go wrong when the program of a valid agent is built. -/
structure Buildable (a : AAgent) : Prop where
  annots : ∀ p ∈ a.plans, p.event.head.PlainAnnots
  plans : ∀ p ∈ a.plans, ∀ q, p.Asks q → q.NoDecompose
  rules : ∀ r ∈ a.rules, r.consequence.NoDecompose

end Verif
