import Verif.Spec.Grammar
import Verif.Model.Script

/-!
# Specification: the grammar of plan bodies, plans and agents
-/

namespace Verif

/-- The token before a formula of a type; there is none for terms. -/
def FType.kind : FType → Option Kind
  | .term => none | .test => some .question | .achieve => some .exclam | .achieveLater => some .doubleExclam
  | .add => some .opPlus | .remove => some .opMinus | .replace => some .minusPlus

/-- The token of a trigger. -/
def Trigger.kind : Trigger → Kind
  | .addition => .opPlus | .removal => .opMinus

section
variable [Unicode] [Floats]

/-- A functor with optional arguments and annotations, not in parentheses. -/
inductive LitPhrase : List Tok → Ast → Prop where
  | mk {t ts us args annots} : t.kind = .functor → OptArgs .parenOpen .parenClose ts args →
      OptArgs .bracketOpen .bracketClose us annots → LitPhrase (t :: (ts ++ us)) (.lit t.lexeme args annots)

/-- `( term )` -/
inductive CondPhrase : List Tok → Ast → Prop where
  | mk {o c ts a} : o.kind = .parenOpen → Phrase 0 ts a → c.kind = .parenClose → CondPhrase (o :: (ts ++ [c])) a

mutual

/-- Statements of plan bodies. -/
inductive StmtPhrase : List Tok → AStmt → Prop where
  /-- A term that does not begin with a sign. -/
  | term {t ts a} : Phrase 0 (t :: ts) a → t.kind ≠ .opPlus → t.kind ≠ .opMinus → StmtPhrase (t :: ts) (.formula .term a)
  /-- `?`, `!`, `!!`, `+`, `-` or `-+`, and a term. -/
  | formula {t ts a ty} : ty.kind = some t.kind → Phrase 0 ts a → StmtPhrase (t :: ts) (.formula ty a)
  | while_ {t ts us a b} : t.kind = .tokWhile → CondPhrase ts a → BlockPhrase us b → StmtPhrase (t :: (ts ++ us)) (.while_ a b)
  | for_ {t ts us a b} : t.kind = .tokFor → CondPhrase ts a → BlockPhrase us b → StmtPhrase (t :: (ts ++ us)) (.for_ a b)
  | if_ {t ts us a b} : t.kind = .tokIf → CondPhrase ts a → BlockPhrase us b → StmtPhrase (t :: (ts ++ us)) (.if_ a b)
  | ifElse {t ts us e vs a b c} : t.kind = .tokIf → CondPhrase ts a → BlockPhrase us b → e.kind = .tokElse → BlockPhrase vs c →
      StmtPhrase (t :: (ts ++ us ++ e :: vs)) (.ifElse a b c)

/-- `{ statements }` -/
inductive BlockPhrase : List Tok → List AStmt → Prop where
  | mk {o c ts b} : o.kind = .braceOpen → StmtsPhrase ts b → c.kind = .braceClose → BlockPhrase (o :: (ts ++ [c])) b

/-- Statements in braces: with semicolons between them, which can be left out after a block,
and perhaps one at the end. -/
inductive StmtsPhrase : List Tok → List AStmt → Prop where
  | nil : StmtsPhrase [] []
  | last {ts s} : StmtPhrase ts s → StmtsPhrase ts [s]
  | semi {ts s t us b} : StmtPhrase ts s → t.kind = .semicolon → StmtsPhrase us b → StmtsPhrase (ts ++ t :: us) (s :: b)
  | block {ts s us b} : StmtPhrase ts s → s.isFormula = false → StmtsPhrase us b → StmtsPhrase (ts ++ us) (s :: b)

end

/-- The body of a plan: at least one statement, no semicolon at the end. -/
inductive PlanBodyPhrase : List Tok → List AStmt → Prop where
  | last {ts s} : StmtPhrase ts s → PlanBodyPhrase ts [s]
  | semi {ts s t us b} : StmtPhrase ts s → t.kind = .semicolon → PlanBodyPhrase us b → PlanBodyPhrase (ts ++ t :: us) (s :: b)
  | block {ts s us b} : StmtPhrase ts s → s.isFormula = false → PlanBodyPhrase us b → PlanBodyPhrase (ts ++ us) (s :: b)

/-- The event of a plan: `+` or `-`, perhaps `!` or `?`, and a literal. -/
inductive EventPhrase : List Tok → AEvent → Prop where
  | belief {tr t ts a} : t.kind = Trigger.kind tr → LitPhrase ts a → EventPhrase (t :: ts) ⟨tr, .belief, a⟩
  | achievement {tr t u ts a} : t.kind = Trigger.kind tr → u.kind = .exclam → LitPhrase ts a → EventPhrase (t :: u :: ts) ⟨tr, .achievement, a⟩
  | test {tr t u ts a} : t.kind = Trigger.kind tr → u.kind = .question → LitPhrase ts a → EventPhrase (t :: u :: ts) ⟨tr, .test, a⟩

/-- Nothing, or a token of the kind with what follows it. -/
inductive OptPhrase {α : Type} (k : Kind) (P : List Tok → α → Prop) : List Tok → Option α → Prop where
  | none : OptPhrase k P [] none
  | some {t ts a} : t.kind = k → P ts a → OptPhrase k P (t :: ts) (some a)

/-- `@label event : context <- body` -/
inductive PlanPhrase : List Tok → APlan → Prop where
  | mk {ts us vs ws l e c b} : OptPhrase .at_ LitPhrase ts l → EventPhrase us e → OptPhrase .colon (Phrase 0) vs c →
      OptPhrase .arrow PlanBodyPhrase ws b → PlanPhrase (ts ++ us ++ vs ++ ws) ⟨l, e, c, b⟩

/-- Beliefs, rules, initial goals and plans, without the full stop. -/
inductive ClausePhrase : List Tok → Clause → Prop where
  | belief {ts a} : LitPhrase ts a → ClausePhrase ts (.belief a)
  | rule {ts t us a c} : LitPhrase ts a → t.kind = .define → Phrase 0 us c → ClausePhrase (ts ++ t :: us) (.rule ⟨a, c⟩)
  | goal {t ts a} : t.kind = .exclam → LitPhrase ts a → ClausePhrase (t :: ts) (.goal a)
  | plan {ts p} : PlanPhrase ts p → ClausePhrase ts (.plan p)

/-- The text of a file, with the included files: `Script files included file ts cs`.
Directives other than `include` have no meaning. -/
inductive Script (files : List Char → Option (List Tok)) : List (List Char) → List Char → List Tok → List Clause → Prop where
  | nil {inc file} : Script files inc file [] []
  | clause {inc file ts c t us cs} : ClausePhrase ts c → t.kind = .fullstop → Script files inc file us cs →
      Script files inc file (ts ++ t :: us) (c :: cs)
  | incl {inc file o k p t q c us name toks cs cs'} : o.kind = .braceOpen → k.kind = .incl → p.kind = .parenOpen →
      t.kind = .string → parseString t.lexeme = .ok name → q.kind = .parenClose → c.kind = .braceClose →
      joinPath (dirname file) (name.map Char.ofNat) ∉ inc → files (joinPath (dirname file) (name.map Char.ofNat)) = some toks →
      Script files (normpath (joinPath (dirname file) (name.map Char.ofNat)) :: inc)
        (joinPath (dirname file) (name.map Char.ofNat)) toks cs →
      Script files inc file us cs' → Script files inc file (o :: k :: p :: t :: q :: c :: us) (cs ++ cs')
  | directive {inc file o k ts a c us o' k' c' vs cs cs'} : o.kind = .braceOpen → k.kind = .begin → LitPhrase ts a →
      c.kind = .braceClose → Script files inc file us cs → o'.kind = .braceOpen → k'.kind = .end_ → c'.kind = .braceClose →
      Script files inc file vs cs' → Script files inc file (o :: k :: (ts ++ c :: (us ++ o' :: k' :: c' :: vs))) (cs ++ cs')

end

/-- The agent with these clauses: the order of rules, beliefs, goals and plans among
themselves is that of the text. -/
def agentOf (cs : List Clause) : AAgent where
  rules := cs.filterMap fun | .rule r => some r | _ => none
  beliefs := cs.filterMap fun | .belief b => some b | _ => none
  goals := cs.filterMap fun | .goal g => some g | _ => none
  plans := cs.filterMap fun | .plan p => some p | _ => none

/-! ## Valid agents -/

/-- A term is part of a term (or the term itself). -/
inductive Ast.Part (b : Ast) : Ast → Prop where
  | self : Ast.Part b b
  | arg {f ts as x} : x ∈ ts → Ast.Part b x → Ast.Part b (.lit f ts as)
  | annot {f ts as x} : x ∈ as → Ast.Part b x → Ast.Part b (.lit f ts as)
  | item {ts x} : x ∈ ts → Ast.Part b x → Ast.Part b (.list ts)
  | head {h t} : Ast.Part b h → Ast.Part b (.linked h t)
  | tail {h t} : Ast.Part b t → Ast.Part b (.linked h t)
  | operand {op x} : Ast.Part b x → Ast.Part b (.un op x)
  | left {op l r} : Ast.Part b l → Ast.Part b (.bin op l r)
  | right {op l r} : Ast.Part b r → Ast.Part b (.bin op l r)

/-- Operators. -/
def Ast.IsOp : Ast → Prop
  | .un _ _ => True
  | .bin _ _ _ => True
  | _ => False

/-- Lists written with a bar. -/
def Ast.IsLinked : Ast → Prop
  | .linked _ _ => True
  | _ => False

/-- There are no operators in a term. -/
def Ast.NoOps (a : Ast) : Prop := ∀ b : Ast, b.Part a → ¬b.IsOp

/-- There are no linked lists in a term. -/
def Ast.NoLinked (a : Ast) : Prop := ∀ b : Ast, b.Part a → ¬b.IsLinked

/-- Related, one by one. -/
inductive Each {α : Type} (R : α → α → Prop) : List α → List α → Prop where
  | nil : Each R [] []
  | cons {x y xs ys} : R x y → Each R xs ys → Each R (x :: xs) (y :: ys)

/-- Related, if present. -/
inductive EachOpt {α : Type} (R : α → α → Prop) : Option α → Option α → Prop where
  | none : EachOpt R none none
  | some {x y} : R x y → EachOpt R (some x) (some y)

section
variable [Arith]

/-- Folding the constants of a term has this result, without errors.  (For what it does to a
term see C40.) -/
def FoldsTo (v : Visitor) (a b : Ast) : Prop := fold v a 0 = .ok (some b) 0

mutual

/-- Folding the constants of a statement.  The formulas of `?`, `!`, … must be literals or
variables. -/
inductive StmtFolds : AStmt → AStmt → Prop where
  | term {a b} : FoldsTo .logical a b → StmtFolds (.formula .term a) (.formula .term b)
  | lit {ty f ts as b} : ty ≠ .term → FoldsTo .term (.lit f ts as) b → StmtFolds (.formula ty (.lit f ts as)) (.formula ty b)
  | var {ty x} : ty ≠ .term → StmtFolds (.formula ty (.var x)) (.formula ty (.var x))
  | while_ {a a' b b'} : FoldsTo .logical a a' → StmtsFold b b' → StmtFolds (.while_ a b) (.while_ a' b')
  | for_ {a a' b b'} : FoldsTo .logical a a' → StmtsFold b b' → StmtFolds (.for_ a b) (.for_ a' b')
  | if_ {a a' b b'} : FoldsTo .logical a a' → StmtsFold b b' → StmtFolds (.if_ a b) (.if_ a' b')
  | ifElse {a a' b b' c c'} : FoldsTo .logical a a' → StmtsFold b b' → StmtsFold c c' → StmtFolds (.ifElse a b c) (.ifElse a' b' c')

inductive StmtsFold : List AStmt → List AStmt → Prop where
  | nil : StmtsFold [] []
  | cons {x y xs ys} : StmtFolds x y → StmtsFold xs ys → StmtsFold (x :: xs) (y :: ys)

end

/-- Folding the constants of a rule. -/
structure RuleFolds (r r' : ARule) : Prop where
  head : FoldsTo .term r.head r'.head
  consequence : FoldsTo .logical r.consequence r'.consequence

/-- Folding the constants of a plan. -/
structure PlanFolds (p p' : APlan) : Prop where
  label : EachOpt (FoldsTo .term) p.label p'.label
  trigger : p'.event.trigger = p.event.trigger
  goalType : p'.event.goalType = p.event.goalType
  head : FoldsTo .term p.event.head p'.event.head
  context : EachOpt (FoldsTo .logical) p.context p'.context
  body : EachOpt StmtsFold p.body p'.body

/-- An agent without errors, and the agent with its constants folded: beliefs, the heads of
rules and the events of plans contain no operators then. -/
structure ValidAgent (a b : AAgent) : Prop where
  rules : Each RuleFolds a.rules b.rules
  beliefs : Each (FoldsTo .const) a.beliefs b.beliefs
  goals : Each (FoldsTo .term) a.goals b.goals
  plans : Each PlanFolds a.plans b.plans
  plainBeliefs : ∀ x ∈ b.beliefs, x.NoOps ∧ x.NoLinked
  plainHeads : ∀ r ∈ b.rules, r.head.NoOps
  plainEvents : ∀ p ∈ b.plans, p.event.head.NoOps

end

end Verif
