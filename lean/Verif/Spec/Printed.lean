import Verif.Spec.Source
import Verif.Spec.Script

/-! # Specification: programs that are printed and read again -/

namespace Verif

mutual
/-- The statement with `f` applied to its terms, and without empty `else` branches. -/
def AStmt.read (f : Ast → Ast) : AStmt → AStmt
  | .formula ty t => .formula ty (f t)
  | .while_ c b => .while_ (f c) (AStmt.reads f b)
  | .for_ g b => .for_ (f g) (AStmt.reads f b)
  | .if_ c t => .if_ (f c) (AStmt.reads f t)
  | .ifElse c t [] => .if_ (f c) (AStmt.reads f t)
  | .ifElse c t (e :: es) => .ifElse (f c) (AStmt.reads f t) (AStmt.read f e :: AStmt.reads f es)
def AStmt.reads (f : Ast → Ast) : List AStmt → List AStmt
  | [] => []
  | s :: ss => AStmt.read f s :: AStmt.reads f ss
end

/-- The same for plans. -/
def APlan.read (f : Ast → Ast) (p : APlan) : APlan :=
  ⟨p.label.map f, ⟨p.event.trigger, p.event.goalType, f p.event.head⟩, p.context.map f, p.body.map (AStmt.reads f)⟩

/-- The same for rules. -/
def ARule.read (f : Ast → Ast) (r : ARule) : ARule := ⟨f r.head, f r.consequence⟩

/-- The same for agents. -/
def AAgent.read (f : Ast → Ast) (a : AAgent) : AAgent :=
  ⟨a.rules.map (ARule.read f), a.beliefs.map f, a.goals.map f, a.plans.map (APlan.read f)⟩

/-- The agent without empty `else` branches. -/
def AAgent.tidy (a : AAgent) : AAgent := a.read id

mutual
/-- All terms of the statement satisfy `P`. -/
def AStmt.AllTerms (P : Ast → Prop) : AStmt → Prop
  | .formula _ t => P t
  | .while_ c b => P c ∧ AStmt.AllTermsL P b
  | .for_ g b => P g ∧ AStmt.AllTermsL P b
  | .if_ c t => P c ∧ AStmt.AllTermsL P t
  | .ifElse c t e => P c ∧ AStmt.AllTermsL P t ∧ AStmt.AllTermsL P e
def AStmt.AllTermsL (P : Ast → Prop) : List AStmt → Prop
  | [] => True
  | s :: ss => AStmt.AllTerms P s ∧ AStmt.AllTermsL P ss
end

/-- All terms of the plan satisfy `P`. -/
structure APlan.AllTerms (P : Ast → Prop) (p : APlan) : Prop where
  label : ∀ l ∈ p.label, P l
  head : P p.event.head
  context : ∀ c ∈ p.context, P c
  body : ∀ b ∈ p.body, AStmt.AllTermsL P b

/-- All terms of the agent satisfy `P`. -/
structure AAgent.AllTerms (P : Ast → Prop) (a : AAgent) : Prop where
  rules : ∀ r ∈ a.rules, P r.head ∧ P r.consequence
  beliefs : ∀ b ∈ a.beliefs, P b
  goals : ∀ g ∈ a.goals, P g
  plans : ∀ p ∈ a.plans, p.AllTerms P

mutual
/-- No branch is an empty `else`. -/
def AStmt.Branches : AStmt → Prop
  | .formula _ _ => True
  | .while_ _ b => AStmt.BranchesL b
  | .for_ _ b => AStmt.BranchesL b
  | .if_ _ t => AStmt.BranchesL t
  | .ifElse _ t e => AStmt.BranchesL t ∧ AStmt.BranchesL e ∧ e ≠ []
def AStmt.BranchesL : List AStmt → Prop
  | [] => True
  | s :: ss => AStmt.Branches s ∧ AStmt.BranchesL ss
end

/-- No branch in the agent is an empty `else`. -/
def AAgent.Branches (a : AAgent) : Prop := ∀ p ∈ a.plans, ∀ b ∈ p.body, AStmt.BranchesL b

/-- A functor with arguments and annotations. -/
def Ast.IsLit (a : Ast) : Prop := ∃ f ts as, a = .lit f ts as

/-- Heads, beliefs, goals and labels are literals, events are of the three kinds that can be
written, and bodies are not empty. -/
structure APlan.Formed (p : APlan) : Prop where
  label : ∀ l ∈ p.label, l.IsLit
  head : p.event.head.IsLit
  goalType : p.event.goalType = .belief ∨ p.event.goalType = .achievement ∨ p.event.goalType = .test
  body : p.body ≠ some []

structure AAgent.Formed (a : AAgent) : Prop where
  rules : ∀ r ∈ a.rules, r.head.IsLit
  beliefs : ∀ b ∈ a.beliefs, b.IsLit
  goals : ∀ g ∈ a.goals, g.IsLit
  plans : ∀ p ∈ a.plans, p.Formed

section
variable [Unicode] [Floats] [Arith]

/-- The tokens of some text. -/
def FromText (ts : List Tok) : Prop := ∃ l lines evs, tokenize l lines = some evs ∧ ts = toksOf (evs.map Prod.snd)

/-- A text is accepted as a file, without illegal characters and without errors, and this is
the agent, whatever other files there are. -/
def ReadsAs (u : List Char) (b : AAgent) : Prop :=
  ∃ evs, tokenize 1 (fileLines u) = some evs ∧ (∀ e ∈ evs, ∃ t, e.2 = .tok t) ∧
    ∀ files : List Char → Option (List Tok), (∀ p ts, files p = some ts → FromText ts) → ∀ file, ∃ N, ∀ n, N ≤ n →
      parseFile files n file (toksOf (evs.map Prod.snd)) = .ok (some b) 0

end

end Verif
