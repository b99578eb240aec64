import Verif.Model.Text
import Verif.Spec.Printed
import Verif.Spec.Build

/-! # Specification: plans that are asked for and told -/

namespace Verif

mutual
/-- Other names for the variables. -/
def Ast.rename (ρ : List Char → List Char) : Ast → Ast
  | .const v => .const v
  | .var x => .var (ρ x)
  | .lit f ts as => .lit f (Ast.renames ρ ts) (Ast.renames ρ as)
  | .list ts => .list (Ast.renames ρ ts)
  | .linked h t => .linked (h.rename ρ) (t.rename ρ)
  | .un op a => .un op (a.rename ρ)
  | .bin op l r => .bin op (l.rename ρ) (r.rename ρ)
def Ast.renames (ρ : List Char → List Char) : List Ast → List Ast
  | [] => []
  | a :: as => a.rename ρ :: Ast.renames ρ as
end

mutual
/-- The terms of a list in place of the variables, one for every occurrence of a variable, from
left to right.  The wildcard remains.  The rest of the list is returned; `none` if the list is
too short. -/
def Ast.fill : Ast → List Ast → Option (Ast × List Ast)
  | .const v, as => some (.const v, as)
  | .var x, as => if x = ['_'] then some (.var x, as) else match as with | [] => none | a :: as => some (a, as)
  | .lit f ts ns, as => (Ast.fills ts as).bind fun (ts, as) => (Ast.fills ns as).bind fun (ns, as) => some (.lit f ts ns, as)
  | .list ts, as => (Ast.fills ts as).bind fun (ts, as) => some (.list ts, as)
  | .linked h t, as => (Ast.fill h as).bind fun (h, as) => (Ast.fill t as).bind fun (t, as) => some (.linked h t, as)
  | .un op a, as => (Ast.fill a as).bind fun (a, as) => some (.un op a, as)
  | .bin op l r, as => (Ast.fill l as).bind fun (l, as) => (Ast.fill r as).bind fun (r, as) => some (.bin op l r, as)
def Ast.fills : List Ast → List Ast → Option (List Ast × List Ast)
  | [], as => some ([], as)
  | t :: ts, as => (Ast.fill t as).bind fun (t, as) => (Ast.fills ts as).bind fun (ts, as) => some (t :: ts, as)
end

mutual
/-- There are no lone surrogates in the strings of the term. -/
def Ast.Chars : Ast → Prop
  | .const (.str s) => ∀ c ∈ s, c.isValidChar
  | .const _ => True
  | .var _ => True
  | .lit _ ts as => Ast.CharsL ts ∧ Ast.CharsL as
  | .list ts => Ast.CharsL ts
  | .linked h t => h.Chars ∧ t.Chars
  | .un _ a => a.Chars
  | .bin _ l r => l.Chars ∧ r.Chars
def Ast.CharsL : List Ast → Prop
  | [] => True
  | a :: as => a.Chars ∧ Ast.CharsL as
end

/-- The texts of variables are as described: `_X_`, three hexadecimal digits, `_`, and
hexadecimal digits; no two variables have the same. -/
structure Wording.Good (W : Wording) : Prop where
  digest : ∀ v, (W.digest v).length = 3 ∧ ∀ c ∈ W.digest v, isHex c = true
  addr : ∀ v, W.addr v ≠ [] ∧ ∀ c ∈ W.addr v, isHex c = true
  inj : ∀ v v', W.addr v = W.addr v' → v = v'

/-- The text of the variable with this name in the source, if `vars` are the variables. -/
def Wording.name (W : Wording) (vars : List Char → Term) (x : List Char) : List Char :=
  match vars x with
  | .var v => W.var v
  | _ => ['_']

/-- Not a constant and not a list. -/
def Ast.IsObject : Ast → Prop
  | .const _ => False
  | .list _ => False
  | _ => True

/-- A literal, a variable or a comparison. -/
def Ast.IsSimple : Ast → Prop
  | .lit _ _ _ => True
  | .var _ => True
  | .bin op _ _ => op.compOp = true
  | _ => False

/-- Queries with a text that can be read: no actions and no constants, except that `not` may
be used with actions, but not with other connectives, and without constants and lists at both
sides of `=`. -/
def Ast.Askable (acts : Lookup) : Ast → Prop
  | .lit f ts _ => acts (String.ofList f) ts.length = none
  | .var _ => True
  | .bin .and l r => l.Askable acts ∧ r.Askable acts
  | .bin .or l r => l.Askable acts ∧ r.Askable acts
  | .bin .unify l r => l.IsObject ∧ r.IsObject
  | .bin op _ _ => op.compOp = true
  | .un .not a => a.IsSimple
  | _ => False

/-- The terms of a plan are those of a source text. -/
def APlan.FromSource [Floats] (p : APlan) : Prop := p.Formed ∧ p.AllTerms fun a => a.Source ∧ a.Finite

mutual
/-- The variables of a term, from left to right, with repetitions and without the wildcard. -/
def Ast.varSeq : Ast → List (List Char)
  | .const _ => []
  | .var x => if x = ['_'] then [] else [x]
  | .lit _ ts as => Ast.varSeqs ts ++ Ast.varSeqs as
  | .list ts => Ast.varSeqs ts
  | .linked h t => h.varSeq ++ t.varSeq
  | .un _ a => a.varSeq
  | .bin _ l r => l.varSeq ++ r.varSeq
def Ast.varSeqs : List Ast → List (List Char)
  | [] => []
  | a :: as => a.varSeq ++ Ast.varSeqs as
end

/-- The context as it arrives: `true` if there was none, otherwise with the internal names of
the variables. -/
def toldContext (ρ : List Char → List Char) : Option Ast → Ast
  | none => .const (.bool true)
  | some c => c.rename ρ

/-- The head as it arrives: if there are arguments, every variable is replaced by the next of
the arguments; otherwise the variables (of the annotations) have their internal names. -/
def toldHeadTerm (ρ : List Char → List Char) (head : Ast) : Option Ast :=
  if head.terms.isEmpty then some (head.rename ρ) else (head.fill (planArgs head)).map Prod.fst

/-- The plan as it arrives; `none` if it cannot be sent. -/
def APlan.told (ρ : List Char → List Char) (p : APlan) : Option APlan :=
  (toldHeadTerm ρ p.event.head).map fun head =>
    ⟨p.label, ⟨p.event.trigger, p.event.goalType, head⟩, some (toldContext ρ p.context), p.body⟩

/-- Plans with a text that can be made and read: terms of a source text, no lone surrogates in
the strings of the head and the context, no text like that of a variable in the head, no
context or `true` or one that can be read, and a body. -/
structure APlan.Sendable [Floats] (acts : Lookup) (p : APlan) : Prop where
  source : p.FromSource
  headChars : p.event.head.Chars
  headText : ¬"_X_".toList <:+: p.event.head.print
  context : ∀ c, p.context = some c → c = .const (.bool true) ∨ (c.Askable acts ∧ c.Chars)
  body : p.body ≠ none
  branches : ∀ b ∈ p.body, AStmt.BranchesL b

section
variable [Unicode] [Floats]

/-- What the receiver of a text makes of it: there are no illegal characters, and this is the
outcome. -/
def Told (acts : Lookup) (label : APlan → String) (u : List Char) (r : Ev PlanSrc) : Prop :=
  ∃ evs, tokenize 1 (fileLines u) = some evs ∧ (∀ e ∈ evs, ∃ t, e.2 = .tok t) ∧
    ∃ N, ∀ n, N ≤ n → toldPlan acts label n (toksOf (evs.map Prod.snd)) = r

end

end Verif
