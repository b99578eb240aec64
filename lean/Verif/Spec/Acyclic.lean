import Verif.Spec.Val

/-!
# Specification: scopes without circular bindings
-/

namespace Verif

/-- No unary or binary expression occurs (outside annotations). -/
def Term.NoExpr : Term → Prop := Term.Every fun t =>
  match t with
  | .un _ _ | .bin _ _ _ => False
  | _ => True

mutual
/-- The variable `y` occurs (outside annotations). -/
def Term.HasVar (y : VarId) : Term → Prop
  | .var x => x = y
  | .lit _ args _ => Term.HasVarL y args
  | .tup xs => Term.HasVarL y xs
  | .cons h t => Term.HasVar y h ∨ Term.HasVar y t
  | .un _ t => Term.HasVar y t
  | .bin _ l r => Term.HasVar y l ∨ Term.HasVar y r
  | _ => False
def Term.HasVarL (y : VarId) : List Term → Prop
  | [] => False
  | t :: ts => Term.HasVar y t ∨ Term.HasVarL y ts
end

/-- The binding of `x` mentions `y`. -/
def Dep (sc : Scope) (y x : VarId) : Prop := ∃ t, sc x = some t ∧ t.HasVar y

/-- There is no infinite chain of variables in which each binding mentions the next:
replacing bound variables by their values terminates. -/
abbrev Acyclic (sc : Scope) : Prop := WellFounded (Dep sc)

/-- No bound term contains an expression. -/
def ScopeNoExpr (sc : Scope) : Prop := ∀ x t, sc x = some t → t.NoExpr

end Verif
