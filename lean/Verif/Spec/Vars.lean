import Verif.Model.Query

/-!
# Specification: the variables of terms, queries and rules
-/

namespace Verif

mutual
/-- The variables of a term, annotations included. -/
def Term.vars : Term → List VarId
  | .var x => [x]
  | .lit _ args annots => Term.varsL args ++ Term.varsL annots
  | .tup xs => Term.varsL xs
  | .cons h t => Term.vars h ++ Term.vars t
  | .un _ t => Term.vars t
  | .bin _ l r => Term.vars l ++ Term.vars r
  | _ => []
/-- The variables of a list of terms. -/
def Term.varsL : List Term → List VarId
  | [] => []
  | t :: ts => Term.vars t ++ Term.varsL ts
end

/-- The variables of a query. -/
def Query.vars {A : Type} : Query A → List VarId
  | .tru | .fls => []
  | .act _ t => t.vars
  | .term t => t.vars
  | .and l r => l.vars ++ r.vars
  | .or l r => l.vars ++ r.vars
  | .not q => q.vars
  | .unify l r => l.vars ++ r.vars

/-- The variables of a rule. -/
def Rule.vars {A : Type} (r : Rule A) : List VarId := r.head.vars ++ r.query.vars

end Verif
