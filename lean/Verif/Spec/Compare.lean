import Verif.Model.Order
import Verif.Model.Lists

/-!
# Comparison and lists
-/

namespace Verif

/-- Python answers `r` (a truth value or an exception) to `a op b`. -/
def Compares (op : BinOp) (a b : Term) (r : Ev Bool) : Prop := ∃ n, pyCompare n op a b = r ∧ r ≠ .oof

/-- The list is made of these items: `[x1, …, xk]`, or `[x1, …, xj|t]` where `t` is a list itself. -/
inductive ListOf : Term → List Term → Prop where
  | tup (xs : List Term) : ListOf (.tup xs) xs
  | cons {h t : Term} {xs : List Term} : ListOf t xs → ListOf (.cons h t) (h :: xs)

mutual
/-- No literal carries annotations. -/
def Term.Bare : Term → Prop
  | .lit _ args annots => annots = [] ∧ Term.BareL args
  | .tup xs => Term.BareL xs
  | .cons h t => Term.Bare h ∧ Term.Bare t
  | .un _ t => Term.Bare t
  | .bin _ l r => Term.Bare l ∧ Term.Bare r
  | _ => True
def Term.BareL : List Term → Prop
  | [] => True
  | t :: ts => Term.Bare t ∧ Term.BareL ts
end

end Verif
