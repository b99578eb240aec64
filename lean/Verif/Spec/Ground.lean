import Verif.Model.Eval

/-!
# Specification: ground terms and renamed copies
-/

namespace Verif

mutual
/-- `p` holds at every node of the term, annotations included. -/
def Term.All (p : Term → Prop) : Term → Prop
  | .lit f args annots => p (.lit f args annots) ∧ Term.AllL p args ∧ Term.AllL p annots
  | .tup xs => p (.tup xs) ∧ Term.AllL p xs
  | .cons h t => p (.cons h t) ∧ Term.All p h ∧ Term.All p t
  | .un op t => p (.un op t) ∧ Term.All p t
  | .bin op l r => p (.bin op l r) ∧ Term.All p l ∧ Term.All p r
  | t => p t
def Term.AllL (p : Term → Prop) : List Term → Prop
  | [] => True
  | t :: ts => Term.All p t ∧ Term.AllL p ts
end

/-- No variable, wildcard or expression anywhere, annotations included. -/
def Term.Ground : Term → Prop := Term.All fun t =>
  match t with
  | .var _ | .wild | .un _ _ | .bin _ _ _ => False
  | _ => True

/-- No expression anywhere, annotations included. -/
def Term.ExprFree : Term → Prop := Term.All fun t =>
  match t with
  | .un _ _ | .bin _ _ _ => False
  | _ => True

/-- All variables of the term (annotations included) satisfy `p`. -/
def Term.VarsIn (p : VarId → Prop) : Term → Prop := Term.All fun t =>
  match t with
  | .var x => p x
  | _ => True

mutual
/-- `Copy sc R t t'`: `t'` is `t` with bound variables replaced by (copies of) their
values, expressions by their results, and each unbound variable `x` by some `y` with
`R x y`.  (The annotations of a literal are collected in a set again.) -/
inductive Copy [Arith] (sc : Scope) (R : VarId → VarId → Prop) : Term → Term → Prop
  | bool (b) : Copy sc R (.bool b) (.bool b)
  | num (q) : Copy sc R (.num q) (.num q)
  | str (s) : Copy sc R (.str s) (.str s)
  | wild : Copy sc R .wild .wild
  | free {x y} : sc x = none → R x y → Copy sc R (.var x) (.var y)
  | bound {x u t'} : sc x = some u → Copy sc R u t' → Copy sc R (.var x) t'
  | un {op t n v t'} : evaluate n sc (.un op t) = .ok v → Copy sc R v t' → Copy sc R (.un op t) t'
  | bin {op l r n v t'} : evaluate n sc (.bin op l r) = .ok v → Copy sc R v t' → Copy sc R (.bin op l r) t'
  | lit {f as as' xs xs'} : CopyL sc R as as' → CopyL sc R xs xs' →
      Copy sc R (.lit f as xs) (.lit f as' (pySet xs'))
  | tup {xs xs'} : CopyL sc R xs xs' → Copy sc R (.tup xs) (.tup xs')
  | cons {h h' t t'} : Copy sc R h h' → Copy sc R t t' → Copy sc R (.cons h t) (.cons h' t')
/-- Item by item. -/
inductive CopyL [Arith] (sc : Scope) (R : VarId → VarId → Prop) : List Term → List Term → Prop
  | nil : CopyL sc R [] []
  | cons {t t' ts ts'} : Copy sc R t t' → CopyL sc R ts ts' → CopyL sc R (t :: ts) (t' :: ts')
end

end Verif
