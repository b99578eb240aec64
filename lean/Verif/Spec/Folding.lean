import Verif.Model.Fold

/-! # Specification: replacing constant expressions by their values -/

namespace Verif

/-- Two computations with the same result, value or exception; or neither ends. -/
def SameResult {α : Type} (f g : Nat → Ev α) : Prop := ∀ r, r ≠ .oof → ((∃ n, f n = r) ↔ ∃ n, g n = r)

/-- Booleans, numbers and strings. -/
def Term.isValue : Term → Bool
  | .bool _ | .num _ | .str _ => true
  | _ => false

mutual
/-- The second term is the first, where some operators with constant operands have been
replaced by their values. -/
inductive Reduces [Arith] : Term → Term → Prop where
  | refl (t) : Reduces t t
  | lit {f ts us ts' us'} : ReducesL ts ts' → ReducesL us us' → Reduces (.lit f ts us) (.lit f ts' us')
  | tup {ts ts'} : ReducesL ts ts' → Reduces (.tup ts) (.tup ts')
  | cons {h t h' t'} : Reduces h h' → Reduces t t' → Reduces (.cons h t) (.cons h' t')
  | un {op t t'} : Reduces t t' → Reduces (.un op t) (.un op t')
  | bin {op l r l' r'} : Reduces l l' → Reduces r r' → Reduces (.bin op l r) (.bin op l' r')
  /-- Sign or negation of a value. -/
  | unValue {op t v w} : Reduces t v → unFunc op v = .ok w → Reduces (.un op t) w
  /-- An arithmetic or boolean operation on values. -/
  | binValue {op l r a b w} : Reduces l a → Reduces r b → op.compOp = false → binFunc op a b = .ok w → Reduces (.bin op l r) w
  /-- A comparison of values. -/
  | compValue {op l r a b n x} : Reduces l a → Reduces r b → a.isValue = true → b.isValue = true → op.compOp = true →
      pyCompare n op a b = .ok x → Reduces (.bin op l r) (.bool x)
inductive ReducesL [Arith] : List Term → List Term → Prop where
  | nil : ReducesL [] []
  | cons {t t' ts ts'} : Reduces t t' → ReducesL ts ts' → ReducesL (t :: ts) (t' :: ts')
end

mutual
/-- The variables of a term, each as often as it occurs, from left to right. -/
def Ast.names : Ast → List (List Char)
  | .const _ => []
  | .var x => [x]
  | .lit _ ts as => Ast.namesL ts ++ Ast.namesL as
  | .list ts => Ast.namesL ts
  | .linked h t => h.names ++ t.names
  | .un _ a => a.names
  | .bin _ l r => l.names ++ r.names
def Ast.namesL : List Ast → List (List Char)
  | [] => []
  | a :: as => a.names ++ Ast.namesL as
end

end Verif
