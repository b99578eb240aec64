import Verif.Spec.Logic
import Verif.Model.Symbolic

/-! # What a unification that the optimiser has taken apart should mean -/

namespace Verif

mutual
/-- No annotations at any literal and no booleans, looking into literals and lists. -/
def Ast.Bare : Ast → Prop
  | .const (.bool _) => False
  | .lit _ ts as => as = [] ∧ Ast.BareL ts
  | .list ts => Ast.BareL ts
  | _ => True
def Ast.BareL : List Ast → Prop
  | [] => True
  | t :: ts => Ast.Bare t ∧ Ast.BareL ts
end

/-- Annotations only outside, at the node itself. -/
def Ast.TopBare : Ast → Prop
  | .lit _ ts _ => Ast.BareL ts
  | a => a.Bare

/-- Under `σ` the unification `a = b` is true, annotations included. -/
def UnifyTrue [Arith] (vars : List Char → Term) (σ : Asg) (a b : Ast) : Prop :=
  Agree σ (a.build vars) (b.build vars) ∧
  ((a.build vars).isLiteral = true → (b.build vars).isLiteral = true → AnnotsMatch σ (a.build vars).annots (b.build vars).annots)

/-- The variables of the program as they are when the terms are built: names are variables or
wildcards, and the names that the optimiser invents are variables of their own, with the
numbers from `base` on. -/
structure NameOK (vars : List Char → Term) (base : Nat) : Prop where
  shape : ∀ x, (∃ n, vars x = .var n) ∨ vars x = .wild
  inf : ∀ k, vars (infName k) = .var (base + k)

/-- `σ` and `τ` are the same except on the variables from `m` to `n`. -/
def EqOutside (m n : Nat) (σ τ : Asg) : Prop := ∀ x, x < m ∨ n ≤ x → τ x = σ x

/-- Queries of unifications, as they are built (`runtime.py` 94-149, see `makeQuery`). -/
def Ast.unifyQuery {A : Type} (vars : List Char → Term) : Ast → Query A
  | .bin .and l r => .and (Ast.unifyQuery vars l) (Ast.unifyQuery vars r)
  | .bin .or l r => .or (Ast.unifyQuery vars l) (Ast.unifyQuery vars r)
  | .bin .unify l r => .unify (l.build vars) (r.build vars)
  | .un .not a => .not (Ast.unifyQuery vars a)
  | .const (.bool true) => .tru
  | .const (.bool false) => .fls
  | a => .term (a.build vars)

end Verif
