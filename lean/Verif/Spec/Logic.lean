import Verif.Model.Query
import Verif.Spec.Annot

/-!
# Specification: logical meaning of queries

The least model of a belief base and its rules, as an inductive predicate over values.
-/

namespace Verif

section
variable {W A G : Type} [Arith] [QWorld W A G]

/-- `Holds w σ q`: under the assignment `σ`, the query `q` is true in the belief base of
`w` closed under its rules (least model).  There is no clause for negation and actions. -/
inductive Holds (w : W) : Asg → Query A → Prop where
  | tru {σ} : Holds w σ .tru
  | bool {σ t} : Den σ t (.bool true) → Holds w σ (.term t)
  | belief {σ t grp b} : b ∈ QWorld.beliefs w grp → Agree σ t b → AnnotsMatch σ t.annots b.annots →
      Holds w σ (.term t)
  | rule {σ t grp r τ v} : r ∈ QWorld.rules w grp → Den σ t v → Den τ r.head v → Holds w τ r.query →
      Holds w σ (.term t)
  | and {σ p q} : Holds w σ p → Holds w σ q → Holds w σ (.and p q)
  | orL {σ p q} : Holds w σ p → Holds w σ (.or p q)
  | orR {σ p q} : Holds w σ q → Holds w σ (.or p q)
  | unify {σ l r} : Agree σ l r → (l.isLiteral = true → r.isLiteral = true → AnnotsMatch σ l.annots r.annots) →
      Holds w σ (.unify l r)

/-- The predicate (functor and arity) of a literal. -/
def Term.group : Term → String × Nat
  | .lit f as _ => (f, as.length)
  | _ => ("", 0)

/-- Side conditions of the logical theorems on queries: no actions and no negation;
terms as in C01/C11 (`cmp`: comparison operators or annotations, not both); wildcards
only in literals without rules; in `l = r`, not a literal on the left and a variable on
the right. -/
def Query.OK (w : W) (cmp : Bool) : Query A → Prop
  | .tru | .fls => True
  | .act _ _ | .not _ => False
  | .term t =>
    if t.isLiteral then t.LitOK cmp ∧ (t.Parts Term.NoWild ∨ QWorld.rules w t.group = [])
    else cmp = true ∧ t.NoWild ∧ t.Tame cmp
  | .and l r => l.OK w cmp ∧ r.OK w cmp
  | .or l r => l.OK w cmp ∧ r.OK w cmp
  | .unify l r =>
    (l.annots = [] ∧ l.Tame cmp ∧ r.Tame cmp ∧ l.NoWild ∧ r.NoWild ∧ (l.isLiteral = true → ∀ y, r ≠ .var y)) ∨
    (l.LitOK cmp ∧ r.Parts (Term.Tame cmp) ∧ l.Parts Term.NoWild ∧ r.Parts Term.NoWild)

/-- Side conditions on belief base and rules: beliefs are ground literals (without
variables even in annotations of subterms), rule heads are literals without wildcards, both filed under their predicate; rule bodies satisfy
`Query.OK`. -/
structure KBOK (w : W) (cmp : Bool) : Prop where
  belief : ∀ grp, ∀ b ∈ QWorld.beliefs w grp, b.group = grp ∧ b.Parts Term.Closed ∧ b.Parts (Term.Tame cmp) ∧
    b.bound = 0
  rule : ∀ grp, ∀ r ∈ QWorld.rules w grp, r.head.group = grp ∧ r.head.Parts Term.NoWild ∧
    r.head.Parts (Term.Tame cmp) ∧ r.query.OK w cmp

/-- The annotations of all literals in the query are ground, those of a queried literal
have different values. -/
def Query.GroundAnnots : Query A → Prop
  | .term t => (∀ x ∈ t.annots, x.Closed) ∧ t.annots.Pairwise fun x y => x.val ≠ y.val
  | .unify l r => (∀ x ∈ l.annots, x.Closed) ∧ (l.annots.Pairwise fun x y => x.val ≠ y.val) ∧ ∀ y ∈ r.annots, y.Closed
  | .and l r => l.GroundAnnots ∧ r.GroundAnnots
  | .or l r => l.GroundAnnots ∧ r.GroundAnnots
  | .not q => q.GroundAnnots
  | _ => True

end

/-- Two assignments agree on the variables below `k`. -/
def EqBelow (k : Nat) (σ τ : Asg) : Prop := ∀ x, x < k → σ x = τ x

/-- All variables bound in the scope, and all variables in the terms they are bound to,
are below `k`. -/
def ScopeBelow (k : Nat) (sc : Scope) : Prop := ∀ x t, sc x = some t → x < k ∧ t.bound ≤ k

end Verif
