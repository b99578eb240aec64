import Verif.Spec.Negation

/-!
# Specification: safe negation

A negated query is safe if the queries before it bind all its variables.
-/

namespace Verif

section
variable {W A G : Type} [QWorld W A G]

/-- All variables of the term, outside annotations, satisfy `D`. -/
def Term.Over (D : VarId → Prop) : Term → Prop := Term.Every fun t =>
  match t with
  | .var x => D x
  | _ => True

/-- The variable occurs in the term, outside annotations. -/
def Term.Occurs (x : VarId) (t : Term) : Prop := ¬ t.Over (· ≠ x)

/-- All variables of the query, outside annotations, satisfy `D`. -/
def Query.Over (D : VarId → Prop) : Query A → Prop
  | .tru | .fls => True
  | .act _ t | .term t => t.Over D
  | .unify l r => l.Over D ∧ r.Over D
  | .and l r | .or l r => l.Over D ∧ r.Over D
  | .not q => q.Over D

/-- The variables that are bound to ground terms after an answer of the query, if those of `D` were
before: a literal that is looked up binds all its variables, `l = r` those of one side if the other side
is ground, the others bind nothing. -/
def Query.after (D : VarId → Prop) : Query A → VarId → Prop
  | .term (.lit f as xs) => fun x => D x ∨ (Term.lit f as xs).Occurs x
  | .unify l r => fun x => D x ∨ (l.Over D ∧ r.Occurs x) ∨ (r.Over D ∧ l.Occurs x)
  | .and l r => r.after (l.after D)
  | .or l r => fun x => l.after D x ∧ r.after D x
  | _ => D

/-- Arithmetic, comparison or logical operation. -/
def Term.isOp : Term → Bool
  | .un _ _ | .bin _ _ _ => true
  | _ => false

/-- No operations in the term, outside annotations. -/
def Term.Plain : Term → Prop := Term.Every fun t => t.isOp = false

/-- Operations occur only where they are evaluated at once: as queries, as arguments of literals that
are looked up, and as sides of `=`, not inside of other terms. -/
def Query.Plain : Query A → Prop
  | .term (.lit _ as _) => ∀ a ∈ as, a.isOp = true ∨ a.Plain
  | .unify l r => (l.isOp = true ∨ l.Plain) ∧ (r.isOp = true ∨ r.Plain)
  | .and l r | .or l r => l.Plain ∧ r.Plain
  | .not q => q.Plain
  | _ => True

/-- Negated queries, and lookups of the predicates `M`, have only variables that are bound before, `D` at the
beginning; operations are not hidden in terms of negated queries. -/
def Query.Safe (M : String × Nat → Prop) (D : VarId → Prop) : Query A → Prop
  | .term (.lit f as xs) => M (f, as.length) → (Term.lit f as xs).Over D
  | .term (.var x) => (∃ g, M g) → D x
  | .not q => q.Over D ∧ q.Plain
  | .and l r => l.Safe M D ∧ r.Safe M (l.after D)
  | .or l r => l.Safe M D ∧ r.Safe M D
  | _ => True

/-- The variables of a rule that are bound by the caller: those of the head, for the predicates `M`. -/
def Rule.given (M : String × Nat → Prop) (r : Rule A) (x : VarId) : Prop := M r.head.group ∧ r.head.Occurs x

/-- Belief base and rules with safe negation: as `Strata`; annotations in rules are ground; the predicates `M`
are only looked up with ground arguments; the negated queries in rules are safe, and the body of every rule binds the
variables of its head, unless the caller did.  The rules for the predicates that are negated have no operations hidden
in terms, and all their variables are bound. -/
structure SafeStrata (w : W) (cmp : Bool) (P M : String × Nat → Prop) : Prop extends Strata w cmp P where
  ground : ∀ grp, P grp → ∀ r ∈ QWorld.rules w grp, (Query.term (A := A) r.head).Plain ∧ r.query.Plain ∧
    r.query.Over (r.query.after (r.given M))
  safe : RulesAre (fun r : Rule A => r.query.GroundAnnots ∧ r.query.Safe M (r.given M) ∧
    r.head.Over (r.query.after (r.given M))) w

end

/-- The term has no free variables under the bindings (annotations aside); wildcards only if `w`. -/
inductive GroundIn (w : Bool) (sc : Scope) : Term → Prop where
  | bool {b} : GroundIn w sc (.bool b)
  | num {q} : GroundIn w sc (.num q)
  | str {s} : GroundIn w sc (.str s)
  | wild : w = true → GroundIn w sc .wild
  | var {x t} : sc x = some t → GroundIn w sc t → GroundIn w sc (.var x)
  | lit {f as xs} : (∀ a ∈ as, GroundIn w sc a) → GroundIn w sc (.lit f as xs)
  | tup {xs} : (∀ x ∈ xs, GroundIn w sc x) → GroundIn w sc (.tup xs)
  | cons {h t} : GroundIn w sc h → GroundIn w sc t → GroundIn w sc (.cons h t)
  | un {op t} : GroundIn w sc t → GroundIn w sc (.un op t)
  | bin {op l r} : GroundIn w sc l → GroundIn w sc r → GroundIn w sc (.bin op l r)

end Verif
