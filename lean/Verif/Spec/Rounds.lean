import Verif.Spec.Query
import Verif.Spec.Logic

/-!
# Specification: queries that are not disturbed by bindings of their consumer

While a query is suspended, the body of a loop is executed and binds variables.  Most queries begin by
undoing them when they are asked for the next answer, but not all (`true | true`, see `C13_true_keeps_consumer_bindings`).
-/

namespace Verif

section
variable {W A G : Type} [QWorld W A G]

/-- At most one answer, which binds nothing: comparisons, constants and negations. -/
def Query.quick : Query A → Bool
  | .tru | .fls | .not _ => true
  | .term (.bin _ _ _) | .term (.un _ _) | .term (.bool _) => true
  | .and l r => l.quick && r.quick
  | _ => false

/-- Asking for the next answer starts with going back to a choicepoint. -/
def Query.resets : Query A → Bool
  | .term t => t.isLiteral
  | .unify _ _ => true
  | .and l r => r.resets || (r.quick && l.resets)
  | .or l r => l.resets && r.resets
  | _ => false

/-- Bindings of the consumer do not disturb the query. -/
def Query.tidy (q : Query A) : Bool := q.quick || q.resets

/-- The query asks only for the predicates `D` (and comparisons and unifications); no actions, and no `literal = variable` in
negated queries. -/
def Query.AsksOnly (D : String × Nat → Prop) : Query A → Prop
  | .act _ _ => False
  | .not q => q.AsksOnly D ∧ q.Clean fun _ _ => False
  | .term t => if t.isLiteral then D t.group else (Query.term t : Query A).quick = true
  | .and l r | .or l r => l.AsksOnly D ∧ r.AsksOnly D
  | _ => True

/-- The same beliefs and rules for the predicates `D`. -/
def SameKB (D : String × Nat → Prop) (w w' : W) : Prop :=
  ∀ g, D g → QWorld.beliefs (A := A) (G := G) w' g = QWorld.beliefs (A := A) (G := G) w g ∧ (QWorld.rules w' g : List (Rule A)) = QWorld.rules w g

/-- The rules for the predicates `D` ask only for predicates in `D`, and bindings of consumers do not disturb them. -/
def RulesAsk (D : String × Nat → Prop) (w : W) : Prop :=
  ∀ g, D g → ∀ r ∈ (QWorld.rules w g : List (Rule A)), r.query.AsksOnly D ∧ r.query.tidy = true

end

end Verif
