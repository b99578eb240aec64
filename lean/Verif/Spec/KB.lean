import Verif.Spec.Logic
import Verif.Spec.Query

/-!
# A world without actions

Belief bases and rules only; used for examples and counterexamples.
-/

namespace Verif

/-- Beliefs and rules by predicate. -/
structure KB where
  bels : String × Nat → List Term := fun _ => []
  rules : String × Nat → List (Rule Empty) := fun _ => []

instance : QWorld KB Empty Empty where
  beliefs := KB.bels
  rules := KB.rules
  actGen := fun a _ => a.elim
  actNext := fun _ _ g _ => g.elim

/-- Consumers in the logical theorems: they leave the world alone, may use up variables,
bind variables with trail (`cm = false`; the bound terms and variables are as in the
initial state) or not (`cm = true`). -/
structure Consumer {W : Type} (cmp same : Bool) (s s' : QSt W) : Prop where
  world : s'.w = s.w
  vars : s.nv ≤ s'.nv
  trail : if same then Same s.b s'.b else Above s.b s'.b
  ok : ScopeOK cmp s'.b.scope
  below : ScopeBelow s'.nv s'.b.scope

end Verif
