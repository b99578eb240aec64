import Verif.Spec.Query
import Verif.Model.Stdlib

/-!
# Specification: which actions keep the trail discipline
-/

namespace Verif

/-- Actions that change scope and stack, if at all, by trailed bindings only: all but
`.unbind_all`. -/
def Act.trailed : Act → Prop
  | .unbindAll => False
  | _ => True

/-- What is left of an action when its answers are exhausted (see `Query.settles`).
`.member`, `.range` and `.substring` set a choicepoint before each answer.  Predicates,
procedures and actions without results bind nothing themselves.  The others unify the
result with an argument, without a choicepoint. -/
def Act.settles : Act → Bool → Bool
  | .member, _ | .range, _ | .substring, _ | .fail, _ => true
  | .pred _ _, r | .proc _ _, r | .print, r | .csv, r | .ground, r | .send, r | .broadcast, r | .abolish, r | .wait, r => r
  | .myName, _ | .concat, _ | .findall, _ | .count, _ | .sum, _ | .date, _ | .time, _ | .fn _ _, _ | .unbindAll, _ => false

/-- The intentions on the stacks exist; `.unbind_all` and `literal = variable` do not
occur in rules; beliefs are literals. -/
structure Orderly (w : World) : Prop where
  below : ∀ a, ∀ st ∈ (w.ags a).intentions, ∀ i ∈ st, i < w.nint
  rules : ∀ a grp, ∀ r ∈ (w.ags a).rules grp, r.query.Clean fun a _ => a.trailed
  bels : ∀ k, ∀ b ∈ w.sets k, b.isLiteral = true

end Verif
