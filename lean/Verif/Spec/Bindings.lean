import Verif.Model.Eval

/-!
# Specification: scopes with the same bindings

Two scopes have the same bindings if they differ only in the direction in which variables are
bound to each other: the same variables have been made equal, and what has been made equal is
bound to the same term, if to any.
-/

namespace Verif

/-- Following the variables to which `x` is bound leads to `z`, which is not bound to a
variable. -/
inductive EndsAt (sc : Scope) : VarId → VarId → Prop where
  | stop {x} : (∀ y, sc x ≠ some (.var y)) → EndsAt sc x x
  | step {x y z} : sc x = some (.var y) → EndsAt sc y z → EndsAt sc x z

/-- The variables have been made equal. -/
def Joined (sc : Scope) (x y : VarId) : Prop := ∃ z, EndsAt sc x z ∧ EndsAt sc y z

/-- What `x` is bound to, when variables are followed: a term, or nothing. -/
def Bears (sc : Scope) (x : VarId) (o : Option Term) : Prop := ∃ z, EndsAt sc x z ∧ sc z = o

/-- The same bindings, apart from the direction between variables.  (The last part is about
variables that are bound to each other in a circle, which never happens.) -/
structure SameBindings (sc sc' : Scope) : Prop where
  joined : ∀ x y, Joined sc x y ↔ Joined sc' x y
  bears : ∀ x o, Bears sc x o ↔ Bears sc' x o
  circle : ∀ x, ¬Joined sc x x → sc' x = sc x

end Verif
