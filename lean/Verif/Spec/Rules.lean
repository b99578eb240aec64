import Verif.Spec.Env

/-!
# Specification: the rules of a program
-/

namespace Verif

/-- The rule is for the predicate `g` (name and number of arguments). -/
def Rule.isFor {A : Type} (g : String × Nat) (r : Rule A) : Bool :=
  match r.head with
  | .lit f as _ => (f, as.length) == g
  | _ => false

end Verif
