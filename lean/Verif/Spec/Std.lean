import Verif.Model.Std
import Verif.Spec.Compare

/-!
# Calling functions and predicates of the standard library
-/

namespace Verif

/-- `<` gives a truth value for every two of the items. -/
def Sortable (xs : List Term) : Prop := ∀ x ∈ xs, ∀ y ∈ xs, ∃ b, Compares .lt x y (.ok b)

/-- The actions (with their numbers of parameters) that are declared to bind the last parameter:
`EFFECT_DOBIND`. -/
def bindsLast : List (String × Nat) :=
  [(".broadcast", 2), (".send", 3), (".my_name", 1), (".random", 1), (".min", 2), (".max", 2), (".length", 2), (".nth", 3), (".sort", 2),
   (".substring", 3), (".member", 2), (".atom", 1), (".literal", 1), (".list", 1), (".number", 1), (".string", 1), (".structure", 1),
   (".findall", 3), (".count", 2), (".abolish", 1), (".range", 2)]

/-- The variable has a value, which is no variable. -/
def Resolved (sc : Scope) (x : VarId) : Prop := ∃ n v, deref n sc (.var x) = .ok v ∧ ∀ y, v ≠ .var y

section
variable [Host]

/-- The arguments converted as declared. -/
def convertAll : List Spec → List Term → Ev (List Term)
  | [], _ => .ok []
  | _ :: _, [] => .err (.py "RuntimeError")
  | c :: cs, t :: ts => (convert c t).bind fun t => (convertAll cs ts).map (t :: ·)

/-- A function is registered for this name and (with the argument for the result) this number of
arguments, and `r` is its answer: a result or an exception. -/
def StdCall (acts : Lookup) (name : String) (args : List Term) (r : Ev Term) : Prop :=
  ∃ specs f, acts name (args.length + 1) = some (.fn specs f) ∧ specs.length = args.length ∧ (convertAll specs args).bind f = r

/-- A predicate is registered for this name and number of arguments, and `r` is its answer. -/
def StdTest (acts : Lookup) (name : String) (args : List Term) (r : Ev Bool) : Prop :=
  ∃ specs f, acts name args.length = some (.pred specs f) ∧ specs.length = args.length ∧ (convertAll specs args).bind f = r

end

end Verif
