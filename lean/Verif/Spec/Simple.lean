import Verif.Spec.Output
import Verif.Spec.Beliefs

/-!
# Specification: simple actions
-/

namespace Verif

section
variable [Host]

/-- The texts of values for Python: strings are texts already. -/
inductive PyTexts : List Term → List String → Prop where
  | nil : PyTexts [] []
  | str {x : String} {ts : List Term} {xs : List String} : PyTexts ts xs → PyTexts (.str x :: ts) (x :: xs)
  | other {t : Term} {ts : List Term} {xs : List String} : (∀ x, t ≠ .str x) → PyTexts ts xs → PyTexts (t :: ts) (Host.pyStr t :: xs)

/-- `r` is what `.concat` makes of the values: ordinary lists are appended; if one of the values is
something else, all of them are joined as texts. -/
inductive Concat : List Term → Term → Prop where
  | lists (xss : List (List Term)) : Concat (xss.map .tup) (.tup xss.flatten)
  | texts {vs : List Term} {v : Term} {xs : List String} {t : String} :
      v ∈ vs → (∀ ys, v ≠ .tup ys) → PyTexts vs xs → JoinedBy "" xs t → Concat vs (.str t)

end

end Verif
