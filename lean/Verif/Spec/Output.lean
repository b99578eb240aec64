import Verif.Spec.Args

/-!
# Specification: output
-/

namespace Verif

/-- The texts one after the other, with a separator between them. -/
inductive JoinedBy (sep : String) : List String → String → Prop where
  | nil : JoinedBy sep [] ""
  | one (x : String) : JoinedBy sep [x] x
  | cons {x y : String} {xs : List String} {t : String} : JoinedBy sep (y :: xs) t → JoinedBy sep (x :: y :: xs) (x ++ sep ++ t)

section
variable [Host]

/-- The texts of terms. -/
inductive Texts : List Term → List String → Prop where
  | nil : Texts [] []
  | cons {t : Term} {x : String} {ts : List Term} {xs : List String} : Given .aslStr t (.str x) → Texts ts xs → Texts (t :: ts) (x :: xs)

end

/-- Something may have been added to the output since, by agents with names. -/
def OutputGrows (w w' : World) : Prop :=
  ∃ new, w'.out = new ++ w.out ∧ ∀ o ∈ new, ∃ a, (w.ags a).name = o.name

end Verif
