import Verif.Spec.Folding
import Verif.Spec.Logic

/-! # Specification: queries with constant expressions replaced by their values -/

namespace Verif

/-- The query of a boolean constant. -/
def Query.ofBool {A : Type} (b : Bool) : Query A := if b then .tru else .fls

/-- The second query is the first, where some operators with constant operands have been
replaced by their values: in the terms, comparisons, and the logical connectives. -/
inductive QReduces [Arith] {A : Type} : Query A → Query A → Prop where
  | refl (q) : QReduces q q
  | act {a t t'} : Reduces t t' → QReduces (.act a t) (.act a t')
  | term {t t'} : Reduces t t' → QReduces (.term t) (.term t')
  | unify {l r l' r'} : Reduces l l' → Reduces r r' → QReduces (.unify l r) (.unify l' r')
  | and {p q p' q'} : QReduces p p' → QReduces q q' → QReduces (.and p q) (.and p' q')
  | or {p q p' q'} : QReduces p p' → QReduces q q' → QReduces (.or p q) (.or p' q')
  | not {p p'} : QReduces p p' → QReduces (.not p) (.not p')
  /-- A comparison of constants. -/
  | value {t b} : Reduces t (.bool b) → QReduces (.term t) (.ofBool b)
  | andValue {p q a b} : QReduces p (.ofBool a) → QReduces q (.ofBool b) → QReduces (.and p q) (.ofBool (a && b))
  | orValue {p q a b} : QReduces p (.ofBool a) → QReduces q (.ofBool b) → QReduces (.or p q) (.ofBool (a || b))
  | notValue {p a} : QReduces p (.ofBool a) → QReduces (.not p) (.ofBool (!a))

end Verif
