import Verif.Model.Term

/-!
# A concrete arithmetic, used in examples only

Exact rational arithmetic; powers and integer division are left undefined.
-/

namespace Verif

/-- `+ - * /` of rationals; division by zero raises. -/
@[reducible] def exactArith : Arith where
  bin
    | .add, p, q => some (p + q)
    | .sub, p, q => some (p - q)
    | .mul, p, q => some (p * q)
    | .truediv, p, q => if q = 0 then none else some (p / q)
    | _, _, _ => none

end Verif
