import Verif.Model.World
import Verif.Spec.ExactArith

/-! A `Host` for examples: exact rational arithmetic, no parser. -/

namespace Verif

@[reducible] def exactHost : Host := { exactArith with
  parsePlan := fun _ => .err (.asl "no parser")
  parseEvent := fun _ => .err (.asl "no parser")
  str := fun _ => "" }

end Verif
