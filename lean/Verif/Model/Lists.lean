import Verif.Model.Order

/-!
# Length of terms
-/

namespace Verif

/-- `len(t)`: `LinkedList.__len__`, `agentspeak/__init__.py` 810-811, `Literal.__len__`, 690-691; Python's own
for strings and tuples.  Everything else raises `TypeError`. -/
def pyLen : Term → Ev Nat
  | .tup xs => .ok xs.length
  | .str s => .ok s.length
  | .lit _ args _ => .ok args.length
  | .cons _ t => (pyLen t).map (1 + ·)
  | _ => .err (.py "TypeError")

end Verif
