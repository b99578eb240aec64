import Verif.Model.Basic

/-!
# Terms (`agentspeak/__init__.py` 247-290, 416-854)
-/

namespace Verif

/-- `UnaryOp`, `agentspeak/__init__.py` 260-264. -/
inductive UnOp where
  | not | pos | neg
deriving DecidableEq, Repr

/-- `BinaryOp`, `agentspeak/__init__.py` 267-290. -/
inductive BinOp where
  | pow | mul | truediv | floordiv | mod | add | sub
  | unify | decompose
  | lt | le | ne | eq | ge | gt
  | and | or
deriving DecidableEq, Repr

/-- `Operator.numeric_op`, `agentspeak/__init__.py` 247-264. -/
def UnOp.numericOp : UnOp → Bool
  | .not => false
  | .pos | .neg => true

/-- `Operator.boolean_op`, `agentspeak/__init__.py` 247-264. -/
def UnOp.booleanOp : UnOp → Bool
  | .not => true
  | .pos | .neg => false

/-- `Operator.numeric_op`, `agentspeak/__init__.py` 269-277. -/
def BinOp.numericOp : BinOp → Bool
  | .pow | .mul | .truediv | .floordiv | .mod | .add | .sub => true
  | _ => false

/-- `Operator.comp_op`, `agentspeak/__init__.py` 282-287. -/
def BinOp.compOp : BinOp → Bool
  | .lt | .le | .ne | .eq | .ge | .gt => true
  | _ => false

/-- `Operator.boolean_op`, `agentspeak/__init__.py` 289-290. -/
def BinOp.booleanOp : BinOp → Bool
  | .and | .or => true
  | _ => false

/-- `Operator.query_op`, `agentspeak/__init__.py` 279-280 and 289-290. -/
def BinOp.queryOp : BinOp → Bool
  | .unify | .decompose | .and | .or => true
  | _ => false

/-- Identity of a `Var` object. -/
abbrev VarId := Nat

/-- Runtime terms.

* `bool`, `num`, `str`: Python `bool`, `int`/`float` (by value), `str`;
* `lit f args annots`: `Literal` (602-606), annotations in iteration order of the
  frozenset;
* `tup`: Python `tuple` (AgentSpeak list);
* `cons`: `LinkedList` (770-773);
* `var`: `Var` (416-474), identified by its number;
* `wild`: `Wildcard` (477-502); its identity never matters;
* `un`, `bin`: `UnaryExpr` (505-508) and `BinaryExpr` (547-551). -/
inductive Term where
  | bool (b : Bool)
  | num (q : Rat)
  | str (s : String)
  | lit (f : String) (args : List Term) (annots : List Term)
  | tup (items : List Term)
  | cons (head tail : Term)
  | var (v : VarId)
  | wild
  | un (op : UnOp) (t : Term)
  | bin (op : BinOp) (l r : Term)
deriving Repr, BEq, Inhabited

/-- Arithmetic of the host: a partial function on numeric values; `none` stands for a
Python exception (`ZeroDivisionError`, `OverflowError`).  A parameter of the whole
model, so nothing depends on floating point rounding. -/
class Arith where
  bin : BinOp → Rat → Rat → Option Rat

namespace Term

/-- Abbreviation for an atom `f`. -/
abbrev atom (f : String) : Term := .lit f [] []

/-- `isinstance(t, bool)`. -/
def isBool : Term → Bool
  | .bool _ => true
  | _ => false

/-- `is_number`, `agentspeak/__init__.py` 362-364. -/
def isNumber : Term → Bool
  | .num _ => true
  | _ => false

/-- `is_atom`, `agentspeak/__init__.py` 367-375 and 663-664. -/
def isAtom : Term → Bool
  | .lit _ [] [] => true
  | _ => false

/-- `is_string`, `agentspeak/__init__.py` 378-382. -/
def isString : Term → Bool
  | .str _ => true
  | _ => false

/-- `is_list`, `agentspeak/__init__.py` 385-389. -/
def isList : Term → Bool
  | .tup _ | .cons _ _ => true
  | _ => false

/-- `is_literal`, `agentspeak/__init__.py` 392-396. -/
def isLiteral : Term → Bool
  | .lit _ _ _ => true
  | _ => false

/-- `is_structure`, `agentspeak/__init__.py` 399-403. -/
def isStructure (t : Term) : Bool := t.isLiteral || t.isList

/-- `hasattr(t, "unify")`: every term class defined in `agentspeak/__init__.py`, but
not the plain Python values (`bool`, numbers, `str`, `tuple`). -/
def isObj : Term → Bool
  | .lit _ _ _ | .cons _ _ | .var _ | .wild | .un _ _ | .bin _ _ _ => true
  | .bool _ | .num _ | .str _ | .tup _ => false

end Term

end Verif
