import Verif.Model.Order

/-!
# Dereferencing, evaluation and grounding (`agentspeak/__init__.py`)
-/

namespace Verif

/-- `intention.scope`: a dict from `Var` objects to terms. -/
abbrev Scope := VarId → Option Term

namespace Scope

/-- `{}` -/
def empty : Scope := fun _ => none

/-- `scope[x] = t` -/
def set (sc : Scope) (x : VarId) (t : Term) : Scope := fun y => if y = x then some t else sc y

/-- `scope.pop(x, None)` -/
def erase (sc : Scope) (x : VarId) : Scope := fun y => if y = x then none else sc y

end Scope

/-- `deref`, `agentspeak/__init__.py` 857-863. -/
def deref : Nat → Scope → Term → Ev Term
  | 0, _, _ => .oof
  | n + 1, sc, .var x =>
    match sc x with
    | none => .ok (.var x)
    | some t => deref n sc t
  | _ + 1, _, t => .ok t

/-- `unary_op.func`, `agentspeak/__init__.py` 260-264, with the type checks of
`UnaryExpr.evaluate` 516-525. -/
def unFunc (op : UnOp) (t : Term) : Ev Term :=
  match op, t with
  | .not, .bool b => .ok (.bool (!b))
  | .pos, .num q => .ok (.num q)
  | .neg, .num q => .ok (.num (-q))
  | _, _ => .err (.asl "bad operand type")

/-- `BinaryExpr.evaluate`, `agentspeak/__init__.py` 560-573 and 578, for operators that
are boolean or numeric: type checks, then `binary_op.func`.  (`op_unify` and
`op_decompose` have `func = None`: calling it is a `TypeError`.) -/
def binFunc [Arith] (op : BinOp) (l r : Term) : Ev Term :=
  if op.booleanOp then
    match l, r with
    | .bool a, .bool b => .ok (.bool (if op = .and then a && b else a || b))
    | _, _ => .err (.asl "bad operand types")
  else if op.numericOp then
    match l, r with
    | .num a, .num b =>
      match Arith.bin op a b with
      | some q => .ok (.num q)
      | none => .err (.py "ArithmeticError")
    | _, _ => .err (.asl "bad operand types")
  else .err (.py "TypeError")

mutual

/-- `evaluate`, `agentspeak/__init__.py` 866-874, with the methods `Var.evaluate`
449-453, `Wildcard.evaluate` 490-491, `UnaryExpr.evaluate` 513-527 and
`BinaryExpr.evaluate` 556-578. -/
def evaluate [Arith] : Nat → Scope → Term → Ev Term
  | 0, _, _ => .oof
  | n + 1, sc, t =>
    match t with
    | .var x =>
      match sc x with
      | none => .ok (.var x)
      | some _ => (deref n sc (.var x)).bind (evaluate n sc)
    | .un op t => (evaluate n sc t).bind (unFunc op)
    | .bin op l r =>
      (evaluate n sc l).bind fun l' =>
      (evaluate n sc r).bind fun r' =>
        if op.compOp then
          (grounded n sc l').bind fun l'' =>
          (grounded n sc r').bind fun r'' =>
            (pyCompare n op l'' r'').map .bool
        else binFunc op l' r'
    | t => .ok t

/-- `grounded`, `agentspeak/__init__.py` 935-941, with the methods `Var.grounded`
433-437, `Wildcard.grounded` 484-485, `UnaryExpr.grounded` 532-533,
`BinaryExpr.grounded` 583-584, `Literal.grounded` 671-676 (the annotations become a
frozenset again: duplicates merge) and `LinkedList.grounded` 797-798. -/
def grounded [Arith] : Nat → Scope → Term → Ev Term
  | 0, _, _ => .oof
  | n + 1, sc, t =>
    match t with
    | .var x =>
      match sc x with
      | none => .err (.asl "term not ground")
      | some _ => (deref n sc (.var x)).bind (grounded n sc)
    | .wild => .err (.asl "wildcard is never ground")
    | .un op t => (evaluate n sc (.un op t)).bind (grounded n sc)
    | .bin op l r => (evaluate n sc (.bin op l r)).bind (grounded n sc)
    | .lit f args annots =>
      (Ev.mapL (grounded n sc) args).bind fun args' =>
      (Ev.mapL (grounded n sc) annots).bind fun annots' =>
        .ok (.lit f args' (pySet annots'))
    | .cons h t =>
      (grounded n sc h).bind fun h' => (grounded n sc t).bind fun t' => .ok (.cons h' t')
    | .tup xs => (Ev.mapL (grounded n sc) xs).map .tup
    | t => .ok t

end

/-- `is_ground`, `agentspeak/__init__.py` 926-932, with the methods `Var.is_ground`
427-431, `Wildcard.is_ground` 481-482, `UnaryExpr.is_ground` 529-530,
`BinaryExpr.is_ground` 580-581, `Literal.is_ground` 666-669,
`LinkedList.is_ground` 794-795. -/
def isGround : Nat → Scope → Term → Ev Bool
  | 0, _, _ => .oof
  | n + 1, sc, t =>
    match t with
    | .var x =>
      match sc x with
      | none => .ok false
      | some _ => (deref n sc (.var x)).bind (isGround n sc)
    | .wild => .ok false
    | .un _ t => isGround n sc t
    | .bin _ l r => (isGround n sc l).bind fun b => if b then isGround n sc r else .ok false
    | .lit _ args annots =>
      (Ev.allL (isGround n sc) args).bind fun b =>
        if b then Ev.allL (isGround n sc) annots else .ok false
    | .cons h t => (isGround n sc h).bind fun b => if b then isGround n sc t else .ok false
    | .tup xs => Ev.allL (isGround n sc) xs
    | _ => .ok true

end Verif
