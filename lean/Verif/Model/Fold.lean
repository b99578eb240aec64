import Verif.Model.Parser
import Verif.Model.Eval

/-!
# Constant folding (`parser.py` 1118-1400) and runtime terms of the syntax tree
(`runtime.py` 40-81)

The visitors change the tree in place; here they return the changed tree.  The state is the
number of errors that have been logged, without a limit (`Log.max_errors`).  Source locations
and messages are left out.
Arithmetic is that of `Arith`; arithmetic and comparison with infinite numbers is not
modelled (the model answers with the error `infinite`).
-/

namespace Verif

/-- Value of a constant as a runtime term.  Surrogates in strings and infinite numbers have
no counterpart among the runtime terms of the model. -/
def ConstV.term : ConstV → Term
  | .bool b => .bool b
  | .num (.fin q) => .num q
  | .num .inf => .num 0
  | .str s => .str (String.ofList (s.map Char.ofNat))

mutual
/-- `BuildTermVisitor`, `runtime.py` 40-81.  `vars` is the dict `variables` at the end, when
every name has its `Var` or `Wildcard`.  The annotations are not merged to a set here. -/
def Ast.build (vars : List Char → Term) : Ast → Term
  | .const v => v.term
  | .var x => vars x
  | .lit f ts as => .lit (String.ofList f) (Ast.builds vars ts) (Ast.builds vars as)
  | .list ts => .tup (Ast.builds vars ts)
  | .linked h t => .cons (Ast.build vars h) (Ast.build vars t)
  | .un op a => .un op (Ast.build vars a)
  | .bin op l r => .bin op (Ast.build vars l) (Ast.build vars r)
def Ast.builds (vars : List Char → Term) : List Ast → List Term
  | [] => []
  | a :: as => Ast.build vars a :: Ast.builds vars as
end

/-- The visitors, `parser.py`: `NumericFoldVisitor` 1118-1181, `BooleanFoldVisitor` 1184-1262,
`TermFoldVisitor` 1265-1299, `LogicalFoldVisitor` 1302-1313, and the methods of
`ConstFoldVisitor` for terms, 1316-1400. -/
inductive Visitor where
  | num | bool | term | logical | const
  deriving DecidableEq

/-- The visitor to which `visit_binary_op` passes the node: `TermFoldVisitor` 1269-1273,
`ConstFoldVisitor` 1320-1321. -/
def Visitor.forBin : Visitor → BinOp → Visitor
  | .term, op | .const, op => if op.numericOp then .num else .bool
  | v, _ => v

/-- The visitor to which `visit_unary_op` passes the node: `TermFoldVisitor` 1275-1279,
`ConstFoldVisitor` 1323-1324. -/
def Visitor.forUn : Visitor → UnOp → Visitor
  | .term, op | .const, op => if op.booleanOp then .bool else .num
  | v, _ => v

/-- Does the operator raise `ZeroDivisionError`? -/
def zeroDivision (op : BinOp) (p q : Rat) : Bool :=
  match op with
  | .truediv | .floordiv | .mod => decide (q = 0)
  | .pow => decide (p = 0) && decide (q < 0)
  | _ => false

/-- `self.log.error(…)`, without raising: one more error. -/
def logError (a : Option Ast) (s : Nat) : Res Nat (Option Ast) := .ok a (s + 1)

/-- The node with new operands; `none` stands for a tree with `None` in it. -/
def rebuild (op : BinOp) : Option Ast → Option Ast → Option Ast
  | some l, some r => some (.bin op l r)
  | _, _ => none

/-- `NumericFoldVisitor.visit_binary_op`, `parser.py` 1126-1138, after the operands `l` and
`r` have been folded to `l'` and `r'`. -/
def numBin [Arith] (op : BinOp) (l r : Ast) (l' r' : Option Ast) (s : Nat) : Res Nat (Option Ast) :=
  match l', r' with
  | some (.const (.num a)), some (.const (.num b)) =>
    match a, b with
    | .fin p, .fin q =>
      match Arith.bin op p q with
      | some x => .ok (some (.const (.num (.fin x)))) s
      | none => if zeroDivision op p q then logError (some (.bin op l r)) s else .err (.py "OverflowError") s
    | _, _ => .err (.py "infinite") s
  | _, _ => .ok (rebuild op l' r') s

/-- `BooleanFoldVisitor.visit_binary_op`, `parser.py` 1192-1201, for boolean operators. -/
def boolBin (op : BinOp) (l' r' : Option Ast) (s : Nat) : Res Nat (Option Ast) :=
  match l', r' with
  | some (.const (.bool a)), some (.const (.bool b)) => .ok (some (.const (.bool (if op = .and then a && b else a || b)))) s
  | _, _ => .ok (rebuild op l' r') s

/-- `BooleanFoldVisitor.visit_binary_op`, `parser.py` 1203-1221, for comparisons. -/
def compBin (op : BinOp) (l' r' : Option Ast) (s : Nat) : Res Nat (Option Ast) :=
  match l', r' with
  | some (.const (.num a)), some (.const (.num b)) =>
    match a, b with
    | .fin p, .fin q => Res.lift ((pyCompare 1 op (.num p) (.num q)).map fun x => some (.const (.bool x))) s
    | _, _ => .err (.py "infinite") s
  | some (.const (.bool a)), some (.const (.bool b)) =>
    Res.lift ((pyCompare 1 op (.bool a) (.bool b)).map fun x => some (.const (.bool x))) s
  | some (.const (.str a)), some (.const (.str b)) =>
    Res.lift ((pyCompare 1 op (ConstV.str a).term (ConstV.str b).term).map fun x => some (.const (.bool x))) s
  | _, _ => .ok (rebuild op l' r') s

/-- `visit_unary_op`, `parser.py` 1148-1157 and 1230-1239: numeric and boolean operators. -/
def foldUn (op : UnOp) (a' : Option Ast) (s : Nat) : Res Nat (Option Ast) :=
  match op, a' with
  | .not, some (.const (.bool b)) => .ok (some (.const (.bool (!b)))) s
  | .pos, some (.const (.num (.fin q))) => .ok (some (.const (.num (.fin q)))) s
  | .neg, some (.const (.num (.fin q))) => .ok (some (.const (.num (.fin (-q))))) s
  | .pos, some (.const (.num .inf)) | .neg, some (.const (.num .inf)) => .err (.py "infinite") s
  | op, a' => .ok (a'.map (.un op)) s

mutual
/-- `ast.accept(visitor)`. -/
def fold [Arith] : Visitor → Ast → Nat → Res Nat (Option Ast)
  | v, .bin op l r, s =>
    match v.forBin op with
    | .num =>
      if op.numericOp then
        (fold .num l s).bind fun l' s => (fold .num r s).bind fun r' s => numBin op l r l' r' s
      else logError (some (.bin op l r)) s
    | w =>
      if w = .logical ∧ op.queryOp ∧ ¬ op.booleanOp then
        (fold .term l s).bind fun l' s => (fold .term r s).bind fun r' s => .ok (rebuild op l' r') s
      else if op.booleanOp then
        (fold w l s).bind fun l' s => (fold w r s).bind fun r' s => boolBin op l' r' s
      else if op.compOp then
        (fold .term l s).bind fun l' s => (fold .term r s).bind fun r' s => compBin op l' r' s
      else logError (some (.bin op l r)) s
  | v, .un op a, s =>
    match v.forUn op with
    | .num => if op.numericOp then (fold .num a s).bind (foldUn op) else logError (some (.un op a)) s
    | w => if op.booleanOp then (fold w a s).bind (foldUn op) else logError (some (.un op a)) s
  | _, .var x, s => .ok (some (.var x)) s
  | v, .const c, s =>
    match v, c with
    | .num, .bool _ | .num, .str _ => logError (some (.const c)) s
    | .bool, .str _ | .logical, .str _ | .bool, .num _ | .logical, .num _ => logError (some (.const c)) s
    | _, _ => .ok (some (.const c)) s
  | v, .lit f ts as, s =>
    match v with
    | .num | .bool => logError (some (.lit f ts as)) s
    | _ => (foldL ts s).bind fun ts' s => (foldL as s).bind fun as' s =>
      .ok (ts'.bind fun ts' => as'.map fun as' => .lit f ts' as') s
  | v, .list ts, s =>
    match v with
    | .num => logError (some (.list ts)) s
    | .bool | .logical => logError none s
    | _ => (foldL ts s).bind fun ts' s => .ok (ts'.map .list) s
  | v, .linked h t, s =>
    match v with
    | .term => (fold .term h s).bind fun h' s => (fold .term t s).bind fun t' s =>
      .ok (h'.bind fun h' => t'.map fun t' => .linked h' t') s
    | _ => .err (.py "AttributeError") s
/-- `[term.accept(self) for term in …]` with `TermFoldVisitor`; `none`: there is a `None`
somewhere. -/
def foldL [Arith] : List Ast → Nat → Res Nat (Option (List Ast))
  | [], s => .ok (some []) s
  | a :: as, s => (fold .term a s).bind fun a' s => (foldL as s).bind fun as' s =>
    .ok (a'.bind fun a' => as'.map fun as' => a' :: as') s
end

end Verif
