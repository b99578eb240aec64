import Verif.Model.Strings
import Verif.Model.Term

/-!
# Terms in the parser (`agentspeak/parser.py` 85-230, 427-676)
-/

namespace Verif

/-- Values of `float(…)` for the text of a number (never negative, never NaN). -/
inductive FloatV where
  | fin (q : Rat)
  | inf
  deriving DecidableEq

/-- A number as it is printed: digits, perhaps with a fraction and an exponent. -/
structure NumText (u : List Char) : Prop where
  form : ∃ int frac exp, u = int ++ frac ++ exp ∧
    (int ≠ [] ∧ ∀ c ∈ int, c.isDigit = true) ∧
    (frac = [] ∨ ∃ ds, frac = '.' :: ds ∧ ds ≠ [] ∧ ∀ c ∈ ds, c.isDigit = true) ∧
    (exp = [] ∨ ∃ sign ds, exp = 'e' :: sign ++ ds ∧ (sign = [] ∨ sign = ['+'] ∨ sign = ['-']) ∧ ds ≠ [] ∧ ∀ c ∈ ds, c.isDigit = true)

/-- Reading and printing numbers: `float` and `asl_repr` (`agentspeak/__init__.py` 352-357:
`repr(int(term))` or `repr(term)`).  Python guarantees that `float(repr(x)) == x`. -/
class Floats where
  /-- `float(lexeme)` -/
  read : List Char → FloatV
  /-- `asl_repr` of a finite number -/
  print : Rat → List Char
  print_text : ∀ {u q}, read u = .fin q → NumText (print q)
  read_print : ∀ {u q}, read u = .fin q → read (print q) = .fin q
  /-- There is no sign in the text of a number. -/
  read_nonneg : ∀ {u q}, read u = .fin q → 0 ≤ q
  /-- The sign is printed before the number. -/
  print_neg : ∀ {u q}, read u = .fin q → 0 < q → print (-q) = '-' :: print q

/-- `AstConst.value` -/
inductive ConstV where
  | bool (b : Bool)
  | num (v : FloatV)
  | str (s : List Nat)
  deriving DecidableEq

/-- `AstConst`, `AstVariable`, `AstLiteral`, `AstList`, `AstLinkedList`, `AstUnaryOp`,
`AstBinaryOp`, `parser.py` 90-140 and 180-230 (without source locations). -/
inductive Ast where
  | const (v : ConstV)
  | var (name : List Char)
  | lit (functor : List Char) (terms annotations : List Ast)
  | list (terms : List Ast)
  | linked (head tail : Ast)
  | un (op : UnOp) (operand : Ast)
  | bin (op : BinOp) (left right : Ast)

/-- `Operator.lexeme`, `agentspeak/__init__.py` 260-264. -/
def UnOp.lexeme : UnOp → List Char
  | .not => ['n', 'o', 't'] | .pos => ['+'] | .neg => ['-']

/-- `Operator.lexeme`, `agentspeak/__init__.py` 267-290. -/
def BinOp.lexeme : BinOp → List Char
  | .pow => ['*', '*'] | .mul => ['*'] | .truediv => ['/'] | .floordiv => ['d', 'i', 'v'] | .mod => ['m', 'o', 'd']
  | .add => ['+'] | .sub => ['-'] | .unify => ['='] | .decompose => ['=', '.', '.']
  | .lt => ['<'] | .le => ['<', '='] | .ne => ['\\', '=', '='] | .eq => ['=', '='] | .ge => ['>', '='] | .gt => ['>']
  | .and => ['&'] | .or => ['|']

/-- `", ".join(…)` -/
def joinComma : List (List Char) → List Char
  | [] => []
  | [u] => u
  | u :: us => u ++ ',' :: ' ' :: joinComma us

section
variable [Floats]

/-- `asl_repr` of a constant, `agentspeak/__init__.py` 338-359. -/
def ConstV.print : ConstV → List Char
  | .bool true => "true".toList
  | .bool false => "false".toList
  | .str s => reprString s
  | .num (.fin q) => Floats.print q
  | .num .inf => "inf".toList

mutual
/-- `str(term)`: the methods `__str__`, `parser.py` 103-140 and 188-230. -/
def Ast.print : Ast → List Char
  | .const v => v.print
  | .var x => x
  | .lit f ts as =>
    f ++ (if ts.isEmpty then [] else '(' :: joinComma (Ast.prints ts) ++ [')']) ++
      (if as.isEmpty then [] else '[' :: joinComma (Ast.prints as) ++ [']'])
  | .list ts => '[' :: joinComma (Ast.prints ts) ++ [']']
  | .linked h t => '[' :: Ast.print h ++ '|' :: Ast.print t ++ [']']
  | .un op a => '(' :: op.lexeme ++ ' ' :: Ast.print a ++ [')']
  | .bin op l r => '(' :: Ast.print l ++ ' ' :: op.lexeme ++ ' ' :: Ast.print r ++ [')']
def Ast.prints : List Ast → List (List Char)
  | [] => []
  | t :: ts => Ast.print t :: Ast.prints ts
end

end

/-- Results of the parser: what has been parsed, and the current token with the tokens to
come (`tok`, `tokens`). -/
abbrev PR (α : Type) := Ev (α × List Tok)

/-- `raise log.error(…)` -/
def syntaxError {α : Type} : Ev α := .err (.asl "syntax")

/-- `next(tokens)`: the first token in the list is the current one. -/
def advance : List Tok → Ev (List Tok)
  | _ :: t :: ts => .ok (t :: ts)
  | _ => .err (.py "StopIteration")

/-- Is the lexeme of the current token `w`? -/
def at? (w : List Char) : List Tok → Bool
  | t :: _ => t.lexeme = w
  | [] => false

/-- `tok.lexeme == "|"` -/
def orOp (t : Tok) : Option BinOp := if t.lexeme = ['|'] then some .or else none
/-- `tok.lexeme == "&"` -/
def andOp (t : Tok) : Option BinOp := if t.lexeme = ['&'] then some .and else none
/-- `tok.lexeme == "**"` -/
def powOp (t : Tok) : Option BinOp := if t.lexeme = ['*', '*'] then some .pow else none

/-- `tok.token.comp_op`, `lexer.py` 135-142. -/
def compOp (t : Tok) : Option BinOp :=
  match t.kind with
  | .opLe => some .le | .opGe => some .ge | .opNe => some .ne | .opEq => some .eq
  | .opDecompose => some .decompose | .opUnify => some .unify | .opLt => some .lt | .opGt => some .gt
  | _ => none

/-- `tok.token.add_op`, `lexer.py` 125-126. -/
def addOp (t : Tok) : Option BinOp :=
  match t.kind with
  | .opPlus => some .add | .opMinus => some .sub
  | _ => none

/-- `tok.token.mult_op`, `lexer.py` 128-131. -/
def mulOp (t : Tok) : Option BinOp :=
  match t.kind with
  | .opMult => some .mul | .opFdiv => some .truediv | .opDiv => some .floordiv | .opMod => some .mod
  | _ => none

/-- `tok.token.unary_op`, `lexer.py` 125-126. -/
def unaryOp (t : Tok) : Option UnOp :=
  match t.kind with
  | .opPlus => some .pos | .opMinus => some .neg
  | _ => none

/-- The loops of `parse_power`, `parse_product`, `parse_arith_expr`, `parse_and_expr` and
`parse_term`: while the current token is an operator, parse another operand and combine. -/
def leftLoop (op? : Tok → Option BinOp) (sub : List Tok → PR Ast) : Nat → Ast → List Tok → PR Ast
  | _, e, [] => .ok (e, [])
  | 0, _, _ :: _ => .oof
  | k + 1, e, t :: ts =>
    match op? t with
    | none => .ok (e, t :: ts)
    | some op =>
      (advance (t :: ts)).bind fun ts =>
      (sub ts).bind fun (r, ts) => leftLoop op? sub k (.bin op e r) ts

/-- The loop of `parse_comparison`, `parser.py` 615-634: `comparisons`, `rightmost`. -/
def compLoop (sub : List Tok → PR Ast) : Nat → Option Ast → Ast → List Tok → PR Ast
  | _, cs, e, [] => .ok (cs.getD e, [])
  | 0, _, _, _ :: _ => .oof
  | k + 1, cs, e, t :: ts =>
    match compOp t with
    | none => .ok (cs.getD e, t :: ts)
    | some op =>
      (advance (t :: ts)).bind fun ts =>
      (sub ts).bind fun (r, ts) =>
      let c := Ast.bin op e r
      compLoop sub k (some (match cs with | none => c | some cs => .bin .and cs c)) r ts

section
variable [Unicode] [Floats]

mutual

/-- `parse_literal`, `parser.py` 427-467. -/
def parseLiteral : Nat → List Tok → PR Ast
  | 0, _ => .oof
  | n + 1, ts =>
    match ts with
    | [] => .err (.py "StopIteration")
    | t :: _ =>
      if t.kind = .functor then
        (advance ts).bind fun ts =>
        (if at? ['('] ts then parseArgs n [')'] ts else .ok ([], ts)).bind fun (args, ts) =>
        (if at? ['['] ts then parseArgs n [']'] ts else .ok ([], ts)).bind fun (annots, ts) =>
        .ok (.lit t.lexeme args annots, ts)
      else syntaxError

/-- The loops over arguments and annotations, `parser.py` 439-450 and 453-465.  The current
token is the one before the first argument. -/
def parseArgs : Nat → List Char → List Tok → PR (List Ast)
  | 0, _, _ => .oof
  | n + 1, close, ts =>
    (advance ts).bind fun ts =>
    (parseTerm n ts).bind fun (t, ts) =>
    if at? close ts then (advance ts).bind fun ts => .ok ([t], ts)
    else if at? [','] ts then (parseArgs n close ts).bind fun (rest, ts) => .ok (t :: rest, ts)
    else syntaxError

/-- The loop of `parse_list`, `parser.py` 479-499; `acc` is `ast_list.terms`. -/
def parseItems : Nat → List Ast → List Tok → PR Ast
  | 0, _, _ => .oof
  | n + 1, acc, ts =>
    if at? [']'] ts then (advance ts).bind fun ts => .ok (.list acc, ts)
    else
      (parseAnd n ts).bind fun (t, ts) =>
      if at? ['|'] ts then
        if (acc ++ [t]).length > 1 then syntaxError
        else (parseTail n ts).bind fun (tail, ts) => .ok (.linked t tail, ts)
      else if at? [','] ts then (advance ts).bind fun ts => parseItems n (acc ++ [t]) ts
      else if at? [']'] ts then parseItems n (acc ++ [t]) ts
      else syntaxError

/-- `parse_list`, `parser.py` 470-499. -/
def parseList : Nat → List Tok → PR Ast
  | 0, _ => .oof
  | n + 1, ts => if at? ['['] ts then (advance ts).bind fun ts => parseItems n [] ts else syntaxError

/-- `parse_linked_list_tail`, `parser.py` 502-519. -/
def parseTail : Nat → List Tok → PR Ast
  | 0, _ => .oof
  | n + 1, ts =>
    if at? ['|'] ts then
      (advance ts).bind fun ts =>
      (parseAnd n ts).bind fun (t, ts) =>
      if at? ['|'] ts then (parseTail n ts).bind fun (tail, ts) => .ok (.linked t tail, ts)
      else if at? [']'] ts then (advance ts).bind fun ts => .ok (t, ts)
      else syntaxError
    else syntaxError

/-- `parse_atom`, `parser.py` 522-555. -/
def parseAtom : Nat → List Tok → PR Ast
  | 0, _ => .oof
  | n + 1, ts =>
    match ts with
    | [] => .err (.py "StopIteration")
    | t :: _ =>
      if t.kind = .var then (advance ts).bind fun ts => .ok (.var t.lexeme, ts)
      else if t.kind = .functor then parseLiteral n ts
      else if t.lexeme = ['['] then parseList n ts
      else if t.lexeme = ['('] then
        (advance ts).bind fun ts =>
        (parseTerm n ts).bind fun (e, ts) =>
        if at? [')'] ts then (advance ts).bind fun ts => .ok (e, ts) else syntaxError
      else if t.kind = .numeric then (advance ts).bind fun ts => .ok (.const (.num (Floats.read t.lexeme)), ts)
      else if t.kind = .litTrue then (advance ts).bind fun ts => .ok (.const (.bool true), ts)
      else if t.kind = .litFalse then (advance ts).bind fun ts => .ok (.const (.bool false), ts)
      else if t.kind = .string then
        (parseString t.lexeme).bind fun s => (advance ts).bind fun ts => .ok (.const (.str s), ts)
      else syntaxError

/-- `parse_power`, `parser.py` 558-569. -/
def parsePower : Nat → List Tok → PR Ast
  | 0, _ => .oof
  | n + 1, ts => (parseAtom n ts).bind fun (e, ts) => leftLoop powOp (parseFactor n) ts.length e ts

/-- `parse_factor`, `parser.py` 572-581. -/
def parseFactor : Nat → List Tok → PR Ast
  | 0, _ => .oof
  | n + 1, ts =>
    match ts with
    | [] => .err (.py "StopIteration")
    | t :: _ =>
      match unaryOp t with
      | some op => (advance ts).bind fun ts => (parseFactor n ts).bind fun (e, ts) => .ok (.un op e, ts)
      | none => parsePower n ts

/-- `parse_product`, `parser.py` 584-595. -/
def parseProduct : Nat → List Tok → PR Ast
  | 0, _ => .oof
  | n + 1, ts => (parseFactor n ts).bind fun (e, ts) => leftLoop mulOp (parseFactor n) ts.length e ts

/-- `parse_arith_expr`, `parser.py` 598-609. -/
def parseArith : Nat → List Tok → PR Ast
  | 0, _ => .oof
  | n + 1, ts => (parseProduct n ts).bind fun (e, ts) => leftLoop addOp (parseProduct n) ts.length e ts

/-- `parse_comparison`, `parser.py` 612-634. -/
def parseComparison : Nat → List Tok → PR Ast
  | 0, _ => .oof
  | n + 1, ts => (parseArith n ts).bind fun (e, ts) => compLoop (parseArith n) ts.length none e ts

/-- `parse_not_expr`, `parser.py` 637-646. -/
def parseNot : Nat → List Tok → PR Ast
  | 0, _ => .oof
  | n + 1, ts =>
    if at? ['n', 'o', 't'] ts then
      (advance ts).bind fun ts => (parseNot n ts).bind fun (e, ts) => .ok (.un .not e, ts)
    else parseComparison n ts

/-- `parse_and_expr`, `parser.py` 649-661. -/
def parseAnd : Nat → List Tok → PR Ast
  | 0, _ => .oof
  | n + 1, ts => (parseNot n ts).bind fun (e, ts) => leftLoop andOp (parseNot n) ts.length e ts

/-- `parse_term`, `parser.py` 664-676. -/
def parseTerm : Nat → List Tok → PR Ast
  | 0, _ => .oof
  | n + 1, ts => (parseAnd n ts).bind fun (e, ts) => leftLoop orOp (parseAnd n) ts.length e ts

end

/-- The tokens that the parser gets: illegal characters are only logged. -/
def toksOf (evs : List LexEv) : List Tok := evs.filterMap fun | .tok t => some t | .illegal _ _ => none

end

end Verif
