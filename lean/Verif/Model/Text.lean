import Verif.Model.Build

/-!
# The text of a plan (`agentspeak/runtime.py` 222-289, 731-754)

`_ask_how` answers with the text of a plan, made by `plan_to_str` from the runtime terms of
the head and the context, and from the syntax tree of the body.
-/

namespace Verif

/-- What depends on the host: addresses of objects, and the texts of numbers and tuples that
Python makes (`str`, not `asl_repr`). -/
structure Wording where
  /-- `hashlib.md5(str(id(var)))`, the first three hexadecimal digits -/
  digest : VarId → List Char
  /-- `"%x" % id(var)` -/
  addr : VarId → List Char
  /-- `"%x" % id(query)`; the same for all queries -/
  object : List Char
  /-- `str(x)` of a number -/
  float : Rat → List Char
  /-- `str(x)` of a tuple -/
  tuple : List Term → List Char

/-- `Var.asl_repr`, `agentspeak/__init__.py` 465-469. -/
def Wording.var (W : Wording) (v : VarId) : List Char := "_X_".toList ++ W.digest v ++ '_' :: W.addr v

/-- The default `str` of an object, for classes without `__str__`. -/
def Wording.default (W : Wording) (cls : String) : List Char :=
  "<agentspeak.runtime.".toList ++ cls.toList ++ " object at 0x".toList ++ W.object ++ ['>']

section
variable [Floats]

mutual
/-- `asl_repr`, `agentspeak/__init__.py` 338-359, 465-471, 496-499, 538-541, 589-596, 693-706,
813-822.  The annotations, a set, are printed in the order in which they were written. -/
def Term.show (W : Wording) : Term → List Char
  | .bool b => (ConstV.bool b).print
  | .num q => (ConstV.num (.fin q)).print
  | .str s => reprString (s.toList.map Char.toNat)
  | .lit f ts as =>
    f.toList ++ (if ts.isEmpty then [] else '(' :: joinComma (Term.shows W ts) ++ [')']) ++
      (if as.isEmpty then [] else '[' :: joinComma (Term.shows W as) ++ [']'])
  | .tup ts => '[' :: joinComma (Term.shows W ts) ++ [']']
  | .cons h t => '[' :: Term.show W h ++ '|' :: Term.show W t ++ [']']
  | .var v => W.var v
  | .wild => ['_']
  | .un op a => '(' :: op.lexeme ++ ' ' :: Term.show W a ++ [')']
  | .bin op l r => '(' :: Term.show W l ++ ' ' :: op.lexeme ++ ' ' :: Term.show W r ++ [')']
def Term.shows (W : Wording) : List Term → List (List Char)
  | [] => []
  | t :: ts => Term.show W t :: Term.shows W ts
end

/-- `str(term)`: the same for objects with `__str__ = asl_repr`. -/
def Term.pyStr (W : Wording) : Term → List Char
  | .bool true => "True".toList
  | .bool false => "False".toList
  | .num q => W.float q
  | .str s => s.toList
  | .tup ts => W.tuple ts
  | t => t.show W

/-- `str(query)`, `runtime.py` 227-228 (`TermQuery`), 241-242 (`AndQuery`), 257-258 (`OrQuery`),
276-277 (`NotQuery`, which takes `query.term`), 288-289 (`UnifyQuery`); `TrueQuery`,
`FalseQuery` and `ActionQuery` have no `__str__`. -/
def Query.show (W : Wording) : Query Act → Ev (List Char)
  | .tru => .ok (W.default "TrueQuery")
  | .fls => .ok (W.default "FalseQuery")
  | .act _ _ => .ok (W.default "ActionQuery")
  | .term t => .ok (t.pyStr W)
  | .and l r => (Query.show W l).bind fun u => (Query.show W r).bind fun v => .ok ('(' :: u ++ " & ".toList ++ v ++ [')'])
  | .or l r => (Query.show W l).bind fun u => (Query.show W r).bind fun v => .ok ('(' :: u ++ " | ".toList ++ v ++ [')'])
  | .not (.term t) | .not (.act _ t) => .ok ("not ".toList ++ t.pyStr W)
  | .not _ => .err (.py "AttributeError")
  | .unify l r => .ok ('(' :: l.pyStr W ++ " = ".toList ++ r.pyStr W ++ [')'])

/-- `[0-9a-fA-F]` -/
def isHex (c : Char) : Bool := c.isDigit || ('a' ≤ c && c ≤ 'f') || ('A' ≤ c && c ≤ 'F')

/-- The length of a match of `_X_[0-9a-fA-F]{3}_[0-9a-fA-F]+` at the beginning of the text; 0 if
there is none. -/
def varMatch : List Char → Nat
  | '_' :: 'X' :: '_' :: a :: b :: c :: '_' :: d :: r =>
    if isHex a && isHex b && isHex c && isHex d then 8 + (r.takeWhile isHex).length else 0
  | _ => 0

/-- `re.sub(pattern, lambda m: plan.args.pop(0), text)`, `runtime.py` 743: the text and what is
left of `plan.args`.  `skip` characters belong to the match before. -/
def subVars (skip : Nat) : List Char → List (List Char) → Ev (List Char × List (List Char))
  | [], args => .ok ([], args)
  | c :: u, args =>
    match skip with
    | k + 1 => subVars k u args
    | 0 =>
      match varMatch (c :: u), args with
      | 0, args => (subVars 0 u args).bind fun (v, args) => .ok (c :: v, args)
      | _ + 1, [] => .err (.py "IndexError")
      | m + 1, a :: args => (subVars m u args).bind fun (v, args) => .ok (a ++ v, args)

/-- `ast.terms` -/
def Ast.terms : Ast → List Ast
  | .lit _ ts _ => ts
  | .list ts => ts
  | _ => []

/-- `plan.args`, `runtime.py` 804 and 547, before it is printed. -/
def planArgs (head : Ast) : List Ast := head.terms ++ head.annotations.flatMap Ast.terms

/-- `len(plan.head.args)`, the number is not 0. -/
def Term.hasArgs : Term → Bool
  | .lit _ (_ :: _) _ => true
  | _ => false

/-- The context in `plan_to_str`, `runtime.py` 735-738. -/
def Query.context (W : Wording) : Query Act → Ev (List Char)
  | .tru => .ok "true".toList
  | c => c.show W

/-- The body in `plan_to_str`: `str(plan.str_body)`. -/
def bodyStr : Option (List AStmt) → List Char
  | some b => printBody b
  | none => "None".toList

/-- The label in `plan_to_str`, `runtime.py` 747-754. -/
def labelStr : Option Ast → List Char
  | some l => '@' :: l.print ++ [' ']
  | none => []

/-- `plan_to_str`, `runtime.py` 731-754, for the plan `q` that has been built from `p`, with
`args` left in `plan.args`: the text, and what is left then. -/
def planToStr (W : Wording) (p : APlan) (q : PlanSrc) (args : List (List Char)) : Ev (List Char × List (List Char)) :=
  (if q.head.hasArgs then subVars 0 (q.head.show W) args else .ok (q.head.show W, args)).bind fun (head, args) =>
  (q.context.context W).bind fun context =>
  .ok (labelStr p.label ++ q.trigger.lexeme ++ q.goalType.lexeme ++ head ++ " : ".toList ++ context ++ " <- ".toList ++ bodyStr p.body ++ ['.'], args)

end

end Verif
