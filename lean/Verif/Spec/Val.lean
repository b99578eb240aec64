import Verif.Model.Eval

/-!
# Specification: what terms mean

An independent, declarative semantics used to state what unification, evaluation and
queries should do.  Values are finite trees; annotations are not part of a value
(AgentSpeak unification ignores them); lists are cons cells, so `[1|[2]]` and `[1,2]`
are the same value; numbers are equal if their values are equal; `true`/`false` are
different from all numbers.
-/

namespace Verif

/-- Values.  The arguments of a structure `f(v₁, …, vₙ)` are given as the list value
`[v₁, …, vₙ]`. -/
inductive Val where
  | bool (b : Bool)
  | num (q : Rat)
  | str (s : String)
  | app (f : String) (args : Val)
  | nil
  | cons (head tail : Val)
deriving DecidableEq, Repr, Inhabited

namespace Val

/-- The list value with the given items. -/
def ofList : List Val → Val
  | [] => .nil
  | v :: vs => .cons v (ofList vs)

/-- Meaning of the unary operators. -/
def unSem : UnOp → Val → Option Val
  | .not, .bool b => some (.bool (!b))
  | .pos, .num q => some (.num q)
  | .neg, .num q => some (.num (-q))
  | _, _ => none

/-- A string in tail position of a list counts as the list of its characters. -/
def tailList : Val → Val
  | .str s => ofList (s.toList.map fun c => .str (String.ofList [c]))
  | v => v

/-- Representative of the values that are `==` to a value: `true`/`false` become 1/0. -/
def norm : Val → Val
  | .bool b => .num (if b then 1 else 0)
  | .num q => .num q
  | .str s => .str s
  | .app f args => .app f (norm args)
  | .nil => .nil
  | .cons h t => .cons (norm h) (tailList (norm t))

/-- Length of a list value. -/
def len : Val → Nat
  | .cons _ t => len t + 1
  | _ => 0

/-- The order on normalised values: numbers and strings as usual, lists
lexicographically, atoms by name, structures with the same name and arity by their
arguments; everything else is not comparable.  `strict` distinguishes `<` and `<=`. -/
def lt (strict : Bool) : Val → Val → Option Bool
  | .num p, .num q => some (if strict then decide (p < q) else decide (p ≤ q))
  | .str s, .str t => some (if strict then decide (s < t) else decide (s ≤ t))
  | .nil, .nil => some (!strict)
  | .nil, .cons _ _ => some true
  | .cons _ _, .nil => some false
  | .cons h t, .cons h' t' => if h = h' then lt strict t t' else lt strict h h'
  | .app f a, .app g b =>
    if a = .nil ∧ b = .nil then some (if strict then decide (f < g) else decide (f ≤ g))
    else if f ≠ g ∨ a.len ≠ b.len then none
    else lt strict a b
  | _, _ => none

/-- Meaning of the comparison operators. -/
def cmp (op : BinOp) (a b : Val) : Option Bool :=
  match op with
  | .eq => some (decide (a.norm = b.norm))
  | .ne => some (decide (a.norm ≠ b.norm))
  | .lt => lt true a.norm b.norm
  | .le => lt false a.norm b.norm
  | .gt => lt true b.norm a.norm
  | .ge => lt false b.norm a.norm
  | _ => none

/-- Meaning of the binary operators. -/
def binSem [Arith] (op : BinOp) (a b : Val) : Option Val :=
  if op.compOp then (cmp op a b).map .bool
  else match op, a, b with
    | .and, .bool p, .bool q => some (.bool (p && q))
    | .or, .bool p, .bool q => some (.bool (p || q))
    | op, .num p, .num q => if op.numericOp then (Arith.bin op p q).map .num else none
    | _, _, _ => none

end Val

mutual
/-- The value of a ground, expression-free term: its structure without annotations. -/
def Term.val : Term → Option Val
  | .bool b => some (.bool b)
  | .num q => some (.num q)
  | .str s => some (.str s)
  | .lit f args _ => (Term.valL args).map (.app f)
  | .tup xs => Term.valL xs
  | .cons h t => (Term.val h).bind fun a => (Term.val t).map (.cons a)
  | .var _ | .wild | .un _ _ | .bin _ _ _ => none
/-- The list value of a sequence of ground terms. -/
def Term.valL : List Term → Option Val
  | [] => some .nil
  | t :: ts => (Term.val t).bind fun a => (Term.valL ts).map (.cons a)
end

/-- An assignment of values to variables. -/
abbrev Asg := VarId → Val

mutual
/-- `Den σ t v`: under the assignment `σ`, the term `t` can denote the value `v`.
A wildcard can denote anything; an expression denotes the result of its operator
(nothing, if the operands have the wrong type or arithmetic fails); annotations are
ignored. -/
def Den [Arith] (σ : Asg) : Term → Val → Prop
  | .bool b, v => v = .bool b
  | .num q, v => v = .num q
  | .str s, v => v = .str s
  | .lit f args _, v => ∃ w, DenL σ args w ∧ v = .app f w
  | .tup xs, v => DenL σ xs v
  | .cons h t, v => ∃ a w, Den σ h a ∧ Den σ t w ∧ v = .cons a w
  | .var x, v => v = σ x
  | .wild, _ => True
  | .un op t, v => ∃ a, Den σ t a ∧ Val.unSem op a = some v
  | .bin op l r, v => ∃ a b, Den σ l a ∧ Den σ r b ∧ Val.binSem op a b = some v
/-- A sequence of terms denotes a list value. -/
def DenL [Arith] (σ : Asg) : List Term → Val → Prop
  | [], v => v = .nil
  | t :: ts, v => ∃ a w, Den σ t a ∧ DenL σ ts w ∧ v = .cons a w
end

/-- `σ` is consistent with the bindings of a scope: every binding holds as an equation. -/
def Models [Arith] (σ : Asg) (sc : Scope) : Prop :=
  ∀ x t, sc x = some t → Den σ t (σ x)

/-- `σ` makes `l` and `r` the same value. -/
def Agree [Arith] (σ : Asg) (l r : Term) : Prop :=
  ∃ v, Den σ l v ∧ Den σ r v

mutual
/-- Syntactic condition on terms, looking through everything except annotations:
`okNode t` holds at every node. -/
def Term.Every (okNode : Term → Prop) : Term → Prop
  | .lit f args annots => okNode (.lit f args annots) ∧ Term.EveryL okNode args
  | .tup xs => okNode (.tup xs) ∧ Term.EveryL okNode xs
  | .cons h t => okNode (.cons h t) ∧ Term.Every okNode h ∧ Term.Every okNode t
  | .un op t => okNode (.un op t) ∧ Term.Every okNode t
  | .bin op l r => okNode (.bin op l r) ∧ Term.Every okNode l ∧ Term.Every okNode r
  | t => okNode t
def Term.EveryL (okNode : Term → Prop) : List Term → Prop
  | [] => True
  | t :: ts => Term.Every okNode t ∧ Term.EveryL okNode ts
end

/-- No wildcard occurs (outside annotations). -/
def Term.NoWild : Term → Prop := Term.Every (· ≠ .wild)

/-- No variable, wildcard or expression occurs (outside annotations). -/
def Term.Closed : Term → Prop := Term.Every fun t =>
  match t with
  | .var _ | .wild | .un _ _ | .bin _ _ _ => False
  | _ => True

/-- No literal carries annotations. -/
def Term.NoAnnots : Term → Prop := Term.Every fun t =>
  match t with
  | .lit _ _ (_ :: _) => False
  | _ => True

/-- No comparison expression (`<`, `<=`, `==`, `\==`, `>=`, `>`) occurs. -/
def Term.NoCmp : Term → Prop := Term.Every fun t =>
  match t with
  | .bin op _ _ => op.compOp = false
  | _ => True

/-- Side condition of the logical theorems.  Python's comparison operators look at
annotations while unification ignores them, so a term (and every term it is used with)
must be free of comparison expressions (`cmp = false`) or free of annotations
(`cmp = true`). -/
def Term.Tame (cmp : Bool) (t : Term) : Prop := if cmp then t.NoAnnots else t.NoCmp

/-- Scopes whose bound terms are wildcard-free and tame. -/
def ScopeOK (cmp : Bool) (sc : Scope) : Prop :=
  ∀ x t, sc x = some t → t.NoWild ∧ t.Tame cmp

end Verif
