import Verif.Model.Term

/-!
# Python comparison of terms

`==` and `<` of the term classes: `Literal.__eq__ … __ge__`
(`agentspeak/__init__.py` 711-764), `LinkedList.__eq__ … __ge__` (832-848), and
Python's own rules for `bool`, numbers, `str` and `tuple`.
-/

namespace Verif

/-- `tuple(t)` / `for x in t`: the items of an iterable term.  `LinkedList.__iter__`
(`agentspeak/__init__.py` 827-830) yields the head and then iterates over the tail;
strings iterate over their characters; everything else is not iterable
(`TypeError`). -/
def iter : Term → Ev (List Term)
  | .tup xs => .ok xs
  | .cons h t => (iter t).map (h :: ·)
  | .str s => .ok (s.toList.map fun c => .str (String.ofList [c]))
  | _ => .err (.py "TypeError")

/-- Numeric value of numbers and booleans (Python: `True == 1`). -/
def numVal : Term → Option Rat
  | .bool b => some (if b then 1 else 0)
  | .num q => some q
  | _ => none

/-- Elementwise comparison of two tuples: Python compares items in order until the
first difference and then compares the lengths. -/
def tupEq (f : Term → Term → Ev Bool) : List Term → List Term → Ev Bool
  | [], [] => .ok true
  | x :: xs, y :: ys => (f x y).bind fun b => if b then tupEq f xs ys else .ok false
  | _, _ => .ok false

/-- `x in s` for a Python set `s`.  Python only compares elements with equal hash;
a comparison that would raise is modelled as "not equal" (see DESIGN.md). -/
def memBy (f : Term → Term → Ev Bool) (x : Term) : List Term → Ev Bool
  | [] => .ok false
  | y :: ys =>
    match f x y with
    | .ok true => .ok true
    | .oof => .oof
    | _ => memBy f x ys

/-- Equality of two frozensets: each is included in the other. -/
def setEq (f : Term → Term → Ev Bool) (xs ys : List Term) : Ev Bool :=
  (Ev.allL (memBy f · ys) xs).bind fun b => if b then Ev.allL (memBy f · xs) ys else .ok false

/-- Python `==` on terms, one level: `rec` compares items.  `Literal.__ne__` 714-720,
`LinkedList.__ne__` 835-836 (`is_list(other)` and equal items; iterating over an
improper tail raises `TypeError`); variables, wildcards and expressions compare by
identity — here wildcards and expressions are never equal, they do not occur in ground
terms. -/
def pyEqStep (rec : Term → Term → Ev Bool) (a b : Term) : Ev Bool :=
  match numVal a, numVal b with
  | some p, some q => .ok (decide (p = q))
  | some _, none => .ok false
  | none, some _ => .ok false
  | none, none =>
    match a, b with
    | .str s, .str t => .ok (decide (s = t))
    | .lit f as xs, .lit g bs ys =>
      if f = g then
        (tupEq rec as bs).bind fun e => if e then setEq rec xs ys else .ok false
      else .ok false
    | .var x, .var y => .ok (decide (x = y))
    | .tup xs, .tup ys => tupEq rec xs ys
    | .tup xs, .cons h t => (iter (.cons h t)).bind fun ys => tupEq rec ys xs
    | .cons h t, .tup ys => (iter (.cons h t)).bind fun xs => tupEq rec xs ys
    | .cons h t, .cons h' t' =>
      (iter (.cons h t)).bind fun xs => (iter (.cons h' t')).bind fun ys => tupEq rec xs ys
    | _, _ => .ok false

/-- Python `==` on terms. -/
def pyEq : Nat → Term → Term → Ev Bool
  | 0, _, _ => .oof
  | n + 1, a, b => pyEqStep (pyEq n) a b

/-- Tuple ordering: the first items that are not equal decide; otherwise the
lengths.  `strict = true` is `<`, `false` is `<=`. -/
def tupLt (eq lt : Term → Term → Ev Bool) (strict : Bool) : List Term → List Term → Ev Bool
  | [], [] => .ok (!strict)
  | [], _ :: _ => .ok true
  | _ :: _, [] => .ok false
  | x :: xs, y :: ys => (eq x y).bind fun e => if e then tupLt eq lt strict xs ys else lt x y

/-- Python `<` (`strict`) and `<=` on terms, one level: `Literal.__lt__`/`__le__`
722-742, `LinkedList.__lt__`/`__le__` 838-842.  Unordered types raise `TypeError`.
`eq` and `rec` compare items. -/
def pyLtStep (eq rec : Term → Term → Ev Bool) (strict : Bool) (a b : Term) : Ev Bool :=
  match numVal a, numVal b with
  | some p, some q => .ok (if strict then decide (p < q) else decide (p ≤ q))
  | some _, none => .err (.py "TypeError")
  | none, some _ => .err (.py "TypeError")
  | none, none =>
    match a, b with
    | .str s, .str t => .ok (if strict then decide (s < t) else decide (s ≤ t))
    | .lit f as xs, .lit g bs ys =>
      if (Term.lit f as xs).isAtom && (Term.lit g bs ys).isAtom then
        .ok (if strict then decide (f < g) else decide (f ≤ g))
      else if f ≠ g ∨ as.length ≠ bs.length then .err (.py "TypeError")
      else tupLt eq rec strict as bs
    | .tup xs, .tup ys => tupLt eq rec strict xs ys
    | .tup xs, .cons h t =>
      (iter (.cons h t)).bind fun ys => tupLt eq rec strict xs ys
    | .cons h t, .tup ys =>
      (iter (.cons h t)).bind fun xs => tupLt eq rec strict xs ys
    | .cons h t, .cons h' t' =>
      (iter (.cons h t)).bind fun xs => (iter (.cons h' t')).bind fun ys =>
        tupLt eq rec strict xs ys
    | _, _ => .err (.py "TypeError")

/-- Python `<` (`strict`) and `<=` on terms. -/
def pyLt : Nat → Bool → Term → Term → Ev Bool
  | 0, _, _, _ => .oof
  | n + 1, strict, a, b => pyLtStep (pyEq n) (pyLt n strict) strict a b

/-- The functions `operator.lt … operator.gt` of the comparison operators,
`agentspeak/__init__.py` 282-287.  `a > b` is `b < a`: Python's reflected methods
of the term classes are mirror images of each other. -/
def pyCompare (n : Nat) (op : BinOp) (a b : Term) : Ev Bool :=
  match op with
  | .eq => pyEq n a b
  | .ne => (pyEq n a b).map (!·)
  | .lt => pyLt n true a b
  | .le => pyLt n false a b
  | .gt => pyLt n true b a
  | .ge => pyLt n false b a
  | _ => .err (.py "TypeError")

mutual
/-- Size of a term; `pyEq`, `pyLt` never need more fuel than the sizes of their arguments. -/
def Term.size : Term → Nat
  | .lit _ args annots => 1 + Term.sizeL args + Term.sizeL annots
  | .tup xs => 1 + Term.sizeL xs
  | .cons h t => 1 + Term.size h + Term.size t
  | .un _ t => 1 + Term.size t
  | .bin _ l r => 1 + Term.size l + Term.size r
  | .str s => 1 + s.length
  | _ => 1
def Term.sizeL : List Term → Nat
  | [] => 0
  | t :: ts => 1 + Term.size t + Term.sizeL ts
end

/-- `a == b` as a decision, with fuel that is always sufficient. -/
def pyEqB (a b : Term) : Bool :=
  match pyEq (a.size + b.size) a b with
  | .ok true => true
  | _ => false

/-- `frozenset(xs)` / `set(xs)`: later duplicates (w.r.t. `==`) are dropped. -/
def pySet : List Term → List Term
  | [] => []
  | x :: xs => x :: (pySet xs).filter fun y => !pyEqB x y

/-- `s.add(x)` / `s | {x}` on a Python set: nothing happens if an equal element is
present (the old element is kept). -/
def pySetAdd (s : List Term) (x : Term) : List Term :=
  if s.any (pyEqB · x) then s else s ++ [x]

end Verif
