import Verif.Model.Optimize

/-!
# Symbolic unification in the optimiser (`agentspeak/optimizer.py` 1064-1163, 1244-1496)

The pass over plans is not reached (`C62_plans`); here its treatment of a single unification,
of the connectives and of formulas that are conjunctions is modelled.  The nodes are changed in
place; here changed nodes are returned.  The states of the variables come in as a function
`unb` that says which variables are known to be unbound when the unification is visited; the
changes of the states, `vars_written`, `vars_read` and the warnings are left out, except where
an exception comes from there.
-/

namespace Verif

/-- A node `left = right` with its attribute `always_true`. -/
structure SOp where
  left : Ast
  right : Ast
  always : Bool

/-- `l.value == r.value` of two constants in Python: `True == 1` and `False == 0`. -/
def ConstV.sameValue : ConstV → ConstV → Bool
  | .bool a, .num (.fin q) | .num (.fin q), .bool a => decide (q = if a then 1 else 0)
  | v, w => decide (v = w)

/-- `'_Inf_%d' % next(inference_unique_counter)`, `optimizer.py` 1428. -/
def infName (k : Nat) : List Char := "_Inf_".toList ++ Nat.toDigits 10 k

mutual
/-- `constify_literal`, `optimizer.py` 1410-1440: the node with new variables for everything
that is not a variable, a constant or a literal, and the unifications that define them.  `k` is the
next value of the counter. -/
def constify : Ast → Nat → Ast × List SOp × Nat
  | .const v, k => (.const v, [], k)
  | .var x, k => (.var x, [], k)
  | .lit f ts as, k => (.lit f (constifyL ts k).1 as, (constifyL ts k).2)
  | .list ts, k => (.var (infName k), [⟨.var (infName k), .list ts, true⟩], k + 1)
  | .linked h t, k => (.var (infName k), [⟨.var (infName k), .linked h t, true⟩], k + 1)
  | .un op a, k => (.var (infName k), [⟨.var (infName k), .un op a, true⟩], k + 1)
  | .bin op l r, k => (.var (infName k), [⟨.var (infName k), .bin op l r, true⟩], k + 1)
/-- The loop over the terms, `optimizer.py` 1420-1424. -/
def constifyL : List Ast → Nat → List Ast × List SOp × Nat
  | [], k => ([], [], k)
  | t :: ts, k =>
    ((constify t k).1 :: (constifyL ts (constify t k).2.2).1,
     (constify t k).2.1 ++ (constifyL ts (constify t k).2.2).2.1, (constifyL ts (constify t k).2.2).2.2)
end

mutual
/-- `collect_literal_variables_all`, `optimizer.py` 1786-1801: is there any? -/
def Ast.hasVars : Ast → Bool
  | .var _ => true
  | .lit _ ts as => Ast.hasVarsL ts || Ast.hasVarsL as
  | _ => false
def Ast.hasVarsL : List Ast → Bool
  | [] => false
  | t :: ts => Ast.hasVars t || Ast.hasVarsL ts
end

/-- The literals with which annotations are compared, `optimizer.py` 1351-1364. -/
def dummyOp (as bs : List Ast) : SOp := ⟨.lit "_inf_dummy".toList [] as, .lit "_inf_dummy".toList [] bs, false⟩

/-- The node stays as it is; but no case applies to a linked list, also with the sides swapped,
and `assert level < 2` fails, `optimizer.py` 1270 and 1405-1408. -/
def keepOp (l r : Ast) (k : Nat) : Ev (List SOp × Nat) :=
  match r with
  | .linked _ _ => .err (.py "AssertionError")
  | _ => .ok ([⟨l, r, false⟩], k)

mutual
/-- `_symbolic_unify_helper`, `optimizer.py` 1269-1408, with the case of swapped sides at its
place.  If two literals have annotations and a variable, then `exclude_bound` looks for a node in
a dict with names as keys. -/
def splitUnify (unb : List Char → Bool) : Ast → Ast → Nat → Ev (List SOp × Nat)
  | .linked _ _, _, _ => .err (.py "AssertionError")
  | .var x, r, k =>
    match r with
    | .linked _ _ => .err (.py "AssertionError")
    | .var y => .ok ([⟨.var x, .var y, unb x || unb y⟩], k)
    | .lit g us bs => .ok ((constify (.lit g us bs) k).2.1 ++ [⟨.var x, (constify (.lit g us bs) k).1, unb x⟩], (constify (.lit g us bs) k).2.2)
    | r => .ok ([⟨.var x, r, unb x⟩], k)
  | .lit f ts as, r, k =>
    match r with
    | .var y => .ok ((constify (.lit f ts as) k).2.1 ++ [⟨(constify (.lit f ts as) k).1, .var y, unb y⟩], (constify (.lit f ts as) k).2.2)
    | .lit g us bs =>
      if f ≠ g ∨ ts.length ≠ us.length ∨ as.length > bs.length then .ok ([⟨.lit f ts as, .lit g us bs, false⟩], k)
      else
        (splitAll unb ts us k).bind fun p =>
          if as = [] then .ok p
          else if (Ast.lit f ts as).hasVars || (Ast.lit g us bs).hasVars then .err (.py "KeyError")
          else .ok (p.1 ++ [dummyOp as bs], p.2)
    | r => keepOp (.lit f ts as) r k
  | .const v, r, k =>
    match r with
    | .var y => .ok ([⟨.const v, .var y, unb y⟩], k)
    | .const w => .ok (if v.sameValue w then [] else [⟨.const v, .const w, false⟩], k)
    | r => keepOp (.const v) r k
  | .un op a, r, k =>
    match r with
    | .var y => .ok ([⟨.un op a, .var y, unb y⟩], k)
    | r => keepOp (.un op a) r k
  | .bin op a b, r, k =>
    match r with
    | .var y => .ok ([⟨.bin op a b, .var y, unb y⟩], k)
    | r => keepOp (.bin op a b) r k
  | .list ts, r, k =>
    match r with
    | .var y => .ok ([⟨.list ts, .var y, unb y⟩], k)
    | .list us =>
      if ts.length ≠ us.length then .ok ([⟨.list ts, .list us, false⟩], k) else splitAll unb ts us k
    | r => keepOp (.list ts) r k
/-- `list_unify`, `optimizer.py` 1294-1305. -/
def splitAll (unb : List Char → Bool) : List Ast → List Ast → Nat → Ev (List SOp × Nat)
  | t :: ts, us, k =>
    match us with
    | u :: us => (splitUnify unb t u k).bind fun p => (splitAll unb ts us p.2).map fun q => (p.1 ++ q.1, q.2)
    | [] => .ok ([], k)
  | [], _, k => .ok ([], k)
end

/-- The node of the unification. -/
def SOp.node (o : SOp) : Ast := .bin .unify o.left o.right

/-- What is put in place of `l = r`, and its `always_true`: the loop builds the conjunction from
the end of the list, `optimizer.py` 1116-1132. -/
def conjOps : List SOp → Ast × Bool
  | [] => (.const (.bool true), true)
  | [o] => (o.node, o.always)
  | o :: os => (.bin .and o.node (conjOps os).1, o.always && (conjOps os).2)

/-- `symbolic_belief_query` for `l = r`, `optimizer.py` 1116-1132, with sides that have been dereferenced. -/
def symUnify (unb : List Char → Bool) (l r : Ast) (k : Nat) : Ev (Ast × Bool) :=
  (splitUnify unb l r k).map fun p => conjOps p.1

/-- `symbolic_belief_query` for `not l = r`, `optimizer.py` 1138-1152. -/
def symNotUnify (unb : List Char → Bool) (l r : Ast) (k : Nat) : Ev Ast :=
  (symUnify unb l r k).map fun p => if p.2 then .const (.bool false) else .un .not p.1

/-- `symbolic_binary_boolean_op`, `optimizer.py` 1442-1467, with sides that have been dereferenced. -/
def propBool (op : BinOp) (l r : Ast) : Ast :=
  match op, l with
  | .or, .const (.bool true) => .const (.bool true)
  | .or, .const (.bool false) => r
  | .and, .const (.bool false) => .const (.bool false)
  | .and, .const (.bool true) => r
  | op, l => .bin op l r

/-- `expand_and_into_list`, `optimizer.py` 1064-1078: the formulas of the body that replace one
formula. -/
def conjuncts : Ast → List Ast
  | .bin op l r => if op = .and then conjuncts l ++ conjuncts r else [.bin op l r]
  | a => [a]

end Verif
