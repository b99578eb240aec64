import Verif.Model.Eval

/-!
# Unification and backtracking (`agentspeak/__init__.py` 406-413, 416-502, 614-661,
775-792, 877-923)
-/

namespace Verif

/-- Element of `intention.stack`: a bound variable or a choicepoint object. -/
inductive Entry where
  | v (x : VarId)
  | cp (c : Nat)
deriving DecidableEq, Repr

/-- The part of an intention that unification works on: `scope`, `stack`
(`runtime.py` 340-341; the top of the stack is the head of the list) and a counter
that gives every `object()` choicepoint a new identity. -/
structure BSt where
  scope : Scope
  stack : List Entry
  ncp : Nat

namespace BSt

/-- Fresh `Intention()`: empty scope, empty stack. -/
def init : BSt := ⟨Scope.empty, [], 0⟩

/-- `choicepoint = object()` -/
def newCp (b : BSt) : Nat × BSt := (b.ncp, { b with ncp := b.ncp + 1 })

/-- `stack.append(choicepoint)` -/
def pushCp (b : BSt) (c : Nat) : BSt := { b with stack := .cp c :: b.stack }

/-- The state after `choicepoint = object(); stack.append(choicepoint)`; the choicepoint
is `b.ncp`. -/
abbrev mark (b : BSt) : BSt := b.newCp.2.pushCp b.newCp.1

end BSt

/-- The loop of `reroll`, `agentspeak/__init__.py` 406-413: pop entries until the
choicepoint itself has been popped (or the stack is empty); popped variables become
unbound, other choicepoints are ignored. -/
def rerollGo (c : Nat) : Scope → List Entry → Scope × List Entry
  | sc, [] => (sc, [])
  | sc, .cp d :: rest => if d = c then (sc, rest) else rerollGo c sc rest
  | sc, .v x :: rest => rerollGo c (sc.erase x) rest

/-- `reroll`, `agentspeak/__init__.py` 406-413. -/
def reroll (b : BSt) (c : Nat) : BSt :=
  let r := rerollGo c b.scope b.stack
  { b with scope := r.1, stack := r.2 }

/-- `Var.bind`, `agentspeak/__init__.py` 455-463. -/
def bindVar (x : VarId) (t : Term) (b : BSt) : Res BSt Unit :=
  match t with
  | .var y =>
    if y = x then .ok () b
    else match b.scope x with
      | some _ => .err (.py "RuntimeError") b
      | none => .ok () { b with scope := b.scope.set x t, stack := .v x :: b.stack }
  | t =>
    match b.scope x with
    | some _ => .err (.py "RuntimeError") b
    | none => .ok () { b with scope := b.scope.set x t, stack := .v x :: b.stack }

/-- `all(unify(l, r, scope, stack) for l, r in zip(ls, rs))`: `zip` stops at the
shorter list, `all` at the first failure; bindings made before stay. -/
def unifyAll (f : Term → Term → BSt → Res BSt Bool) : List Term → List Term → BSt → Res BSt Bool
  | l :: ls, r :: rs, b => (f l r b).bind fun ok b' => if ok then unifyAll f ls rs b' else .ok false b'
  | _, _, b => .ok true b

/-- `Var.unify`, `agentspeak/__init__.py` 417-425.  `rec` is the recursive call of
the function `unify`. -/
def varUnify [Arith] (n : Nat) (rec : Term → Term → BSt → Res BSt Bool)
    (x : VarId) (right : Term) (b : BSt) : Res BSt Bool :=
  match b.scope x with
  | some _ => (Res.lift (deref n b.scope (.var x)) b).bind fun t b => rec t right b
  | none =>
    match right with
    | .wild => .ok true b
    | right =>
      (Res.lift (evaluate n b.scope right) b).bind fun t b =>
        (bindVar x t b).bind fun _ b => .ok true b

/-- `Literal.unify`, `agentspeak/__init__.py` 614-628 (annotations are ignored). -/
def litUnify [Arith] (n : Nat) (rec : Term → Term → BSt → Res BSt Bool)
    (f : String) (args annots : List Term) (right : Term) (b : BSt) : Res BSt Bool :=
  (Res.lift (evaluate n b.scope right) b).bind fun right b =>
    match right with
    | .var y => varUnify n rec y (.lit f args annots) b
    | .wild => .ok true b
    | .lit g args' _ =>
      if f ≠ g then .ok false b
      else if args.length ≠ args'.length then .ok false b
      else unifyAll rec args args' b
    | _ => .ok false b

/-- `LinkedList.unify`, `agentspeak/__init__.py` 775-792. -/
def consUnify [Arith] (n : Nat) (rec : Term → Term → BSt → Res BSt Bool)
    (h t : Term) (right : Term) (b : BSt) : Res BSt Bool :=
  (Res.lift (evaluate n b.scope right) b).bind fun right b =>
    match right with
    | .var y => varUnify n rec y (.cons h t) b
    | .wild => .ok true b
    | .tup [] => .ok false b
    | .tup (x :: xs) =>
      (rec h x b).bind fun ok b => if ok then rec t (.tup xs) b else .ok false b
    | .cons h' t' =>
      (rec h h' b).bind fun ok b => if ok then rec t t' b else .ok false b
    | _ => .ok false b

/-- `self.unify(other, scope, stack)` for an object term `self`: `Var.unify` 417-425,
`Wildcard.unify` 478-479, `UnaryExpr.unify` 510-511, `BinaryExpr.unify` 553-554,
`Literal.unify` 614-628, `LinkedList.unify` 775-792.  (Plain values have no method
`unify`; `unify` below never calls this on them.) -/
def methUnify [Arith] (n : Nat) (rec : Term → Term → BSt → Res BSt Bool)
    (self other : Term) (b : BSt) : Res BSt Bool :=
  match self with
  | .var x => varUnify n rec x other b
  | .wild => .ok true b
  | .un op t => (Res.lift (evaluate n b.scope (.un op t)) b).bind fun v b => rec v other b
  | .bin op l r => (Res.lift (evaluate n b.scope (.bin op l r)) b).bind fun v b => rec v other b
  | .lit f args annots => litUnify n rec f args annots other b
  | .cons h t => consUnify n rec h t other b
  | _ => .err (.py "AttributeError") b

/-- `agentspeak/__init__.py` 886-894: both sides are plain Python values.  `left is
right` for booleans; tuples elementwise; `left == right` otherwise. -/
def plainUnify (rec : Term → Term → BSt → Res BSt Bool) (l r : Term) (b : BSt) : Res BSt Bool :=
  match l, r with
  | .bool p, .bool q => .ok (decide (p = q)) b
  | .tup xs, .tup ys =>
    if xs.length ≠ ys.length then .ok false b else unifyAll rec xs ys b
  | .num p, .num q => .ok (decide (p = q)) b
  | .str s, .str t => .ok (decide (s = t)) b
  | _, _ => .ok false b

/-- `unify`, `agentspeak/__init__.py` 877-894. -/
def unify [Arith] : Nat → Term → Term → BSt → Res BSt Bool
  | 0, _, _, _ => .oof
  | n + 1, l, r, b =>
    if l.isObj then methUnify n (unify n) l r b
    else if r.isObj then methUnify n (unify n) r l b
    else plainUnify (unify n) l r b

/-- `unifies`, `agentspeak/__init__.py` 897-901. -/
def unifies [Arith] (n : Nat) (l r : Term) : Ev Bool :=
  match unify n l r BSt.init with
  | .ok a _ => .ok a
  | .err e _ => .err e
  | .oof => .oof

/-! ## Annotated unification

`unify_annotated` is a generator that yields at most once.  It is modelled by the run
up to the first `yield` (`uaStart`, answering `some c` if it yields and `none` if it
is exhausted) and the run after the `yield`, which in every case is
`reroll(scope, stack, c)` followed by exhaustion (`uaResume`). -/

/-- The inner loops of `Literal.unify_annotated`, `agentspeak/__init__.py` 646-655:
find the first right annotation, not closed yet, that the left annotation unifies
with.  `open_` are the right annotations not in `closed_right_annots`; the answer is
the rest of them.  The inner generator is abandoned after its `yield` (`break`), so
its bindings stay. -/
def findAnnot (ua : Term → Term → BSt → Res BSt (Option Nat)) (left : Term) :
    List Term → BSt → Res BSt (Option (List Term))
  | [], b => .ok none b
  | r :: rs, b =>
    (ua left r b).bind fun y b =>
      match y with
      | some _ => .ok (some rs) b
      | none => (findAnnot ua left rs b).bind fun o b => .ok (o.map (r :: ·)) b

/-- The outer loop of `Literal.unify_annotated`, `agentspeak/__init__.py` 642-660. -/
def matchAnnots (ua : Term → Term → BSt → Res BSt (Option Nat)) :
    List Term → List Term → BSt → Res BSt Bool
  | [], _, b => .ok true b
  | l :: ls, open_, b =>
    (findAnnot ua l open_ b).bind fun o b =>
      match o with
      | none => .ok false b
      | some rest => matchAnnots ua ls rest b

/-- The loops 642-660 with `right.annots` evaluated first (an `AttributeError` unless
`right` is a literal; but then `self.unify(right)` has not succeeded). -/
def matchRight (ua : Term → Term → BSt → Res BSt (Option Nat)) (annots : List Term) (right : Term)
    (b : BSt) : Res BSt Bool :=
  match right with
  | .lit _ _ annots' => matchAnnots ua annots annots' b
  | _ => .err (.py "AttributeError") b

/-- `if <unification succeeded>: yield` … `reroll(scope, stack, choicepoint)`: yield, or
undo and stop. -/
def yieldIf (c : Nat) (x : Res BSt Bool) : Res BSt (Option Nat) :=
  x.bind fun ok b => if ok then .ok (some c) b else .ok none (reroll b c)

/-- `Literal.unify_annotated`, `agentspeak/__init__.py` 630-661, up to the first `yield`.
`ua` is the recursive call for annotations.

Note that in the branch 632-637 (the right hand side is an unbound variable or a
wildcard) the choicepoint is created but never pushed. -/
def uaLit [Arith] (n : Nat) (ua : Term → Term → BSt → Res BSt (Option Nat))
    (f : String) (args annots : List Term) (right : Term) (b : BSt) : Res BSt (Option Nat) :=
  (Res.lift (evaluate n b.scope right) b).bind fun right b =>
    match right with
    | .var y => yieldIf b.ncp (varUnify n (unify n) y (.lit f args annots) b.newCp.2)
    | .wild => .ok (some b.ncp) b.newCp.2
    | right =>
      yieldIf b.ncp <|
        (litUnify n (unify n) f args annots right b.mark).bind fun ok b =>
          if ok then matchRight ua annots right b else .ok false b

/-- `unify_annotated`, `agentspeak/__init__.py` 904-913, up to the first `yield`. -/
def uaStart [Arith] : Nat → Term → Term → BSt → Res BSt (Option Nat)
  | 0, _, _, _ => .oof
  | n + 1, left, right, b =>
    match left with
    | .lit f args annots => uaLit n (uaStart n) f args annots right b
    | left => yieldIf b.ncp (unify n left right b.mark)

/-- `unify_annotated` resumed after its `yield`: `agentspeak/__init__.py` 636, 661, 913. -/
def uaResume (c : Nat) (b : BSt) : BSt := reroll b c

/-- `unifies_annotated`, `agentspeak/__init__.py` 916-923: the generator is abandoned
after the first answer, so its bindings stay in scope and stack. -/
def unifiesAnnotated [Arith] (n : Nat) (l r : Term) (b : BSt) : Res BSt Bool :=
  (uaStart n l r b).bind fun y b => .ok y.isSome b

end Verif
