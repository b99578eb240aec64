import Verif.Model.Eval

/-!
# `freeze` (`agentspeak/__init__.py` 439-447, 487-488, 535-536, 586-587, 678-683,
800-803, 944-950)
-/

namespace Verif

/-- The mutable part of `freeze`: the dict `memo` and the supply of new `Var()`
objects (numbers ≥ `nv` are unused so far). -/
structure FSt where
  memo : VarId → Option VarId
  nv : VarId

/-- `tuple(freeze(t, scope, memo) for t in ts)`. -/
def freezeAll (f : Term → FSt → Res FSt Term) : List Term → FSt → Res FSt (List Term)
  | [], m => .ok [] m
  | t :: ts, m => (f t m).bind fun a m => (freezeAll f ts m).bind fun as m => .ok (a :: as) m

/-- `freeze`, `agentspeak/__init__.py` 944-950, with `Var.freeze` 439-447 (the memo is
consulted *before* the scope), `Wildcard.freeze` 487-488, `UnaryExpr.freeze` 535-536,
`BinaryExpr.freeze` 586-587, `Literal.freeze` 678-683, `LinkedList.freeze` 800-803. -/
def freeze [Arith] : Nat → Scope → Term → FSt → Res FSt Term
  | 0, _, _, _ => .oof
  | n + 1, sc, t, m =>
    match t with
    | .var x =>
      match m.memo x with
      | some y => .ok (.var y) m
      | none =>
        match sc x with
        | some _ => (Res.lift (deref n sc (.var x)) m).bind fun t m => freeze n sc t m
        | none =>
          .ok (.var m.nv) { memo := fun z => if z = x then some m.nv else m.memo z, nv := m.nv + 1 }
    | .wild => .ok .wild m
    | .un op t => (Res.lift (evaluate n sc (.un op t)) m).bind fun v m => freeze n sc v m
    | .bin op l r => (Res.lift (evaluate n sc (.bin op l r)) m).bind fun v m => freeze n sc v m
    | .lit f args annots =>
      (freezeAll (freeze n sc) args m).bind fun args' m =>
      (freezeAll (freeze n sc) annots m).bind fun annots' m =>
        .ok (.lit f args' (pySet annots')) m
    | .cons h t =>
      (freeze n sc h m).bind fun h' m => (freeze n sc t m).bind fun t' m => .ok (.cons h' t') m
    | .tup xs => (freezeAll (freeze n sc) xs m).bind fun xs' m => .ok (.tup xs') m
    | t => .ok t m

/-- `freeze(term, scope, {})` when `Var` objects numbered ≥ `nv` are unused. -/
def freezeNew [Arith] (n : Nat) (sc : Scope) (t : Term) (nv : VarId) : Res FSt Term :=
  freeze n sc t ⟨fun _ => none, nv⟩

end Verif
