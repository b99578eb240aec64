import Verif.Model.Build

/-!
# The optimiser (`agentspeak/optimizer.py`)

What `build_agent_optimized` reaches is modelled: the traversal of the tree with the default
callbacks, the declared effects of actions (*evilness*), their registration and the inspection
of the agent.  The passes over plans (`TermGroundingCb`, `UselessTermEliminatorCb`) are never
reached, see `C62_plans`; of these only the states of the variables are modelled (deriving,
merging and applying effects).  Warnings are left out.
-/

namespace Verif

/-! ## Traversal -/

mutual
/-- `CallbackVisitor` on terms and queries, with the callback of `collect_type`, `optimizer.py`
112-123, 172-180, 213-224, 303-304 and 1769-1776: the nodes `n` with `want n`, a node before its parts, the terms
of a literal before its annotations.  There is no method `visit_linked_list`. -/
def collect (want : Ast → Bool) : Ast → Ev (List Ast)
  | .const v => .ok (if want (.const v) then [.const v] else [])
  | .var x => .ok (if want (.var x) then [.var x] else [])
  | .lit f ts as => (collectL want ts).bind fun xs => (collectL want as).map fun ys =>
    (if want (.lit f ts as) then [.lit f ts as] else []) ++ xs ++ ys
  | .list ts => (collectL want ts).map ((if want (.list ts) then [.list ts] else []) ++ ·)
  | .linked _ _ => .err (.py "AttributeError")
  | .un op a => (collect want a).map ((if want (.un op a) then [.un op a] else []) ++ ·)
  | .bin op l r => (collect want l).bind fun xs => (collect want r).map fun ys =>
    (if want (.bin op l r) then [.bin op l r] else []) ++ xs ++ ys
/-- `CallbackVisitor._cb_map`, `optimizer.py` 96-110. -/
def collectL (want : Ast → Bool) : List Ast → Ev (List Ast)
  | [] => .ok []
  | a :: as => (collect want a).bind fun xs => (collectL want as).map (xs ++ ·)
end

/-- `CallbackVisitor.visit_rule`, `optimizer.py` 206-211. -/
def collectRule (want : Ast → Bool) (r : ARule) : Ev (List Ast) :=
  (collect want r.head).bind fun xs => (collect want r.consequence).map (xs ++ ·)

/-- `CallbackVisitor.visit_plan`, `optimizer.py` 163-170, reads `ast_plan.annotations`, an
attribute that `AstPlan` (`parser.py` 233-241) does not have. -/
def collectPlan (_ : APlan) : Ev (List Ast) := .err (.py "AttributeError")

/-- `CallbackVisitor.visit_agent`, `optimizer.py` 125-132, with `visit_goal`, 200-204. -/
def collectAgent (want : Ast → Bool) (a : AAgent) : Ev (List Ast) :=
  (Ev.mapL (collectRule want) a.rules).bind fun rs =>
  (collectL want a.beliefs).bind fun bs =>
  (collectL want a.goals).bind fun gs =>
  (Ev.mapL collectPlan a.plans).map fun ps => rs.flatten ++ bs ++ gs ++ ps.flatten

/-- `isinstance(node, AstLiteral)` and `'.' in node.functor`, `collect_actions`, `optimizer.py`
1781-1784. -/
def Ast.isAction : Ast → Bool
  | .lit f _ _ => f.contains '.'
  | _ => false

/-! ## Declared effects -/

/-- What an effect is about, `InferenceEvilnessConst`, `optimizer.py` 543-562: the constants 4
to 9; `AFFECT_PARAM` and `AFFECT_PARAM_INTERVAL` give a tuple with the first and the last
index, which count from the end if they are negative. -/
inductive Affect where
  | any | paramAny | param (fr to : Int) | paramAll | scope | everything
deriving DecidableEq, Repr

/-- The number of the constant. -/
def Affect.code : Affect → Nat
  | .any => 4 | .paramAny => 5 | .param _ _ => 6 | .paramAll => 7 | .scope => 8 | .everything => 9

/-- `AFFECT_PARAM(i)` -/
def Affect.nth (i : Int) : Affect := .param i i

/-- Effects are numbers, `optimizer.py` 564-569.  `EFFECT_BIND` and `EFFECT_REQUIRE_BOUND` are
the same number. -/
abbrev Effect := Nat

def Effect.change : Effect := 10
def Effect.doBind : Effect := 12
def Effect.bind : Effect := 13
def Effect.requireBound : Effect := 13
def Effect.unbind : Effect := 14
def Effect.all : Effect := 15

/-- `Evilness`, `optimizer.py` 582-592: the pairs `self.evils`. -/
abbrev Evilness := List (Affect × Effect)

/-- An index as in `expand_affect`, `optimizer.py` 573-580. -/
def expandIndex (arity i : Int) : Int := if i ≥ 0 then i else i + arity

/-- `Evilness.affect_contains`, `optimizer.py` 607-617. -/
def affectContains (af₁ af₂ : Affect) (arity : Int) : Bool :=
  if af₁.code ≥ af₂.code then
    match af₁, af₂ with
    | .param f₁ t₁, .param f₂ t₂ =>
      expandIndex arity f₁ ≤ expandIndex arity f₂ ∧ expandIndex arity f₂ ≤ expandIndex arity t₂ ∧ expandIndex arity t₂ ≤ expandIndex arity t₁
    | _, _ => true
  else false

/-- `Evilness.query`, `optimizer.py` 594-598. -/
def Evilness.query (e : Evilness) (af : Affect) (ef : Effect) (arity : Int) : Bool :=
  e.any fun p => affectContains p.1 af arity && p.2 == ef

/-- `Evilness.find`, `optimizer.py` 619-624. -/
def Evilness.find (e : Evilness) (af : Affect) (arity : Int) : List Effect :=
  (e.filter fun p => affectContains p.1 af arity).map Prod.snd

/-- `Evilness.check_arity_makes_sense`, `optimizer.py` 600-605; `-1` is the arity of variadic
actions. -/
def Evilness.arityOk (e : Evilness) (arity : Int) : Bool :=
  e.all fun p =>
    match p.1 with
    | .param fr to =>
      arity = -1 || decide (0 ≤ expandIndex arity fr ∧ expandIndex arity fr ≤ expandIndex arity to ∧ expandIndex arity to < arity)
    | _ => true

/-- `Evilness.default_function_like`, `optimizer.py` 629-634. -/
def Evilness.functionLike : Evilness := [(.param 0 (-1), .requireBound), (.nth (-1), .doBind)]

/-- `Evilness.default_rule_like`, `optimizer.py` 636-638. -/
def Evilness.ruleLike : Evilness := [(.paramAll, .bind)]

/-- `Evilness.default_no_scope_effects`, `optimizer.py` 640-642. -/
def Evilness.noScopeEffects : Evilness := [(.paramAll, .bind)]

/-- `Evilness.default_all_bound`, `optimizer.py` 644-646. -/
def Evilness.allBound : Evilness := [(.paramAll, .requireBound)]

/-- An action as the optimiser sees it: name, arity (`-1` if it is variadic), and the attribute
`evilness`, if any.  (The attributes `is_function` and `is_procedure` are set on other objects
than the registered ones, so that the default `True` is used for both.) -/
structure ActionInfo where
  name : List Char
  arity : Int
  evilness : Option Evilness

/-- `agentspeak.stdlib.actions`, `stdlib.py` 59-461 with the decorators, and
`init_optimizer_actions`, `optimizer.py` 1826-1851. -/
def standardActions : List ActionInfo :=
  [⟨".broadcast".toList, 2, none⟩, ⟨".send".toList, 3, none⟩, ⟨".print".toList, -1, some .noScopeEffects⟩,
   ⟨".fail".toList, 0, some .noScopeEffects⟩, ⟨".my_name".toList, 1, some .functionLike⟩,
   ⟨".concat".toList, -1, some .functionLike⟩, ⟨".random".toList, 1, none⟩, ⟨".min".toList, 2, none⟩,
   ⟨".max".toList, 2, none⟩, ⟨".length".toList, 2, none⟩, ⟨".nth".toList, 3, none⟩, ⟨".sort".toList, 2, none⟩,
   ⟨".substring".toList, 3, some .functionLike⟩, ⟨".member".toList, 2, some .functionLike⟩, ⟨".atom".toList, 1, none⟩,
   ⟨".literal".toList, 1, none⟩, ⟨".list".toList, 1, none⟩, ⟨".number".toList, 1, none⟩, ⟨".string".toList, 1, none⟩,
   ⟨".structure".toList, 1, none⟩, ⟨".ground".toList, 1, some .noScopeEffects⟩, ⟨".findall".toList, 3, some .functionLike⟩,
   ⟨".count".toList, 2, some .functionLike⟩, ⟨".abolish".toList, 1, none⟩, ⟨".date".toList, 3, some [(.paramAll, .doBind)]⟩,
   ⟨".time".toList, 3, some [(.paramAll, .doBind)]⟩, ⟨".wait".toList, 1, some .allBound⟩, ⟨".wait".toList, 2, some .allBound⟩,
   ⟨".range".toList, 2, some .functionLike⟩, ⟨".dump".toList, 0, some .noScopeEffects⟩,
   ⟨".unbind_all".toList, 0, some [(.scope, .unbind)]⟩, ⟨".control_flow".toList, 0, some .noScopeEffects⟩,
   ⟨".inf_mark_nosidef".toList, 1, some .noScopeEffects⟩, ⟨".inf_nosideef".toList, 0, some .noScopeEffects⟩,
   ⟨".inf_side_effect".toList, -1, some .noScopeEffects⟩, ⟨".inf_disable_global".toList, 0, some [(.everything, .all)]⟩,
   ⟨".inf_disable_local".toList, 0, some [(.scope, .all)]⟩]

/-- The dict `action_table`. -/
abbrev ActionTable := List ((List Char × Int) × Evilness)

/-- `InferenceCallback.__init__` and `register_action`, `optimizer.py` 694-697 and 814-832
(without the list of actions that can be removed).  An error of `check_arity_makes_sense` is
raised. -/
def registerActions : List ActionInfo → ActionTable → Nat → Res Nat ActionTable
  | [], t, s => .ok t s
  | i :: is, t, s =>
    let e := i.evilness.getD .functionLike
    if e.arityOk i.arity then registerActions is (((i.name, i.arity), e) :: t) s else .err (.asl "errors") (s + 1)

/-- `InferenceCallback.get_evilness`, `optimizer.py` 776-782. -/
def ActionTable.get (t : ActionTable) (name : List Char) (arity : Nat) : Evilness :=
  match t.lookup (name, (arity : Int)) with
  | some e => e
  | none => (t.lookup (name, -1)).getD [(.everything, .all)]

/-- The constant with this name, `getattr(_IEC, af_str)`, `optimizer.py` 796-805.  `none` if there is no such
attribute; `some none` for the method `AFFECT_PARAM_INTERVAL`, which cannot be compared with a
number later. -/
def affectNamed (s : List Nat) : Option (Option Affect) :=
  if s = "AFFECT_PARAM_ALL".toList.map Char.toNat then some (some .paramAll)
  else if s = "AFFECT_SCOPE".toList.map Char.toNat then some (some .scope)
  else if s = "AFFECT_UNIVERSE".toList.map Char.toNat then some (some .everything)
  else if s = "AFFECT_PARAM_INTERVAL".toList.map Char.toNat then some none
  else none

/-- `getattr(_IEC, ef_str)`, `optimizer.py` 801-805. -/
def effectNamed (s : List Nat) : Option Effect :=
  if s = "EFFECT_CHANGE".toList.map Char.toNat then some .change
  else if s = "EFFECT_DOBIND".toList.map Char.toNat then some .doBind
  else if s = "EFFECT_BIND".toList.map Char.toNat then some .bind
  else if s = "EFFECT_REQUIRE_BOUND".toList.map Char.toNat then some .requireBound
  else if s = "EFFECT_UNBIND".toList.map Char.toNat then some .unbind
  else if s = "EFFECT_ALL".toList.map Char.toNat then some .all
  else none

/-- `InferenceCallback.handle_inf_side_effect`, `optimizer.py` 784-808, followed by
`find_disregard_arity`, which raises `TypeError` for `AFFECT_PARAM_INTERVAL`.  All errors are
raised. -/
def infSideEffect : List Ast → Nat → Res Nat Unit
  | .const (.str af) :: .const (.str ef) :: _, s =>
    match affectNamed af, effectNamed ef with
    | some (some _), some _ => .ok () s
    | some none, some _ => .err (.py "TypeError") s
    | _, _ => .err (.asl "errors") (s + 1)
  | _, s => .err (.asl "errors") (s + 1)

/-- `InferenceCallback.handle_inf_mark_nosidef`, `optimizer.py` 724-734 (the item of the table
is not used later). -/
def infMark : List Ast → Nat → Res Nat Unit
  | [.const (.str _)], s => .ok () s
  | _, s => .err (.asl "errors") (s + 1)

/-- The body of the loop in `init_agent`, `optimizer.py` 715-720, for one action; looking up its
declared effects has no effect apart from a warning. -/
def inspectAction : Ast → Nat → Res Nat Unit
  | .lit f ts _, s =>
    if f = ".inf_mark_nosidef".toList then infMark ts s
    else if f = ".inf_side_effect".toList then infSideEffect ts s
    else .ok () s
  | _, s => .ok () s

/-- `InferenceCallback.init_agent`, `optimizer.py` 710-722.  The loop ends after the first
action, because of the `return` at its end.  All literals of the agent are collected before. -/
def initAgent (a : AAgent) (s : Nat) : Res Nat Unit :=
  (Res.lift (collectAgent Ast.isAction a) s).bind fun acts s =>
  match acts with
  | [] => .ok () s
  | x :: _ => inspectAction x s

/-- `InferenceCallback.apply`, `optimizer.py` 296-298 and 683-708: `pre_ast_node` answers
`KEEP_CURRENT` for rules, beliefs and goals.  (`infer_plan` is not reached: `init_agent` has
raised an exception if there are plans.) -/
def optimizeAgent (a : AAgent) (s : Nat) : Res Nat AAgent :=
  (registerActions standardActions [] s).bind fun _ s => (initAgent a s).bind fun _ s => .ok a s

section
variable [Unicode] [Floats] [Arith]

/-- `build_agent_optimized`, `optimizer.py` 1854-1862, up to the calls (see `makeAgent`).  The
tree is traversed before `log.throw()`.  A tree with `None` in it raises `AttributeError`: it has
no method `accept`. -/
def makeOptimized (acts : Lookup) (text : APlan → String) (files : List Char → Option (List Tok)) (n : Nat) (file : List Char)
    (ts : List Tok) : Res Nat AgentSrc :=
  (parseFile files n file ts).bind fun a s =>
  match a with
  | none => .err (.py "AttributeError") s
  | some a => (optimizeAgent a s).bind fun a s => if s = 0 then makeAgent acts text a else .err (.asl "errors") s

end

/-! ## What is known about variables -/

/-- `InferenceConst`, `optimizer.py` 379-384. -/
inductive VarInfo where
  | unproven | unbound | bound | value
deriving DecidableEq, Repr

/-- Nodes of the tree as the optimiser uses them: variables carry `bound_status` and
`bound_value` (`optimizer.py` 424-431), which are those of the time when the node was made.
Other nodes than constants, variables and literals are `other`. -/
inductive Node where
  | const (v : ConstV)
  | var (name : List Char) (status : VarInfo) (value : Option Node)
  | lit (functor : List Char) (terms annotations : List Node)
  | other

/-- `InferenceScopedState`, `optimizer.py` 433-441, as dicts in the order of insertion.  The sets
`subvars` are left out. -/
structure InfState where
  status : List (List Char × VarInfo)
  values : List (List Char × Node)

/-- `d[k] = v` -/
def dictPut {α : Type} (k : List Char) (v : α) : List (List Char × α) → List (List Char × α)
  | [] => [(k, v)]
  | (k', v') :: d => if k' = k then (k, v) :: d else (k', v') :: dictPut k v d

/-- `InferenceScopedState.get_var_ast`, `optimizer.py` 514-520. -/
def InfState.var (S : InfState) (x : List Char) : Ev Node :=
  match S.status.lookup x with
  | some k => .ok (.var x k (S.values.lookup x))
  | none => .err (.py "KeyError")

mutual
/-- `InferenceScopedState.deref`, `optimizer.py` 484-499.  (A missing `bound_value`, which is
`None`, gives `None`; the assertion of `nodes_equal` fails for it.  Here the error is raised at
once.) -/
def InfState.deref (S : InfState) : Nat → Node → Ev Node
  | 0, _ => .oof
  | n + 1, .var x k v =>
    if k = .value then
      match v with
      | none => .err (.py "AssertionError")
      | some (.var y _ _) => (S.var y).bind fun w => S.deref n w
      | some w => S.deref n w
    else .ok (.var x k v)
  | n + 1, .lit f ts as => (S.derefL n ts).bind fun ts => (S.derefL n as).map fun as => .lit f ts as
  | _ + 1, a => .ok a
/-- The terms of a literal, `optimizer.py` 497-498. -/
def InfState.derefL (S : InfState) : Nat → List Node → Ev (List Node)
  | 0, _ => .oof
  | _ + 1, [] => .ok []
  | n + 1, a :: as => (S.deref n a).bind fun a => (S.derefL n as).map (a :: ·)
end

/-- `==` of the values of constants: `True` and `1` are equal, and so are `False` and `0`. -/
def ConstV.pyEq : ConstV → ConstV → Bool
  | .bool b, .num (.fin q) | .num (.fin q), .bool b => decide (q = if b then 1 else 0)
  | v, w => decide (v = w)

mutual
/-- `nodes_equal`, `optimizer.py` 522-541.  `zip` stops at the end of the shorter list. -/
def nodesEqual : Node → Node → Ev Bool
  | .other, _ => .err (.py "AssertionError")
  | _, .other => .err (.py "AssertionError")
  | .const v, .const w => .ok (v.pyEq w)
  | .var x _ _, .var y _ _ => .ok (decide (x = y))
  | .lit f ts as, .lit g us bs =>
    if f = g then (nodesEqualL ts us).map (· && as.isEmpty && bs.isEmpty) else .ok false
  | _, _ => .ok false
/-- `all(nodes_equal(i, j) for i, j in zip(…, …))` -/
def nodesEqualL : List Node → List Node → Ev Bool
  | a :: as, b :: bs => (nodesEqual a b).bind fun e => if e then nodesEqualL as bs else .ok false
  | _, _ => .ok true
end

/-- `if i not in self.status: self.status[i] = _IC.PROVEN_UNBOUND`, `optimizer.py` 462-463. -/
def InfState.ensure (S : InfState) (x : List Char) : InfState :=
  match S.status.lookup x with
  | some _ => S
  | none => { S with status := dictPut x .unbound S.status }

/-- The status of one variable in `InferenceScopedState.merge`, `optimizer.py` 462-478; `O` has all
variables of `S`. -/
def mergeVar (n : Nat) (O : InfState) (x : List Char) (s₂ : VarInfo) (S : InfState) : Ev InfState :=
  let S := S.ensure x
  let s₁ := (S.status.lookup x).getD .unbound
  let put := fun k => { S with status := dictPut x k S.status }
  match s₁, s₂ with
  | .value, .value =>
    (S.var x).bind fun v => (S.deref n v).bind fun v =>
    (O.var x).bind fun w => (O.deref n w).bind fun w =>
    (nodesEqual v w).map fun e => put (if e then .value else .bound)
  | .value, .bound | .bound, .value | .bound, .bound => .ok (put .bound)
  | .unbound, .unbound => .ok (put .unbound)
  | _, _ => .ok (put .unproven)

/-- The second loop of `merge`. -/
def mergeLoop (n : Nat) (O : InfState) : List (List Char × VarInfo) → InfState → Ev InfState
  | [], S => .ok S
  | (x, s₂) :: xs, S => (mergeVar n O x s₂ S).bind fun S => mergeLoop n O xs S

/-- The first loop of `merge`, `optimizer.py` 457-459. -/
def addMissing : List (List Char × VarInfo) → List (List Char × VarInfo) → List (List Char × VarInfo)
  | [], d => d
  | (x, _) :: xs, d => addMissing xs (match d.lookup x with | some _ => d | none => dictPut x .unbound d)

/-- `InferenceScopedState.merge`, `optimizer.py` 446-482. -/
def InfState.merge (n : Nat) (S O : InfState) : Ev InfState :=
  let O := { O with status := addMissing S.status O.status }
  mergeLoop n O O.status S

/-- `TermGroundingCb.apply_evilness`, `optimizer.py` 1218-1242. -/
def applyEvilness (ef : Effect) (k : VarInfo) : Ev VarInfo :=
  if ef = .change then .ok (if k = .value then .bound else k)
  else if ef = .doBind then .ok (if k = .unbound ∨ k = .unproven then .bound else k)
  else if ef = .bind then .ok (if k = .unbound then .unproven else k)
  else if ef = .unbind then .ok (if k = .bound ∨ k = .value then .unproven else k)
  else if ef = .requireBound then .ok (if k = .unbound ∨ k = .unproven then .bound else k)
  else .err (.py "AssertionError")

end Verif
