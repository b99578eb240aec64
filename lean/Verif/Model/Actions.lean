import Verif.Model.Basic

/-!
# Registries of actions: `Actions` (`agentspeak/__init__.py` 987-1095)

`F` is the type of action functions.  Registries are objects: a parent may be extended after
its children have been created.  So registries live in a heap.
-/

namespace Verif

/-- `Actions`, `agentspeak/__init__.py` 1001-1005.  The dictionaries are lists of items. -/
structure Reg (F : Type) where
  parent : Option Nat
  actions : List ((String × Nat) × F) := []
  variadic : List (String × F) := []

/-- All registries created so far. -/
structure Regs (F : Type) where
  n : Nat
  reg : Nat → Reg F

variable {F : Type}

/-- No registries. -/
def Regs.empty : Regs F := ⟨0, fun _ => { parent := none }⟩

/-- `Actions(parent)`, `agentspeak/__init__.py` 1002-1005. -/
def Regs.new (h : Regs F) (parent : Option Nat) : Regs F :=
  ⟨h.n + 1, fun i => if i = h.n then { parent } else h.reg i⟩

/-- `registry.add(functor, arity, f)`, `agentspeak/__init__.py` 1007-1025; the same with
`registry.add(functor, arity)(f)`.  Registering twice is an `AssertionError`. -/
def Regs.add (h : Regs F) (i : Nat) (functor : String) (arity : Option Nat) (f : F) : Ev (Regs F) :=
  let r := h.reg i
  match arity with
  | none =>
    if (r.variadic.lookup functor).isSome then .err (.py "AssertionError")
    else .ok ⟨h.n, fun j => if j = i then { r with variadic := r.variadic ++ [(functor, f)] } else h.reg j⟩
  | some k =>
    if (r.actions.lookup (functor, k)).isSome then .err (.py "AssertionError")
    else .ok ⟨h.n, fun j => if j = i then { r with actions := r.actions ++ [((functor, k), f)] } else h.reg j⟩

/-- What a declared argument of an action stands for, `agentspeak/__init__.py` 953-998: the
environment, the agent, or an argument of the term. -/
inductive SpecKind where
  | env | agent | arg
deriving DecidableEq, Repr

/-- `_count_specs`, `agentspeak/__init__.py` 987-998. -/
def countSpecs : List SpecKind → Nat
  | [] => 0
  | .env :: specs => countSpecs specs
  | .agent :: specs => countSpecs specs
  | .arg :: specs => countSpecs specs + 1

/-- `registry.add_function(functor, arg_specs, f)`, `agentspeak/__init__.py` 1027-1046: one more
argument for the result.  `wrapper` is the generator function made from `f`. -/
def Regs.addFunction (h : Regs F) (i : Nat) (functor : String) (specs : List SpecKind) (wrapper : F) : Ev (Regs F) :=
  h.add i functor (some (countSpecs specs + 1)) wrapper

/-- `registry.add_predicate(functor, arg_specs, f)`, `agentspeak/__init__.py` 1048-1065, and
`registry.add_procedure(functor, arg_specs, f)`, 1067-1084. -/
def Regs.addPredicate (h : Regs F) (i : Nat) (functor : String) (specs : List SpecKind) (wrapper : F) : Ev (Regs F) :=
  h.add i functor (some (countSpecs specs)) wrapper

/-- `registry.lookup(functor, arity)`, `agentspeak/__init__.py` 1086-1095. -/
def Regs.lookup (h : Regs F) : Nat → Nat → String → Nat → Ev F
  | 0, _, _, _ => .oof
  | n + 1, i, functor, arity =>
    let r := h.reg i
    match r.actions.lookup (functor, arity) with
    | some f => .ok f
    | none =>
      match r.variadic.lookup functor with
      | some f => .ok f
      | none =>
        match r.parent with
        | some p => h.lookup n p functor arity
        | none => .err (.py "KeyError")

end Verif
