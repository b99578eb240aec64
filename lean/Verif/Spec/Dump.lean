import Verif.Model.Dump

/-! # Specification: the control flow graph, and the variables at the prompt -/

namespace Verif

/-- The second instruction can be reached from the first one by following references. -/
inductive Connected (c : Code) (i : Nat) : Nat → Prop where
  | refl : Connected c i i
  | success {j k} : Connected c i j → (c.instr j).success = some k → Connected c i k
  | failure {j k} : Connected c i j → (c.instr j).failure = some k → Connected c i k

/-- The reference exists. -/
def Edge.Of (c : Code) : Edge → Prop
  | .success i j => (c.instr i).success = some j
  | .failure i j => (c.instr i).failure = some j

/-- Where an edge starts. -/
def Edge.from : Edge → Nat
  | .success i _ | .failure i _ => i

/-- The graph of a plan: exactly the references between the instructions that can be reached, each
once. -/
structure PlanGraph.Right (c : Code) (g : PlanGraph) : Prop where
  edge : ∀ e, e ∈ g.edges ↔ e.Of c ∧ Connected c g.plan.body e.from
  once : g.edges.Nodup

/-- What is to be printed for the names: a variable in the scope with the value that its chain of
references leads to, everything else as unbound, both in strictly increasing order. -/
structure Shown.Right (n : Nat) (names : List (List Char × Term)) (sc : Scope) (r : Shown) : Prop where
  bound : ∀ x u, (x, u) ∈ r.bound ↔ ∃ v w, (x, .var v) ∈ names ∧ sc v = some w ∧ deref n sc (.var v) = .ok u
  unbound : ∀ x t, (x, t) ∈ r.unbound ↔ (x, t) ∈ names ∧ ∀ v, t = .var v → sc v = none
  sorted : (r.bound.map (·.1)).Pairwise (· < ·)
  sorted' : (r.unbound.map (·.1)).Pairwise (· < ·)

end Verif
