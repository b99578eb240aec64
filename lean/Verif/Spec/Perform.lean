import Verif.Spec.Messages
import Verif.Spec.Acyclic

/-!
# Specification: unachieve, untellHow, askHow
-/

namespace Verif

/-- The top of every stack is dropped iff it satisfies `M`; everything else is kept. -/
inductive DropTops (M : Nat → Prop) : List (List Nat) → List (List Nat) → Prop where
  | nil : DropTops M [] []
  | empty {sts sts'} : DropTops M sts sts' → DropTops M ([] :: sts) ([] :: sts')
  | drop {i st sts sts'} : M i → DropTops M sts sts' → DropTops M ((i :: st) :: sts) (st :: sts')
  | keep {i st sts sts'} : ¬ M i → DropTops M sts sts' → DropTops M ((i :: st) :: sts) ((i :: st) :: sts')

/-- Intention `i` pursues a goal `f(args')` that has a common instance with `f(args)`. -/
def Pursues [Arith] (w : World) (f : String) (args : List Term) (i : Nat) : Prop :=
  ∃ args' ys, (w.ints i).headTerm = some (.lit f args' ys) ∧ ∃ σ : Asg, Agree σ (.tup args) (.tup args')

/-- The goals of the intentions on top of the stacks of agent `a` contain no expressions;
they are ground, or `args` are. -/
def GoalsOK (w : World) (a : Nat) (args : List Term) : Prop :=
  (Term.tup args).NoExpr ∧ ∀ st ∈ (w.ags a).intentions, ∀ i ∈ st.head?, ∀ f args' ys, (w.ints i).headTerm = some (.lit f args' ys) →
    (Term.tup args').NoExpr ∧ ((Term.tup args).Closed ∨ (Term.tup args').Closed)

/-- Agents `a` and `a'` use the same list object for plans. -/
def SharesPlans (w : World) (a a' : Nat) : Prop := ∃ k k' r, (k, r) ∈ (w.ags a).plans ∧ (k', r) ∈ (w.ags a').plans

/-- `p` is in the plan library of agent `a`. -/
def PlanOf (w : World) (a : Nat) (p : Plan) : Prop := ∃ kr ∈ (w.ags a).plans, p ∈ w.plists kr.2

/-- The name of the plan's goal or belief occurs in the text. -/
def NameIn (text : String) (p : Plan) : Prop := ∃ f as xs, p.head = .lit f as xs ∧ ∃ pre post, text = pre ++ f ++ post

/-- `p` is the last of its kind: the last plan of agent `a` with the same trigger, goal type,
name and number of arguments whose name occurs in the text. -/
def LastNamed (w : World) (a : Nat) (text : String) (p : Plan) : Prop :=
  ∃ kr ∈ (w.ags a).plans, ∃ pre post, w.plists kr.2 = pre ++ p :: post ∧ NameIn text p ∧ ∀ q ∈ post, ¬ NameIn text q

end Verif
