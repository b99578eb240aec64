import Verif.Model.Unify

/-!
# Specification: trailed changes of scope and stack
-/

namespace Verif

/-- Undo the bindings recorded in a segment of the stack. -/
def undo : List Entry → Scope → Scope
  | [], sc => sc
  | .v x :: δ, sc => undo δ (sc.erase x)
  | .cp _ :: δ, sc => undo δ sc

/-- `b` results from `a` by pushing (bindings and choicepoints newer than `a`);
undoing what was pushed restores the scope of `a`. -/
def Above (a b : BSt) : Prop :=
  ∃ δ, b.stack = δ ++ a.stack ∧ undo δ b.scope = a.scope ∧
    (∀ d, .cp d ∈ δ → a.ncp ≤ d ∧ d < b.ncp) ∧ a.ncp ≤ b.ncp

/-- `b'` has the scope and stack of `b` (the counter of choicepoints may have moved). -/
def Same (b b' : BSt) : Prop := b' = { b with ncp := b'.ncp } ∧ b.ncp ≤ b'.ncp

end Verif
