import Verif.Spec.Step
import Verif.Spec.Beliefs

/-!
# Specification: the environment
-/

namespace Verif

/-- The registry maps different names to different existing agents, each under its own
name. -/
structure RegOK (w : World) : Prop where
  keys : (w.reg.map (·.1)).Nodup
  named : ∀ {name a}, (name, a) ∈ w.reg → (w.ags a).name = name ∧ a < w.nag

/-- What is true of every state of an environment, also in the middle of a step (see
`C32_reachable`). -/
structure EnvOK (w : World) : Prop where
  beliefs : BeliefsOK w
  stacks : StacksOK w
  reg : RegOK w

/-- `name` is the name for a new agent: the given name if it is not in use, otherwise the
first of `base1`, `base2`, … not in use (`agent` if there is no name). -/
inductive FreshName (used : List String) : String → String → Prop where
  | agent {name} : FreshName used "agent" name → FreshName used "" name
  | plain {base} : base ≠ "" → base ∉ used → FreshName used base base
  | numbered {base} {i : Nat} : base ≠ "" → base ∈ used → 1 ≤ i → base ++ toString i ∉ used →
      (∀ j, 1 ≤ j → j < i → base ++ toString j ∈ used) → FreshName used base (base ++ toString i)

section
variable [Host]

/-- What happens in an environment after `s`: agents are built, agents make steps, the
environment sleeps, and other code calls agents (as `.send` does). -/
inductive Later : QSt World → QSt World → Prop where
  | refl {s} : Later s s
  | build {s n src base s₁ s'} : (buildAgent n src base s).leaves s₁ → Later s₁ s' → Later s s'
  | builds {s n src k base₀ base s₁ s'} : (buildAgents n src k base₀ base s).leaves s₁ → Later s₁ s' → Later s s'
  | step {s n a s₁ s'} : (step n a s).leaves s₁ → Later s₁ s' → Later s s'
  | sleep {s d s₁ s'} : (sleepUntil d s).leaves s₁ → Later s₁ s' → Later s s'
  | call {s n a tr gt t delayed s₁ s'} : (callNew n (gnext n) a tr gt t delayed s).leaves s₁ → Later s₁ s' → Later s s'

/-- The states of environments whose agents are built one by one, with `build_agent`. -/
inductive Singly : QSt World → Prop where
  | init (clock) : Singly ⟨BSt.init, 0, World.init clock⟩
  | build {s n src base s'} : Singly s → (buildAgent n src base s).leaves s' → Singly s'
  | step {s n a s'} : Singly s → (step n a s).leaves s' → Singly s'
  | sleep {s d s'} : Singly s → (sleepUntil d s).leaves s' → Singly s'
  | call {s n a tr gt t delayed s'} : Singly s → (callNew n (gnext n) a tr gt t delayed s).leaves s' → Singly s'

end

/-- No two agents use the same set object for beliefs. -/
def NoSharing (w : World) : Prop := ∀ a a' g, a ≠ a' → ¬ Shares w a a' g

end Verif
