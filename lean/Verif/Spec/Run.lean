import Verif.Spec.Body
import Verif.Spec.Step

/-!
# Specification: running plan bodies
-/

namespace Verif

/-- Agent `a` chooses intention `i` for its next step; the world is `w₁` then.  `i` is on top
of the first stack that is not suspended. -/
def Picks (a i : Nat) (w w₁ : World) : Prop :=
  ∃ pre st post k, (w.ags a).intentions.dropWhile (·.isEmpty) = pre ++ (i :: st) :: post ∧ Suspended w w.ticks pre k ∧
    Chosen1 (w.setStacks a ((w.ags a).intentions.dropWhile (·.isEmpty))) k i w₁

section
variable [Host]

/-- In a step of agent `a`, intention `i` runs the instruction `f`, which answers `ok`. -/
def Runs (a i : Nat) (f : InstrF) (ok : Bool) (s s' : QSt World) : Prop :=
  ∃ n pc w₁ s₁, Picks a i s.w w₁ ∧ (s.w.ints i).instr = some pc ∧ f = (s.w.code.instr pc).f ∧
    runI n a i f { s with w := w₁ } = .ok ok s₁ ∧ (step n a s).leaves s'

/-- In a step of agent `a`, intention `i` runs an instruction, which raises. -/
def Throws (a i : Nat) (s s' : QSt World) : Prop :=
  ∃ n pc w₁ e s₁, Picks a i s.w w₁ ∧ (s.w.ints i).instr = some pc ∧
    runI n a i (s.w.code.instr pc).f { s with w := w₁ } = .err e s₁ ∧ (step n a s).leaves s'

/-- A step of agent `a` in which intention `i` does not run an instruction: it is not chosen,
or its plan is already completed. -/
def Rests (a i : Nat) (s s' : QSt World) : Prop :=
  (∃ n, (step n a s).leaves s') ∧ ∀ w₁, Picks a i s.w w₁ → (s.w.ints i).instr = none

/-- Steps of any agents, and sleeping; `tr` are the instructions that intention `i` ran meanwhile, except
those that raised. -/
inductive History (i : Nat) : QSt World → Trace → QSt World → Prop where
  | refl (s) : History i s [] s
  | runs {s tr s₁ a f ok s'} : History i s tr s₁ → Runs a i f ok s₁ s' → History i s (tr ++ [(f, ok)]) s'
  | raises {s tr s₁ a s'} : History i s tr s₁ → Throws a i s₁ s' → History i s tr s'
  | rests {s tr s₁ a s'} : History i s tr s₁ → Rests a i s₁ s' → History i s tr s'
  | sleeps {s tr s₁ d s'} : History i s tr s₁ → (sleepUntil d s₁).leaves s' → History i s tr s'

end

end Verif
