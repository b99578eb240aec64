import Verif.Model.Env

/-!
# Specification: scheduling
-/

namespace Verif

/-- All stacks are empty or their top is suspended, when they are polled one after the
other and the clock has been read `k` times before and `k'` times afterwards: the top
waits for an event without deadline, or until a deadline that is not yet exceeded. -/
inductive Suspended (w : World) : Nat → List (List Nat) → Nat → Prop where
  | nil {k} : Suspended w k [] k
  | empty {k sts k'} : Suspended w k sts k' → Suspended w k ([] :: sts) k'
  | event {k i st sts k' e} : (w.ints i).waiter = some ⟨e, none⟩ → Suspended w k sts k' →
      Suspended w k ((i :: st) :: sts) k'
  | early {k i st sts k' e d} : (w.ints i).waiter = some ⟨e, some d⟩ → w.clock k ≤ d → Suspended w (k + 1) sts k' →
      Suspended w k ((i :: st) :: sts) k'

/-- Intention `i` may run: it is not waiting, or its deadline is exceeded (at the `k`-th
reading of the clock). -/
def Ready (w : World) (k i : Nat) : Prop :=
  (w.ints i).waiter = none ∨ ∃ e d, (w.ints i).waiter = some ⟨e, some d⟩ ∧ d < w.clock k

/-- The world after `i` has been chosen: its waiter is gone. -/
inductive Chosen1 (w : World) (k i : Nat) : World → Prop where
  | free : (w.ints i).waiter = none → Chosen1 w k i { w with ticks := k }
  | late {e d} : (w.ints i).waiter = some ⟨e, some d⟩ → d < w.clock k →
      Chosen1 w k i (World.setWaiter { w with ticks := k + 1 } i none)

/-- All intentions on the stacks exist, and no intention is twice on the stacks. -/
structure StacksOK (w : World) : Prop where
  below : ∀ a, ∀ st ∈ (w.ags a).intentions, ∀ i ∈ st, i < w.nint
  once : ∀ a, (w.ags a).intentions.flatten.Nodup
  apart : ∀ a a' i, a ≠ a' → i ∈ (w.ags a).intentions.flatten → i ∉ (w.ags a').intentions.flatten

/-- Intention `i` is on top of a stack of agent `a`. -/
def IsTop (w : World) (a i : Nat) : Prop := ∃ st, (i :: st) ∈ (w.ags a).intentions

/-- Intention `i` is directly above `j` on a stack of agent `a`: `i` is the running
sub-goal of `j`, or was called by it. -/
def DirectlyAbove (w : World) (a i j : Nat) : Prop := ∃ l r, (l ++ i :: j :: r) ∈ (w.ags a).intentions

/-- Wherever intention `j` is on a stack, it is on top and the stack belongs to agent `a`. -/
def OnlyTop (w : World) (a j : Nat) : Prop :=
  ∀ a', ∀ st ∈ (w.ags a').intentions, j ∈ st → a' = a ∧ ∃ st', st = j :: st'

/-- An intention without its waiter: program counter, goal, bindings, running queries
and choicepoints. -/
def Intention.core (x : Intention) : Intention := { x with waiter := none }

section
variable [Host]

/-- The completed intention `i` hands its result to intention `j`, with bindings `b'`
afterwards: the term with which `j` called is unified with a frozen copy of the goal of
`i`. -/
def Returns (n : Nat) (s : QSt World) (i j : Nat) (b' : BSt) : Prop :=
  ∃ t hd frozen m, (s.w.ints i).callingTerm = some t ∧ (s.w.ints i).headTerm = some hd ∧
    freezeNew n (s.w.ints i).b.scope hd s.nv = .ok frozen m ∧ (unify n t frozen (s.w.ints j).b).leaves b'

/-- Intention `i` of agent `a` executes instruction number `pc` (once), then goes on with the
instruction's success or failure instruction; if it raises an exception, it stays where
it is. -/
def Executes (n a i pc : Nat) (s s' : QSt World) : Prop :=
  (∃ ok s₁, runI n a i (s.w.code.instr pc).f s = .ok ok s₁ ∧
    s' = { s₁ with w := s₁.w.modInt i fun x =>
      { x with instr := if ok then (s.w.code.instr pc).success else (s.w.code.instr pc).failure } }) ∨
  ∃ e, runI n a i (s.w.code.instr pc).f s = .err e s'

/-- One of the delivered events matches the pattern `e` (for agent `a`). -/
def Delivered (evs : List (Nat × Event)) (a : Nat) (e : Event) : Prop :=
  ∃ frozen n b, (a, ⟨e.trigger, e.goalType, frozen⟩) ∈ evs ∧ unifiesAnnotated n e.head frozen BSt.init = .ok true b

/-- Why an intention of agent `a` with waiter `x` may go on, if the world was `w` and is `w'`:
the deadline was found to be exceeded, or a matching event was delivered, in the meantime. -/
def WokenBy (w w' : World) (a : Nat) (x : Waiter) : Prop :=
  (∃ d k, x.deadline = some d ∧ w.ticks ≤ k ∧ k < w'.ticks ∧ d < w.clock k) ∨
    ∃ e new, x.event = some e ∧ w'.events = new ++ w.events ∧ Delivered new a e

/-- Any number of steps of any agents (also steps that raise); in between the environment may
sleep. -/
inductive Steps : QSt World → QSt World → Prop where
  | refl (s) : Steps s s
  | step {s n a s₁ s'} : (step n a s).leaves s₁ → Steps s₁ s' → Steps s s'
  | sleep {s d s₁ s'} : (sleepUntil d s).leaves s₁ → Steps s₁ s' → Steps s s'

/-- `j` has a running sub-goal. -/
def Covered (w : World) (j : Nat) : Prop := ∃ a i, DirectlyAbove w a i j

/-- Steps during which `j` always has a running sub-goal (except possibly at the end). -/
inductive CoveredSteps (j : Nat) : QSt World → QSt World → Prop where
  | refl (s) : CoveredSteps j s s
  | step {s n a s₁ s'} : Covered s.w j → (step n a s).leaves s₁ → CoveredSteps j s₁ s' → CoveredSteps j s s'
  | sleep {s d s₁ s'} : Covered s.w j → (sleepUntil d s).leaves s₁ → CoveredSteps j s₁ s' → CoveredSteps j s s'

/-- The state after `k` steps of agent `a`, whether they raise or not. -/
def stepsOf (n a : Nat) : Nat → QSt World → Option (QSt World)
  | 0, s => some s
  | k + 1, s => match step n a s with
    | .ok _ s => stepsOf n a k s
    | .err _ s => stepsOf n a k s
    | .oof => none

/-- The states of an environment: agents are built, any agent makes a step (also one
that raises an exception), the environment sleeps, or an agent is called from outside. -/
inductive Reachable : QSt World → Prop where
  | init (clock) : Reachable ⟨BSt.init, 0, World.init clock⟩
  | build {s n src base s'} : Reachable s → (buildAgent n src base s).leaves s' → Reachable s'
  | builds {s n src k base₀ base s'} : Reachable s → (buildAgents n src k base₀ base s).leaves s' → Reachable s'
  | step {s n a s'} : Reachable s → (step n a s).leaves s' → Reachable s'
  | sleep {s d s'} : Reachable s → (sleepUntil d s).leaves s' → Reachable s'
  | call {s n a tr gt t delayed s'} : Reachable s → (callNew n (gnext n) a tr gt t delayed s).leaves s' → Reachable s'

end

end Verif
