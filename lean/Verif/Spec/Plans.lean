import Verif.Spec.Step
import Verif.Spec.KB

/-!
# Specification: choosing a plan for an event
-/

namespace Verif

/-- The events for which plans are looked up: all but `unachieve`, `tellHow`, `untellHow` and
`askHow`. -/
def planEvent : Trigger → GoalType → Bool
  | .removal, .achievement => false
  | _, .tellHow => false
  | .addition, .askHow => false
  | _, _ => true

section
variable [Host]

/-- Plan `p` is tried for the event `e` in state `s` and is not applicable: its head does
not unify with `e`, or it does but the context has no answer (the bindings of the head
are undone then). -/
inductive Rejects (n : Nat) (e : Term) (p : Plan) (s : QSt World) : QSt World → Prop where
  | head {b} : uaStart n p.head e s.b = .ok none b → Rejects n e p s { s with b := b }
  | context {c b s₁} : uaStart n p.head e s.b = .ok (some c) b →
      gnext n (.start p.context) { s with b := b } = .ok none s₁ → Rejects n e p s { s₁ with b := uaResume c s₁.b }

/-- Plan `p` is tried for the event `e` in state `s` and is applicable: its head unifies with
`e`, and the context has a (first) answer, yielded in state `s'`. -/
inductive Accepts (n : Nat) (e : Term) (p : Plan) (s s' : QSt World) : Prop where
  | mk {c b g} : uaStart n p.head e s.b = .ok (some c) b →
      gnext n (.start p.context) { s with b := b } = .ok (some g) s' → Accepts n e p s s'

/-- Trying the plan raises an exception. -/
inductive Raises (n : Nat) (e : Term) (p : Plan) (s : QSt World) : Err → QSt World → Prop where
  | head {x b} : uaStart n p.head e s.b = .err x b → Raises n e p s x { s with b := b }
  | context {c b x s'} : uaStart n p.head e s.b = .ok (some c) b →
      gnext n (.start p.context) { s with b := b } = .err x s' → Raises n e p s x s'

/-- The plans are tried one after the other, none is applicable. -/
inductive RejectsAll (n : Nat) (e : Term) : List Plan → QSt World → QSt World → Prop where
  | nil {s} : RejectsAll n e [] s s
  | cons {p ps s s₁ s'} : Rejects n e p s s₁ → RejectsAll n e ps s₁ s' → RejectsAll n e (p :: ps) s s'

/-- Plan `p` is applicable for `e` in world `w`, with the bindings `b` (of the first answer of
its context), in a new intention. -/
def Applicable (n : Nat) (e : Term) (w : World) (p : Plan) (b : BSt) : Prop :=
  ∃ s s', Same BSt.init s.b ∧ s.w = w ∧ Accepts n e p s s' ∧ s'.b = b

/-- Plan `p` is not applicable for `e` in world `w`, in a new intention. -/
def Inapplicable (n : Nat) (e : Term) (w : World) (p : Plan) : Prop :=
  ∃ s s', Same BSt.init s.b ∧ s.w = w ∧ Rejects n e p s s'

/-- Trying `p` for `e` in world `w` raises an exception. -/
def RaisesIn (n : Nat) (e : Term) (w : World) (p : Plan) (x : Err) : Prop :=
  ∃ s s', Same BSt.init s.b ∧ s.w = w ∧ Raises n e p s x s'

end

section
variable [Host]

/-- Side conditions of the logical reading of applicability (see C01, C11, C14): `k` is a bound
of the variables in use. -/
structure Plan.OK (w : World) (c : Bool) (k : Nat) (e : Term) (p : Plan) : Prop where
  head : p.head.LitOK c
  event : e.Parts (Term.Tame c)
  compat : LitCompat p.head e
  context : p.context.OK w c
  vars : p.head.bound ≤ k ∧ e.bound ≤ k ∧ p.context.bound ≤ k

/-- Under the assignment `σ`, the event `e` is an instance of the head of `p` (with its
annotations), and the context of `p` is true. -/
def Fits (w : World) (σ : Asg) (e : Term) (p : Plan) : Prop :=
  Agree σ p.head e ∧ AnnotsMatch σ p.head.annots e.annots ∧ Holds w σ p.context

end

/-- A plan whose context contains no actions. -/
def Plan.Clean (p : Plan) : Prop := p.head.isLiteral = true ∧ p.context.Clean fun _ _ => False

/-- The rules of agent `a` contain no actions, and its beliefs are literals. -/
def PlainAgent (w : World) (a : Nat) : Prop :=
  ∀ g, (∀ r ∈ (w.ags a).rules g, r.query.Clean fun _ _ => False) ∧ ∀ b ∈ w.beliefs a g, b.isLiteral = true

/-- The world as seen by a new intention of agent `a`. -/
def World.forNew (w : World) (a : Nat) : World := { w.setInt w.nint {} with nint := w.nint + 1, cur := a, curInt := w.nint }

/-- Where the new intention `i` goes: on top of the stack whose top is the calling intention,
or (if there is none, or if `delayed`) on a new stack at the end. -/
inductive Placed (i calling : Nat) (delayed : Bool) : List (List Nat) → List (List Nat) → Prop where
  | new {sts} : (delayed = true ∨ ∀ st, (calling :: st) ∉ sts) → Placed i calling delayed sts (sts ++ [[i]])
  | onTop {l st r} : delayed = false → (∀ st', (calling :: st') ∉ l) →
      Placed i calling delayed (l ++ (calling :: st) :: r) (l ++ (i :: calling :: st) :: r)

/-- From `w` to `w'` exactly one intention of agent `a` was started: the body of `p`, for the
event `e` (the calling term is `t`), with the bindings `b`.  Nothing else has changed. -/
structure Begun (a : Nat) (t e : Term) (p : Plan) (b : BSt) (calling : Nat) (delayed : Bool) (w w' : World) : Prop where
  count : w'.nint = w.nint + 1
  new : w'.ints w.nint = { headTerm := some e, instr := some p.body, callingTerm := some t, b := b }
  others : ∀ j, j ≠ w.nint → w'.ints j = w.ints j
  stacks : Placed w.nint calling delayed (w.ags a).intentions (w'.ags a).intentions
  agent : w'.ags a = { w.ags a with intentions := (w'.ags a).intentions }
  agents : ∀ a', a' ≠ a → w'.ags a' = w.ags a'
  sets : w'.sets = w.sets
  plans : w'.plists = w.plists
  events : w'.events = w.events
  code : w'.code = w.code

/-- From `w` to `w'` no intention was started, and beliefs, plans and intentions are
unchanged.  (An `Intention` object was created and dropped.) -/
structure Quiet (w w' : World) : Prop where
  ags : w'.ags = w.ags
  ints : ∀ j, j ≠ w.nint → w'.ints j = w.ints j
  sets : w'.sets = w.sets
  plans : w'.plists = w.plists
  events : w'.events = w.events

/-- The event `⟨tr, gt, e⟩` was delivered to agent `a`: `e` is a fresh copy of the goal term `t`,
the event is on record, intentions waiting for it may have been woken up; nothing else has
changed. -/
structure Announced (n a : Nat) (tr : Trigger) (gt : GoalType) (t e : Term) [Arith] (s s' : QSt World) : Prop where
  frozen : ∃ m, freezeNew n s.b.scope t s.nv = .ok e m ∧ s'.nv = m.nv
  literal : e.isLiteral = true
  bindings : s'.b = s.b
  events : s'.w.events = (a, ⟨tr, gt, e⟩) :: s.w.events
  ags : s'.w.ags = s.w.ags
  ints : ∀ j, s'.w.ints j = s.w.ints j ∨
    ∃ x, (s.w.ints j).waiter = some x ∧ s'.w.ints j = { s.w.ints j with waiter := none }
  nint : s'.w.nint = s.w.nint
  sets : s'.w.sets = s.w.sets
  plans : s'.w.plists = s.w.plists
  reg : s'.w.reg = s.w.reg
  code : s'.w.code = s.w.code

/-- Two lists of the same length whose elements are related one by one. -/
inductive Pairs {α β : Type} (R : α → β → Prop) : List α → List β → Prop where
  | nil : Pairs R [] []
  | cons {x y xs ys} : R x y → Pairs R xs ys → Pairs R (x :: xs) (y :: ys)

/-- The source plan is for the event `tr gt f(…)` with `n` arguments. -/
def PlanSrc.isFor (tr : Trigger) (gt : GoalType) (f : String) (n : Nat) (src : PlanSrc) : Bool :=
  src.trigger == tr && src.goalType == gt && match src.head with
  | .lit g as _ => g == f && as.length == n
  | _ => false

end Verif
