import Verif.Model.Query
import Verif.Spec.Trail

/-!
# Specification: consumers of queries, trail discipline
-/

namespace Verif

section
variable {A : Type}

/-- Syntactic condition of the trail theorems: all actions satisfy `ok`, and in `l = r`
the left side is not a literal if the right side is a variable or wildcard. -/
def Query.Clean (ok : A → Term → Prop) : Query A → Prop
  | .act a t => ok a t
  | .and l r => l.Clean ok ∧ r.Clean ok
  | .or l r => l.Clean ok ∧ r.Clean ok
  | .not q => q.Clean ok
  | .unify l r => l.isLiteral = true → r ≠ .wild ∧ ∀ y, r ≠ .var y
  | _ => True

/-- `q.settles act r`: at exhaustion of the query everything is as before it, if the
consumer leaves everything as it was between the answers (`r = true`) or makes at most
trailed changes (`r = false`).  `act a t r` says this about actions.  Belief queries and `=`
set a choicepoint before each answer and roll back to it; in a conjunction the consumer
of the left query is the right query with its consumer. -/
def Query.settles (act : A → Term → Bool → Bool) : Query A → Bool → Bool
  | .tru, r => r
  | .fls, _ => true
  | .act a t, r => act a t r
  | .term t, r => r || t.isLiteral
  | .and l q, r => l.settles act (q.settles act r)
  | .or l q, r => l.settles act r && q.settles act r
  | .not _, r => r
  | .unify _ _, _ => true

/-- The queries of all rules of all predicates satisfy `p`. -/
def RulesAre {W G : Type} [QWorld W A G] (p : Rule A → Prop) (w : W) : Prop :=
  ∀ grp, ∀ r ∈ QWorld.rules w grp, p r

end

section
variable {W A G : Type} [Arith] [QWorld W A G]

/-- No actions in the rules; beliefs are literals. -/
structure Plain (w : W) : Prop where
  rules : RulesAre (fun r : Rule A => r.query.Clean fun _ _ => False) w
  bels : ∀ grp, ∀ b ∈ QWorld.beliefs w grp, b.isLiteral = true

/-- A consumer that takes all answers: `next` is called until the generator is exhausted;
between the answers the consumer changes the state as allowed by `R`.  The list contains
the states in which the answers were yielded. -/
inductive Drain (R : QSt W → QSt W → Prop) : Gen A G → QSt W → List (QSt W) → QSt W → Prop where
  | stop {n g s s'} : gnext n g s = .ok none s' → Drain R g s [] s'
  | next {n g s g' s₁ s₂ l s'} : gnext n g s = .ok (some g') s₁ → R s₁ s₂ → Drain R g' s₂ l s' →
      Drain R g s (s₁ :: l) s'

/-- `Answer R g s s'`: one of the answers of the generator is yielded in state `s'`
(which need not be the last one). -/
inductive Answer (R : QSt W → QSt W → Prop) : Gen A G → QSt W → QSt W → Prop where
  | now {n g s g' s₁} : gnext n g s = .ok (some g') s₁ → Answer R g s s₁
  | later {n g s g' s₁ s₂ s'} : gnext n g s = .ok (some g') s₁ → R s₁ s₂ → Answer R g' s₂ s' → Answer R g s s'

/-- `Rounds R g s g' s'`: after one or more answers the generator `g` is suspended as `g'`, the last
answer was yielded in state `s'`. -/
inductive Rounds (R : QSt W → QSt W → Prop) : Gen A G → QSt W → Gen A G → QSt W → Prop where
  | one {n g s g' s₁} : gnext n g s = .ok (some g') s₁ → Rounds R g s g' s₁
  | more {n g s g₁ s₁ s₂ g' s'} : gnext n g s = .ok (some g₁) s₁ → R s₁ s₂ → Rounds R g₁ s₂ g' s' → Rounds R g s g' s'

/-- The belief `x` matches the pattern `t`: `unify_annotated(t, x)`, started with the
bindings of `b`, yields with the bindings of `b'`. -/
def Yields (t x : Term) (b b' : BSt) : Prop := ∃ n b₁ d, Same b b₁ ∧ uaStart n t x b₁ = .ok (some d) b'

/-- The belief does not match: `unify_annotated(t, x)` is exhausted at once. -/
def Fails (t x : Term) (b : BSt) : Prop := ∃ n b₁ b', Same b b₁ ∧ uaStart n t x b₁ = .ok none b'

/-- The answers `l` are those of the matching beliefs, one for each, in the order of the
beliefs. -/
inductive OnePerMatch (t : Term) (b : BSt) : List Term → List (QSt W) → Prop where
  | nil : OnePerMatch t b [] []
  | hit {x xs s l} : Yields t x b s.b → OnePerMatch t b xs l → OnePerMatch t b (x :: xs) (s :: l)
  | miss {x xs l} : Fails t x b → OnePerMatch t b xs l → OnePerMatch t b (x :: xs) l

end

end Verif
