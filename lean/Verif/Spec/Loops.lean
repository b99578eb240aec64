import Verif.Spec.Run
import Verif.Spec.Query

/-!
# Specification: statements and the answers of their queries
-/

namespace Verif

section
variable [Host]

/-- Part of a run of the system, in which intention `i` of agent `a` runs the instructions `tr` and none of
its instructions raises.  `K` holds after every step. -/
inductive Calm (a i : Nat) (K : QSt World → Prop) : QSt World → Trace → QSt World → Prop where
  | refl (s) : Calm a i K s [] s
  | runs {s tr s₁ f ok s'} : Calm a i K s tr s₁ → Runs a i f ok s₁ s' → K s' → Calm a i K s (tr ++ [(f, ok)]) s'
  | rests {s tr s₁ a' s'} : Calm a i K s tr s₁ → Rests a' i s₁ s' → K s' → Calm a i K s tr s'
  | sleeps {s tr s₁ d s'} : Calm a i K s tr s₁ → (sleepUntil d s₁).leaves s' → K s' → Calm a i K s tr s'

/-- `t` is what a query of agent `a` finds in state `s`, when it is executed for intention `i`: the bindings of the
intention, and the beliefs and rules of the agent. -/
structure Sees (a i : Nat) (t s : QSt World) : Prop where
  b : t.b = (s.w.ints i).b
  nv : t.nv = s.nv
  beliefs : ∀ g, t.w.beliefs a g = s.w.beliefs a g
  rules : ∀ g, (t.w.ags a).rules g = (s.w.ags a).rules g

/-- The generator `g` is asked in state `s`; the answer is `o`, the state is `s'` then. -/
def Asks (a i : Nat) (g : Gen Act ActGen) (o : Option (Gen Act ActGen)) (s s' : QSt World) : Prop :=
  ∃ n t t', Sees a i t s ∧ t.w.cur = a ∧ gnext n g t = .ok o t' ∧ Sees a i t' s'

/-- What happens between two answers of the query of a loop: the body is executed once. -/
def Round (a i : Nat) (K : QSt World → Prop) (body : List Stmt) (t t' : QSt World) : Prop :=
  ∃ u tr u', Sees a i t u ∧ K u ∧ Calm a i K u tr u' ∧ Stmt.semL body tr .done ∧ Sees a i t' u' ∧ t'.w.cur = a

/-- A `while` loop with `k` rounds.  In every round the query is executed anew. -/
inductive Whiles (a i : Nat) (K : QSt World → Prop) (q : Query Act) (body : List Stmt) : QSt World → Nat → QSt World → Prop where
  | leave {s u u' s'} : Calm a i K s [(.pushQuery q, true), (.pushChoicepoint, true)] u → Asks a i (.start q) none u u' →
      Calm a i K u' [(.popChoicepoint, true), (.popQuery, true)] s' → Whiles a i K q body s 0 s'
  | round {s u g u' u₁ tr u₂ s₁ k s'} : Calm a i K s [(.pushQuery q, true), (.pushChoicepoint, true)] u → Asks a i (.start q) (some g) u u' →
      Calm a i K u' [(.popQuery, true)] u₁ → Calm a i K u₁ tr u₂ → Stmt.semL body tr .done → Calm a i K u₂ [(.popChoicepoint, true)] s₁ →
      Whiles a i K q body s₁ k s' → Whiles a i K q body s (k + 1) s'

end

end Verif
