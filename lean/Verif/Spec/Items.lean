import Verif.Model.Stdlib
import Verif.Spec.Query
import Verif.Spec.Compare

/-!
# Specification: enumerating the items of a list, collecting answers
-/

namespace Verif

/-- The lists have the same length, and `P` holds of the items pairwise. -/
inductive AllOf {α β : Type} (P : α → β → Prop) : List α → List β → Prop where
  | nil : AllOf P [] []
  | cons {x y xs ys} : P x y → AllOf P xs ys → AllOf P (x :: xs) (y :: ys)

section
variable [Arith]

/-- `sc'` is `sc` with the variable `x`, which has no value in `sc`, standing for the value
of `y`.  (Nothing is recorded if `y` is the wildcard or stands for `x` itself.) -/
inductive StandsFor (x : VarId) : Term → Scope → Scope → Prop where
  | value {y v n sc} : y ≠ .wild → evaluate n sc y = .ok v → v ≠ .var x → StandsFor x y sc (sc.set x v)
  | itself {y n sc} : y ≠ .wild → evaluate n sc y = .ok (.var x) → StandsFor x y sc sc
  | wild {sc} : StandsFor x .wild sc sc

/-- The item can be evaluated. -/
def Evaluates (sc : Scope) (y : Term) : Prop := y = .wild ∨ ∃ n v, evaluate n sc y = .ok v

/-- With the bindings `sc`, the pattern `x` unifies with the item `y`; `b` is the state
then. -/
def Hit (x y : Term) (sc : Scope) (b : BSt) : Prop := ∃ n b₁, b₁.scope = sc ∧ unify n x y b₁ = .ok true b

/-- With the bindings `sc`, the pattern `x` does not unify with the item `y`. -/
def Miss (x y : Term) (sc : Scope) : Prop := ∃ n b₁ b, b₁.scope = sc ∧ unify n x y b₁ = .ok false b

/-- The answers are those of the items that unify with the pattern, one for each, in the
order of the items. -/
inductive OnePerItem {W : Type} (x : Term) (sc : Scope) : List Term → List (QSt W) → Prop where
  | nil : OnePerItem x sc [] []
  | hit {y ys s l} : Hit x y sc s.b → OnePerItem x sc ys l → OnePerItem x sc (y :: ys) (s :: l)
  | miss {y ys l} : Miss x y sc → OnePerItem x sc ys l → OnePerItem x sc (y :: ys) l

end

/-- What a value counts for in a sum: truth values are numbers for Python. -/
inductive CountsAs : Term → Rat → Prop where
  | num (q : Rat) : CountsAs (.num q) q
  | bool (b : Bool) : CountsAs (.bool b) (if b then 1 else 0)

/-- The numbers added to `t` one by one give `t'`. -/
inductive AddsUp [Arith] : Rat → List Term → Rat → Prop where
  | nil {t} : AddsUp t [] t
  | cons {v q t t₁ vs t'} : CountsAs v q → Arith.bin .add t q = some t₁ → AddsUp t₁ vs t' → AddsUp t (v :: vs) t'

/-- `needle` occurs in `hay` at position `p`. -/
def OccursAt (needle hay : List Char) (p : Nat) : Prop := ∃ pre post, hay = pre ++ needle ++ post ∧ pre.length = p

end Verif
