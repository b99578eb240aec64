import Verif.Spec.Ground
import Verif.Spec.Items

/-!
# Specification: what an action is given as arguments
-/

namespace Verif

/-- The items of a list or the characters of a string, also if a string or an ordinary list is the tail of a
linked list. -/
inductive ItemsOf : Term → List Term → Prop where
  | tup (xs : List Term) : ItemsOf (.tup xs) xs
  | cons {h t : Term} {xs : List Term} : ItemsOf t xs → ItemsOf (.cons h t) (h :: xs)
  | str (cs : List Char) : ItemsOf (.str (String.ofList cs)) (cs.map fun c => .str (String.ofList [c]))

/-- `i` is the next integer on the side of 0. -/
def Truncates (q : Rat) (i : Int) : Prop := (0 ≤ q → (i : Rat) ≤ q ∧ q < i + 1) ∧ (q < 0 → q ≤ i ∧ (i : Rat) - 1 < q)

section
variable [Host]

/-- A parameter of this type is given the value `v` for the argument `t`. -/
inductive Given : Spec → Term → Term → Prop where
  | any (t : Term) : Given .any t t
  | int {q : Rat} {i : Int} : Truncates q i → Given .int (.num q) (.num i)
  | float (q : Rat) : Given .float (.num q) (.num q)
  | intBool (b : Bool) : Given .int (.bool b) (.num (if b then 1 else 0))
  | floatBool (b : Bool) : Given .float (.bool b) (.num (if b then 1 else 0))
  | str (s : String) : Given .aslStr (.str s) (.str s)
  | tru : Given .aslStr (.bool true) (.str "true")
  | fls : Given .aslStr (.bool false) (.str "false")
  | text {t : Term} : (∀ s, t ≠ .str s) → (∀ b, t ≠ .bool b) → Given .aslStr t (.str (Host.str t))
  | items {t : Term} {xs : List Term} : ItemsOf t xs → Given .tuple t (.tup xs)

/-- One after the other. -/
inductive GivenL : List Spec → List Term → List Term → Prop where
  | nil : GivenL [] [] []
  | cons {c cs t ts v vs} : Given c t v → GivenL cs ts vs → GivenL (c :: cs) (t :: ts) (v :: vs)

/-- `cs` are copies of the terms: bound variables are replaced by their values, and one injective renaming
replaces the unbound ones in all terms by variables that did not exist before. -/
def CopiedTogether (s : QSt World) (ts cs : List Term) : Prop :=
  ∃ ρ : VarId → VarId, (∀ x y, ρ x = ρ y → x = y) ∧ (∀ x, s.nv ≤ ρ x) ∧ CopyL s.b.scope (fun x y => y = ρ x) ts cs ∧
    ∀ c ∈ cs, c.VarsIn fun y => s.nv ≤ y

end

end Verif
