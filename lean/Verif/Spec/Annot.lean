import Verif.Spec.Val
import Verif.Spec.Ground

/-!
# Specification: annotations
-/

namespace Verif

/-- `t.annots`; only literals have annotations. -/
def Term.annots : Term → List Term
  | .lit _ _ xs => xs
  | _ => []

/-- `zs` consists of different members (positions) of `ys`. -/
def Chosen (zs ys : List Term) : Prop := ∃ rest, (zs ++ rest).Perm ys

/-- Under the assignment `σ`, the items of `xs` agree one by one with those of `zs`. -/
def AgreeEach [Arith] (σ : Asg) (xs zs : List Term) : Prop :=
  zs.length = xs.length ∧ ∀ p ∈ xs.zip zs, Agree σ p.1 p.2

/-- Under `σ`, the annotations `xs` can be matched with different members of `ys`. -/
def AnnotsMatch [Arith] (σ : Asg) (xs ys : List Term) : Prop :=
  ∃ zs, Chosen zs ys ∧ AgreeEach σ xs zs

/-- Side conditions on a literal as in C01/C02, for its arguments and annotations;
moreover the annotations carry no annotations themselves. -/
def Term.LitOK (cmp : Bool) : Term → Prop
  | .lit _ as xs => (∀ a ∈ as, a.Tame cmp) ∧ ∀ x ∈ xs, x.Tame cmp ∧ x.annots = []
  | _ => False

/-- All arguments and annotations of a literal satisfy `p`. -/
def Term.Parts (p : Term → Prop) : Term → Prop
  | .lit _ as xs => (∀ a ∈ as, p a) ∧ ∀ x ∈ xs, p x
  | _ => False

/-- Wildcards may only occur if the other side is ground. -/
def LitCompat (l r : Term) : Prop :=
  (l.Parts Term.NoWild ∧ r.Parts Term.NoWild) ∨ l.Parts Term.Closed ∨ r.Parts Term.Closed

end Verif
