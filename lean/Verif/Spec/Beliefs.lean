import Verif.Model.Env
import Verif.Spec.Ground
import Verif.Spec.Annot
import Verif.Spec.Trail

/-!
# Specification: belief bases
-/

namespace Verif

/-- Two agents use the same set object for a predicate. -/
def Shares (w : World) (a a' : Nat) (g : String × Nat) : Prop :=
  ∃ r, (w.ags a).beliefs g = some r ∧ (w.ags a').beliefs g = some r

/-- The heap of belief sets: set objects exist, belong to one predicate only and contain
ground literals of this predicate, no two of them equal. -/
structure BeliefsOK (w : World) : Prop where
  lt : ∀ {a g r}, (w.ags a).beliefs g = some r → r < w.nset
  inj : ∀ {a a' g g' r}, (w.ags a).beliefs g = some r → (w.ags a').beliefs g' = some r → g = g'
  lits : ∀ {a g x}, x ∈ w.beliefs a g → ∃ f as xs, x = .lit f as xs ∧ g = (f, as.length)
  ground : ∀ {a g x}, x ∈ w.beliefs a g → x.Ground
  set : ∀ {a g}, (w.beliefs a g).Pairwise fun x y => pyEqB x y = false

mutual
/-- All lists, also in annotations, have a list or a string as their tail. -/
def Term.Proper : Term → Prop
  | .lit _ args annots => Term.ProperL args ∧ Term.ProperL annots
  | .tup xs => Term.ProperL xs
  | .cons h t => Term.Proper h ∧ Term.Proper t ∧ ∃ xs, iter t = .ok xs
  | .un _ t => Term.Proper t
  | .bin _ l r => Term.Proper l ∧ Term.Proper r
  | _ => True
def Term.ProperL : List Term → Prop
  | [] => True
  | t :: ts => Term.Proper t ∧ Term.ProperL ts
end

mutual
/-- Ground terms built from numbers, strings, literals without annotations, and lists
without `|`. -/
def Term.Simple : Term → Prop
  | .num _ | .str _ => True
  | .lit _ args annots => annots = [] ∧ Term.SimpleL args
  | .tup xs => Term.SimpleL xs
  | _ => False
def Term.SimpleL : List Term → Prop
  | [] => True
  | t :: ts => Term.Simple t ∧ Term.SimpleL ts
end

/-- Annotations have no annotations themselves and have different values. -/
def Term.Flat (t : Term) : Prop :=
  (∀ x ∈ t.annots, x.annots = []) ∧ t.annots.Pairwise fun x y => x.val ≠ y.val

/-- The ground literal `l` is the same as `r`, and its annotations are among those of
`r`. -/
def Covers (l r : Term) : Prop := l.val = r.val ∧ ∀ x ∈ l.annots, ∃ y ∈ r.annots, y.val = x.val

/-- With the bindings `sc`, `t` matches the belief `x` (including annotations), leading to
the bindings `sc'`. -/
def Matches [Arith] (t x : Term) (sc sc' : Scope) : Prop :=
  ∃ n b d b', b.scope = sc ∧ uaStart n t x b = .ok (some d) b' ∧ b'.scope = sc'

/-- With the bindings `sc`, `t` does not match `x`. -/
def NoMatch [Arith] (t x : Term) (sc : Scope) : Prop :=
  ∃ n b b', b.scope = sc ∧ uaStart n t x b = .ok none b'

/-- Following the bindings, an unbound variable or a wildcard is found somewhere in the
term. -/
inductive Unbound (sc : Scope) : Term → Prop where
  | var {x} : sc x = none → Unbound sc (.var x)
  | bound {x u} : sc x = some u → Unbound sc u → Unbound sc (.var x)
  | wild : Unbound sc .wild
  | arg {f as xs t} : t ∈ as → Unbound sc t → Unbound sc (.lit f as xs)
  | annot {f as xs t} : t ∈ xs → Unbound sc t → Unbound sc (.lit f as xs)
  | item {xs t} : t ∈ xs → Unbound sc t → Unbound sc (.tup xs)
  | head {h t} : Unbound sc h → Unbound sc (.cons h t)
  | tail {h t} : Unbound sc t → Unbound sc (.cons h t)
  | un {o t} : Unbound sc t → Unbound sc (.un o t)
  | left {o l r} : Unbound sc l → Unbound sc (.bin o l r)
  | right {o l r} : Unbound sc r → Unbound sc (.bin o l r)

/-- An operation of a belief base history. -/
inductive BeliefOp where
  | add (t : Term)
  | del (t : Term)

/-- All arguments are wildcards, expressions or variables, and the variables are
different. -/
def OpenArgs : List Term → Prop
  | [] => True
  | .var x :: ts => .var x ∉ ts ∧ OpenArgs ts
  | .wild :: ts => OpenArgs ts
  | .un _ _ :: ts => OpenArgs ts
  | .bin _ _ _ :: ts => OpenArgs ts
  | _ :: _ => False

end Verif
