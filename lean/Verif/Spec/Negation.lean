import Verif.Spec.Logic
import Verif.Spec.Query

/-!
# Specification: logical meaning of queries with negation

Belief base and rules with two strata: the predicates of the lower one are defined by rules
without negation, and only their queries may be negated.
-/

namespace Verif

section
variable {W A G : Type} [Arith] [QWorld W A G]

/-- `Sat w σ q`: under the assignment `σ`, the query `q` is true in the belief base of `w`
closed under its rules, where a negated query is true if it does not follow (`Holds`) from the
rules without negation. -/
inductive Sat (w : W) : Asg → Query A → Prop where
  | tru {σ} : Sat w σ .tru
  | bool {σ t} : Den σ t (.bool true) → Sat w σ (.term t)
  | belief {σ t grp b} : b ∈ QWorld.beliefs w grp → Agree σ t b → AnnotsMatch σ t.annots b.annots →
      Sat w σ (.term t)
  | rule {σ t grp r τ v} : r ∈ QWorld.rules w grp → Den σ t v → Den τ r.head v → Sat w τ r.query →
      Sat w σ (.term t)
  | and {σ p q} : Sat w σ p → Sat w σ q → Sat w σ (.and p q)
  | orL {σ p q} : Sat w σ p → Sat w σ (.or p q)
  | orR {σ p q} : Sat w σ q → Sat w σ (.or p q)
  | unify {σ l r} : Agree σ l r → (l.isLiteral = true → r.isLiteral = true → AnnotsMatch σ l.annots r.annots) →
      Sat w σ (.unify l r)
  | not {σ q} : ¬ Holds w σ q → Sat w σ (.not q)

omit [Arith] [QWorld W A G] in
/-- All literals that are looked up are about predicates of `P`; no variables or wildcards in place of
literals, no negation, no actions. -/
def Query.Within (P : String × Nat → Prop) : Query A → Prop
  | .tru | .fls | .unify _ _ => True
  | .act _ _ | .not _ | .term (.var _) | .term .wild => False
  | .term (.lit f as _) => P (f, as.length)
  | .term _ => True
  | .and l r => l.Within P ∧ r.Within P
  | .or l r => l.Within P ∧ r.Within P

/-- Side conditions on queries with negation: as for C14, and for what is negated as for C15,
with predicates of the lower stratum only. -/
def Query.NegOK (w : W) (cmp : Bool) (P : String × Nat → Prop) : Query A → Prop
  | .not q => q.OK w cmp ∧ q.GroundAnnots ∧ q.Within P
  | .and l r => l.NegOK w cmp P ∧ r.NegOK w cmp P
  | .or l r => l.NegOK w cmp P ∧ r.NegOK w cmp P
  | q => q.OK w cmp

/-- Side conditions on belief base and rules: as `KBOK`, but rules may contain negated queries
about the lower stratum `P`, which is closed under the rules for its predicates, without
negation. -/
structure Strata (w : W) (cmp : Bool) (P : String × Nat → Prop) : Prop where
  belief : ∀ grp, ∀ b ∈ QWorld.beliefs w grp, b.group = grp ∧ b.Parts Term.Closed ∧ b.Parts (Term.Tame cmp) ∧
    b.bound = 0
  rule : ∀ grp, ∀ r ∈ QWorld.rules w grp, r.head.group = grp ∧ r.head.Parts Term.NoWild ∧
    r.head.Parts (Term.Tame cmp) ∧ r.query.NegOK w cmp P
  lower : ∀ grp, P grp → ∀ r ∈ QWorld.rules w grp, r.query.OK w cmp ∧ r.query.GroundAnnots ∧ r.query.Within P

end

end Verif
