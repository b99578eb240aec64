import Verif.Spec.Safe

/-!
# Specification: logical meaning of queries with nested negation

Negation to any depth: the queries that are negated may be about predicates whose rules have negated queries again.
The meaning is given by a set of derived facts that is *supported* by the rules (a model of Clark's completion
of the rules): it contains exactly the heads of the rules whose body is true.  If the rules are stratified,
the facts derived stratum by stratum are such a set.
-/

namespace Verif

section
variable {W A G : Type} [Arith] [QWorld W A G]

/-- `TrueIn R w σ q`: under the assignment `σ`, the query `q` is true in the belief base of `w` with the derived
facts `R`. -/
def TrueIn (R : Val → Prop) (w : W) (σ : Asg) : Query A → Prop
  | .tru => True
  | .fls | .act _ _ => False
  | .term t => Den σ t (.bool true) ∨
    (∃ grp, ∃ b ∈ QWorld.beliefs w grp, Agree σ t b ∧ AnnotsMatch σ t.annots b.annots) ∨ ∃ v, Den σ t v ∧ R v
  | .and p q => TrueIn R w σ p ∧ TrueIn R w σ q
  | .or p q => TrueIn R w σ p ∨ TrueIn R w σ q
  | .not q => ¬ TrueIn R w σ q
  | .unify l r => Agree σ l r ∧ (l.isLiteral = true → r.isLiteral = true → AnnotsMatch σ l.annots r.annots)

/-- The derived facts are exactly the heads of the rules whose body is true. -/
def Supported (R : Val → Prop) (w : W) : Prop :=
  ∀ v, R v ↔ ∃ grp, ∃ r ∈ QWorld.rules w grp, ∃ τ, Den τ r.head v ∧ TrueIn R w τ r.query

omit [Arith] [QWorld W A G] in
/-- All literals that are looked up are about predicates of `P`; no variables or wildcards in place of
literals, no actions. -/
def Query.DeepIn (P : String × Nat → Prop) : Query A → Prop
  | .tru | .fls | .unify _ _ => True
  | .act _ _ | .term (.var _) | .term .wild => False
  | .term (.lit f as _) => P (f, as.length)
  | .term _ => True
  | .and l r => l.DeepIn P ∧ r.DeepIn P
  | .or l r => l.DeepIn P ∧ r.DeepIn P
  | .not q => q.DeepIn P

omit [Arith] [QWorld W A G] in
/-- All literals that are looked up are of level `k` at most, those in negated queries of lower levels; no variables or
wildcards in place of literals, no actions. -/
def Query.Strat (lev : String × Nat → Nat) (k : Nat) : Query A → Prop
  | .tru | .fls | .unify _ _ => True
  | .act _ _ | .term (.var _) | .term .wild => False
  | .term (.lit f as _) => lev (f, as.length) ≤ k
  | .term _ => True
  | .and l r => l.Strat lev k ∧ r.Strat lev k
  | .or l r => l.Strat lev k ∧ r.Strat lev k
  | .not q => ∃ j, j < k ∧ q.Strat lev j

/-- Side conditions on queries with nested negation: as for C14, and for what is negated as for C15,
with predicates of `P` only. -/
def Query.DeepOK (w : W) (cmp : Bool) (P : String × Nat → Prop) : Query A → Prop
  | .not q => q.DeepOK w cmp P ∧ q.GroundAnnots ∧ q.DeepIn P
  | .and l r => l.DeepOK w cmp P ∧ r.DeepOK w cmp P
  | .or l r => l.DeepOK w cmp P ∧ r.DeepOK w cmp P
  | q => q.OK w cmp

/-- Belief base and rules with safe negation, to any depth.  As `SafeStrata`, but the predicates `P` that are
negated may have rules with negated queries. -/
structure DeepStrata (w : W) (cmp : Bool) (P M : String × Nat → Prop) : Prop where
  belief : ∀ grp, ∀ b ∈ QWorld.beliefs w grp, b.group = grp ∧ b.Parts Term.Closed ∧ b.Parts (Term.Tame cmp) ∧
    b.bound = 0
  rule : ∀ grp, ∀ r ∈ QWorld.rules w grp, r.head.group = grp ∧ r.head.Parts Term.NoWild ∧
    r.head.Parts (Term.Tame cmp) ∧ r.query.DeepOK w cmp P
  lower : ∀ grp, P grp → ∀ r ∈ QWorld.rules w grp, r.query.DeepIn P
  ground : ∀ grp, P grp → ∀ r ∈ QWorld.rules w grp, (Query.term (A := A) r.head).Plain ∧ r.query.Plain ∧
    r.query.Over (r.query.after (r.given M))
  safe : RulesAre (fun r : Rule A => r.query.GroundAnnots ∧ r.query.Safe M (r.given M) ∧
    r.head.Over (r.query.after (r.given M))) w

end

end Verif
