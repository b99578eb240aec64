import Verif.Spec.Query

/-!
# Specification: the order of answers

The answers of a query without generators: a query that is started in a state passes through a
list of visits, each of them the state in which an answer is given and the state in which it
is asked for more (the consumer may do anything in between), and ends in a state without
further answers.
-/

namespace Verif

section
variable {W A G : Type} [Arith] [QWorld W A G]

/-- Calling `next` until there are no more answers. -/
inductive Visits : Gen A G → QSt W → List (QSt W × QSt W) → QSt W → Prop where
  | stop {n g s s'} : gnext n g s = .ok none s' → Visits g s [] s'
  | next {n g s g' s₁ s₂ ps s'} : gnext n g s = .ok (some g') s₁ → Visits g' s₂ ps s' → Visits g s ((s₁, s₂) :: ps) s'

/-- The beliefs are tried one after the other; the number of beliefs must not change meanwhile. -/
inductive BelsInOrder (grp : String × Nat) (t : Term) (size : Nat) : List Term → QSt W → List (QSt W × QSt W) → QSt W → Prop where
  | nil {s} : (QWorld.beliefs s.w grp).length = size → BelsInOrder grp t size [] s [] s
  | skip {n x xs s b ps s'} : (QWorld.beliefs s.w grp).length = size → uaStart n t x s.b = .ok none b →
      BelsInOrder grp t size xs { s with b := b } ps s' → BelsInOrder grp t size (x :: xs) s ps s'
  | take {n x xs s c b s₂ ps s'} : (QWorld.beliefs s.w grp).length = size → uaStart n t x s.b = .ok (some c) b →
      BelsInOrder grp t size xs { s₂ with b := reroll s₂.b c } ps s' → BelsInOrder grp t size (x :: xs) s (({ s with b := b }, s₂) :: ps) s'

mutual
/-- The visits of a query, in order. -/
inductive InOrder : Query A → QSt W → List (QSt W × QSt W) → QSt W → Prop where
  | tru {s s₂} : InOrder .tru s [(s, s₂)] s₂
  | fls {s} : InOrder .fls s [] s
  /-- Actions give their answers as they like. -/
  | act {a t s ps s'} : Visits (.act (QWorld.actGen W a t)) s ps s' → InOrder (.act a t) s ps s'
  | yes {n t s s₂} : evaluate n s.b.scope t = .ok (.bool true) → InOrder (.term t) s [(s, s₂)] s₂
  | no {n t s} : evaluate n s.b.scope t = .ok (.bool false) → InOrder (.term t) s [] s
  /-- First the beliefs, then the rules. -/
  | lit {n t s f as xs ps s₁ qs s'} : evaluate n s.b.scope t = .ok (.lit f as xs) →
      BelsInOrder (f, as.length) (.lit f as xs) (QWorld.beliefs s.w (f, as.length)).length (QWorld.beliefs s.w (f, as.length)) s ps s₁ →
      RulesInOrder s₁.b.ncp (.lit f as xs) (QWorld.rules s₁.w (f, as.length)) { s₁ with b := s₁.b.newCp.2 } qs s' →
      InOrder (.term t) s (ps ++ qs) s'
  /-- For every answer of the left side, all answers of the right side, before the next one of the left side. -/
  | and {l r s ps qs s'} : InOrder l s ps s' → EachInOrder r ps qs → InOrder (.and l r) s qs s'
  /-- All answers of the left side, then all of the right side. -/
  | or {l r s ps s₁ qs s'} : InOrder l s ps s₁ → InOrder r s₁ qs s' → InOrder (.or l r) s (ps ++ qs) s'
  /-- No answer: succeeds once. -/
  | notYes {q s s₁ s₂} : InOrder q { s with b := s.b.mark } [] s₁ → InOrder (.not q) s [({ s₁ with b := reroll s₁.b s.b.ncp }, s₂)] s₂
  /-- An answer: fails; the others are not looked for. -/
  | notNo {n q s g s₁} : gnext n (.start q : Gen A G) { s with b := s.b.mark } = .ok (some g) s₁ →
      InOrder (.not q) s [] { s₁ with b := reroll s₁.b s.b.ncp }
  | unifyYes {n l r s c b s₂} : uaStart n l r s.b = .ok (some c) b → InOrder (.unify l r) s [({ s with b := b }, s₂)] { s₂ with b := reroll s₂.b c }
  | unifyNo {n l r s b} : uaStart n l r s.b = .ok none b → InOrder (.unify l r) s [] { s with b := b }
/-- The rules are used one after the other: all answers with the first one (of a copy with new variables), then all
with the next one.  The bindings of the head and everything above the choicepoint `c` are undone after each. -/
inductive RulesInOrder : Nat → Term → List (Rule A) → QSt W → List (QSt W × QSt W) → QSt W → Prop where
  | nil {c t s} : RulesInOrder c t [] s [] s
  | skip {n c t r rs s b ps s'} : unify n t (r.deepcopy s.nv).head (s.b.pushCp c) = .ok false b →
      RulesInOrder c t rs ⟨reroll b c, s.nv + r.bound, s.w⟩ ps s' → RulesInOrder c t (r :: rs) s ps s'
  | use {n c t r rs s b ps s₁ qs s'} : unify n t (r.deepcopy s.nv).head (s.b.pushCp c) = .ok true b →
      InOrder (r.deepcopy s.nv).query ⟨b, s.nv + r.bound, s.w⟩ ps s₁ →
      RulesInOrder c t rs { s₁ with b := reroll s₁.b c } qs s' → RulesInOrder c t (r :: rs) s (ps ++ qs) s'
/-- The query is run to its end at every visit. -/
inductive EachInOrder : Query A → List (QSt W × QSt W) → List (QSt W × QSt W) → Prop where
  | nil {q} : EachInOrder q [] []
  | cons {q s s' ps qs rs} : InOrder q s qs s' → EachInOrder q ps rs → EachInOrder q ((s, s') :: ps) (qs ++ rs)
end

end

end Verif
