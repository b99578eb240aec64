import Verif.Lemmas.FoldQuery
import Verif.Props.Query
import Verif.Props.Fold

/-!
# C40, queries

Contexts, rule bodies and queries in plan bodies are folded by `LogicalFoldVisitor`.  The
query that is built from the folded tree is the query of the tree with constant operations
replaced by their values (`C40_query`).  It is true under the same assignments
(`C40_query_holds`), and each answer of one of them is covered by an answer of the other
(`C40_answers_partial`).  The number of answers can be smaller (`C40_answers_fewer`).
-/

namespace Verif

section
variable [Arith]

/-- **C40**, queries.  Folding a query without an error: the folded tree builds a query, too;
it is the query of the original tree with some constant operations replaced by their values,
in the terms as well as in comparisons and connectives. -/
theorem C40_query {acts : Lookup} {vars : List Char → Term} {a a' : Ast} {s : Nat} {q : Query Act} (hq : QueryOf acts vars a q)
    (h : fold .logical a s = .ok (some a') s) : ∃ q', QueryOf acts vars a' q' ∧ QReduces q q' :=
  fold_query hq h

variable {W A G : Type} [QWorld W A G]

/-- Replacing constant operations by their values does not change the truth of a query, under
any assignment, in any belief base with any rules. -/
theorem C40_query_holds {cmp : Bool} {w : W} {q q' : Query A} (hw : KBOK w cmp) (h : QReduces q q') (hq : q.OK w cmp) (σ : Asg) :
    Holds w σ q ↔ Holds w σ q' :=
  h.holds hw hq

/-- An answer of a generator that has been exhausted. -/
theorem Drain.answer {R : QSt W → QSt W → Prop} {g : Gen A G} {s s' : QSt W} {l : List (QSt W)} (h : Drain R g s l s') :
    ∀ {s₁}, s₁ ∈ l → Answer R g s s₁ := by
  induction h with
  | stop => nofun
  | next h1 hR _ ih =>
    intro s₁ hm
    cases hm with
    | head => exact .now h1
    | tail _ hm => exact .later h1 hR (ih hm)

/-- The bindings of an answer of `s` are, up to the variables created by the queries, covered
by one of the answers `l`. -/
def CoveredBy (s s₁ : QSt W) (l : List (QSt W)) : Prop :=
  ∀ σ : Asg, Models σ s.b.scope → Models σ s₁.b.scope → ∃ s₂ ∈ l, ∃ σ', EqBelow s.nv σ σ' ∧ Models σ' s₂.b.scope

/-- **C40**, answers.  The query and the folded query are exhausted, starting with the same
bindings: every answer of one of them is covered by the answers of the other.  Missing:
queries with negation or actions; annotations with variables; the number of answers, see
`C40_answers_fewer`. -/
theorem C40_answers_partial {cmp : Bool} {q q' : Query A} {s s' s'' : QSt W} {l l' : List (QSt W)} (hw : KBOK s.w cmp)
    (h : QReduces q q') (hq : q.OK s.w cmp) (hg : q.GroundAnnots) (hr : RulesAre (fun r : Rule A => r.query.GroundAnnots) s.w)
    (hsc : ScopeOK cmp s.b.scope) (hb : ScopeBelow s.nv s.b.scope) (hqb : q.bound ≤ s.nv)
    (hd : Drain (fun s s' => s' = s) (.start q : Gen A G) s l s') (hd' : Drain (fun s s' => s' = s) (.start q' : Gen A G) s l' s'') :
    (∀ s₁ ∈ l, CoveredBy s s₁ l') ∧ ∀ s₁ ∈ l', CoveredBy s s₁ l := by
  have hqb' : q'.bound ≤ s.nv := Nat.le_trans h.bound hqb
  have d := drain_consumer hw hq hg hr hsc hb hqb hd
  have d' := drain_consumer hw (h.ok hq) (h.ground hg) hr hsc hb hqb' hd'
  have weak : ∀ {s₁ s₂ : QSt W}, Consumer cmp true s₁ s₂ → Consumer cmp false s₁ s₂ := fun hc =>
    ⟨hc.world, hc.vars, Same.above (by simpa using hc.trail), hc.ok, hc.below⟩
  constructor
  · intro s₁ hs σ h1 h2
    have a := C14_query_sound hw hq hsc hb hqb ((d.mono fun _ _ h => weak h).answer hs) σ h2
    exact C15_query_complete_partial hw (h.ok hq) (h.ground hg) hr hsc hb hqb' d' σ h1 ((h.holds hw hq).1 a)
  · intro s₁ hs σ h1 h2
    have a := C14_query_sound hw (h.ok hq) hsc hb hqb' ((d'.mono fun _ _ h => weak h).answer hs) σ h2
    exact C15_query_complete_partial hw hq hg hr hsc hb hqb d σ h1 ((h.holds hw hq).2 a)

end

section examples
attribute [local instance] exactArith

private abbrev n (q : Rat) : Ast := .const (.num (.fin q))
private abbrev yes : Ast := .const (.bool true)

/-- `true | true` has two answers, the folded query has one. -/
theorem C40_answers_fewer : ∃ (a a' : Ast) (q q' : Query Empty) (l l' : List (QSt KB)) (s s' : QSt KB),
    fold .logical a 0 = .ok (some a') 0 ∧ a = .bin .or yes yes ∧ a' = yes ∧ q = .or .tru .tru ∧ q' = .tru ∧ QReduces q q' ∧
    Drain (fun s s' => s' = s) (.start q : Gen Empty Empty) demoS l s ∧
    Drain (fun s s' => s' = s) (.start q' : Gen Empty Empty) demoS l' s' ∧ l.length = 2 ∧ l'.length = 1 :=
  ⟨_, _, _, _, _, _, _, _, by with_unfolding_all rfl, rfl, rfl, rfl, rfl, .orValue (a := true) (b := true) (.refl _) (.refl _),
    .next (n := 30) rfl rfl (.next (n := 30) rfl rfl (.stop (n := 30) rfl)), .next (n := 30) rfl rfl (.stop (n := 30) rfl), rfl, rfl⟩

private def vars : List Char → Term := fun _ => .var 0
private abbrev x : Ast := .var ['X']

/-- `p(X + (2 - 1)) & (X > 3 * 2 | 1 < 2) & not (2 == 3)`, folded: `p(X + 1) & (X > 6 | true) & true` -/
private def tree : Ast :=
  .bin .and (.bin .and (.lit ['p'] [.bin .add x (.bin .sub (n 2) (n 1))] []) (.bin .or (.bin .gt x (.bin .mul (n 3) (n 2))) (.bin .lt (n 1) (n 2))))
    (.un .not (.bin .eq (n 2) (n 3)))
private def folded : Ast :=
  .bin .and (.bin .and (.lit ['p'] [.bin .add x (n 1)] []) (.bin .or (.bin .gt x (n 6)) yes)) yes
private theorem tree_folded : fold .logical tree 0 = .ok (some folded) 0 := by with_unfolding_all rfl
private theorem tree_query : ∃ q, QueryOf (fun _ _ => none) vars tree q :=
  ⟨_, .and (.and (.belief rfl) (.or (.comp rfl) (.comp rfl))) (.not (.comp rfl))⟩
example : ∃ q q', QueryOf (fun _ _ => none) vars tree q ∧ QueryOf (fun _ _ => none) vars folded q' ∧ QReduces q q' := by
  obtain ⟨q, hq⟩ := tree_query
  obtain ⟨q', h1, h2⟩ := C40_query hq tree_folded
  exact ⟨q, q', hq, h1, h2⟩

/-- `X = 1 + 1 & r(X) & 1 == 1` is folded to `X = 2 & r(X) & true`; one answer, with the belief base and rules of `demoKB`. -/
private def before : Query Empty := .and (.unify (.var 0) (.bin .add (.num 1) (.num 1))) (.and demoQ (.term (.bin .eq (.num 1) (.num 1))))
private def after : Query Empty := .and (.unify (.var 0) (.num 2)) (.and demoQ .tru)
private theorem before_after : QReduces before after :=
  .and (.unify (.refl _) (.binValue (.refl _) (.refl _) rfl (by with_unfolding_all rfl)))
    (.and (.refl _) (.value (b := true) (.compValue (n := 1) (.refl _) (.refl _) rfl rfl rfl rfl)))
private theorem before_ok : before.OK demoKB true := by
  simp [before, Query.OK, Term.isLiteral, Term.LitOK, Term.Parts, Term.Tame, Term.NoAnnots, Term.Every, Term.NoWild, Term.annots]
/-- All answers, with `m` steps for each of at most `k` answers. -/
private def answers (m : Nat) : Nat → Gen Empty Empty → QSt KB → Option (List (QSt KB) × QSt KB)
  | 0, _, _ => none
  | k + 1, g, s => match gnext m g s with
    | .ok (some g') s₁ => (answers m k g' s₁).map fun (l, s') => (s₁ :: l, s')
    | .ok none s' => some ([], s')
    | _ => none
private theorem answers_drain {m : Nat} : ∀ {k : Nat} {g : Gen Empty Empty} {s s' : QSt KB} {l : List (QSt KB)},
    answers m k g s = some (l, s') → Drain (fun s s' => s' = s) g s l s'
  | k + 1, g, s, s', l, h => by
    rw [answers] at h
    split at h
    · rename_i h1
      obtain ⟨⟨l', t⟩, h2, h3⟩ := Option.map_eq_some_iff.1 h
      cases h3
      exact .next h1 rfl (answers_drain h2)
    · rename_i h1
      cases h
      exact .stop h1
    · cases h
private theorem drain_of {q : Query Empty} (h : (answers 30 3 (.start q) demoS).map (fun x => x.1.length) = some 1) :
    ∃ (l : List (QSt KB)) (s : QSt KB), Drain (fun s s' => s' = s) (.start q : Gen Empty Empty) demoS l s ∧ l.length = 1 := by
  obtain ⟨⟨l, s⟩, h1, h2⟩ := Option.map_eq_some_iff.1 h
  exact ⟨l, s, answers_drain h1, h2⟩
private theorem before_drain : ∃ (l : List (QSt KB)) (s : QSt KB), Drain (fun s s' => s' = s) (.start before : Gen Empty Empty) demoS l s ∧ l.length = 1 :=
  drain_of (by decide +kernel)
private theorem after_drain : ∃ (l : List (QSt KB)) (s : QSt KB), Drain (fun s s' => s' = s) (.start after : Gen Empty Empty) demoS l s ∧ l.length = 1 :=
  drain_of (by decide +kernel)
example (σ : Asg) : Holds demoKB σ before ↔ Holds demoKB σ after := C40_query_holds demoKB_ok before_after before_ok σ
example : ∃ l l' : List (QSt KB), l.length = 1 ∧ l'.length = 1 ∧ (∀ s₁ ∈ l, CoveredBy demoS s₁ l') ∧ ∀ s₁ ∈ l', CoveredBy demoS s₁ l := by
  obtain ⟨l, s, h1, h2⟩ := before_drain
  obtain ⟨l', s', h3, h4⟩ := after_drain
  exact ⟨l, l', h2, h4, C40_answers_partial demoKB_ok before_after before_ok (by simp [before, Query.GroundAnnots, Term.annots]) demoKB_ground
    nofun nofun (by decide) h1 h3⟩

end examples

end Verif
