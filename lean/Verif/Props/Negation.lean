import Verif.Lemmas.Negation
import Verif.Lemmas.FoldQuery
import Verif.Props.Plans

/-!
# C80: answers of queries with negation are correct
-/

namespace Verif

section
variable {W A G : Type} [Arith] [inst : QWorld W A G]

/-- **C80.** Every answer of a query satisfies the query, including its negated parts and the
negated parts of the rules: all assignments consistent with the bindings of the answer make it
true.  The negated queries must be about predicates `P` that are defined without negation, with
ground annotations. -/
theorem C80_sound_partial {cmp : Bool} {P : String × Nat → Prop} {q : Query A} {s s' : QSt W} (hs : Strata s.w cmp P)
    (hq : q.NegOK s.w cmp P) (hsc : ScopeOK cmp s.b.scope) (hb : ScopeBelow s.nv s.b.scope) (hqb : q.bound ≤ s.nv)
    (h : Answer (Consumer cmp false) (.start q : Gen A G) s s') :
    ∀ σ : Asg, Models σ s'.b.scope → Sat s.w σ q := by
  have h' : Answer (Uses cmp false) (.start q : Gen A G) s s' :=
    h.mono fun _ _ h => ⟨h.world, h.vars, by simpa [rel] using h.trail, h.ok, h.below⟩
  exact answer_sound hs h' rfl ⟨hsc, hb⟩ ⟨hq, hqb, .refl _, fun σ _ hh => hh⟩

/-- Negation has no other meaning than failure to follow, conjunction and disjunction have their
usual meaning. -/
theorem C80_meaning {w : W} {σ : Asg} {p q : Query A} :
    (Sat w σ (.and p q) ↔ Sat w σ p ∧ Sat w σ q) ∧ (Sat w σ (.or p q) ↔ Sat w σ p ∨ Sat w σ q) ∧
    (Sat w σ (.not q) ↔ ¬ Holds w σ q) :=
  ⟨sat_and_iff, sat_or_iff, sat_not_iff⟩

/-- Where there is no negation, the meaning is that of C14 and C15. -/
theorem C80_positive {cmp : Bool} {w : W} {q : Query A} {σ : Asg} (hw : KBOK w cmp) (hq : q.OK w cmp) :
    Sat w σ q ↔ Holds w σ q := by
  refine ⟨fun h => ?_, Holds.sat⟩
  induction h with
  | tru => exact .tru
  | bool h => exact .bool h
  | belief h1 h2 h3 => exact .belief h1 h2 h3
  | rule h1 h2 h3 _ ih => exact .rule h1 h2 h3 (ih (hw.rule _ _ h1).2.2.2)
  | and _ _ ih1 ih2 => exact .and (ih1 hq.1) (ih2 hq.2)
  | orL _ ih => exact .orL (ih hq.1)
  | orR _ ih => exact .orR (ih hq.2)
  | unify h1 h2 => exact .unify h1 h2
  | not _ => exact hq.elim

omit [Arith] in
/-- Knowledge bases without negation are a special case. -/
theorem KBOK.strata {cmp : Bool} {w : W} (hw : KBOK w cmp)
    (hr : RulesAre (fun r : Rule A => r.query.GroundAnnots ∧ r.query.Within fun _ => True) w) : Strata w cmp fun _ => True where
  belief := hw.belief
  rule := fun grp r h => by
    obtain ⟨h1, h2, h3, h4⟩ := hw.rule grp r h
    refine ⟨h1, h2, h3, ?_⟩
    have : ∀ q : Query A, q.OK w cmp → q.NegOK w cmp fun _ => True := by
      intro q
      induction q with
      | and _ _ ih1 ih2 => exact fun h => ⟨ih1 h.1, ih2 h.2⟩
      | or _ _ ih1 ih2 => exact fun h => ⟨ih1 h.1, ih2 h.2⟩
      | not => exact fun h => h.elim
      | _ => exact fun h => h
    exact this _ h4
  lower := fun grp _ r h => ⟨(hw.rule grp r h).2.2.2, hr grp r h⟩

omit inst in
/-- Operations do not reduce to variables or wildcards. -/
theorem reduces_open {t u : Term} (hu : (∃ x, u = .var x) ∨ u = .wild) (ht : t ≠ u) : ¬ Reduces t u := by
  intro h
  cases h with
  | unValue _ h =>
    unfold unFunc at h
    rcases hu with ⟨x, rfl⟩ | rfl <;> (split at h <;> simp at h)
  | binValue _ _ _ h =>
    unfold binFunc at h
    rcases hu with ⟨x, rfl⟩ | rfl
    all_goals
      split at h
      · split at h <;> simp at h
      · split at h
        · split at h
          · split at h <;> simp at h
          · simp at h
        · simp at h
  | _ => first | exact absurd rfl ht | (rcases hu with ⟨x, hu⟩ | hu <;> cases hu)

/-- **C80** for negated queries after folding (C40): constant operations in negated queries can be
replaced by their values. -/
theorem C80_folded {cmp : Bool} {P : String × Nat → Prop} {w : W} {q q' : Query A} (hs : Strata w cmp P) (h : QReduces q q')
    (hq : q.NegOK w cmp P) (σ : Asg) : Sat w σ q ↔ Sat w σ q' := by
  have ofBool : ∀ b, Sat w σ (.ofBool b : Query A) ↔ b = true := by
    intro b
    cases b with
    | true => exact ⟨fun _ => rfl, fun _ => .tru⟩
    | false => exact ⟨nofun, nofun⟩
  have term : ∀ {t u : Term}, Reduces t u → (Sat w σ (.term t : Query A) ↔ Sat w σ (.term u : Query A)) := by
    intro t u h
    simp only [sat_term_iff, h.den σ, h.agree (.refl _), h.annots.match_iff (.refl _)]
  have low : ∀ {p p' : Query A}, QReduces p p' → p.OK w cmp → p.Within P → (Holds w σ p ↔ Holds w σ p') := by
    intro p p' hr h1 h2
    have h3 : p'.Within P := by
      clear h1 hq h
      have ob : ∀ b, (Query.ofBool b : Query A).Within P := fun b => by cases b <;> exact trivial
      induction hr with
      | refl => exact h2
      | act | not | notValue => exact h2.elim
      | unify => exact trivial
      | and _ _ ih1 ih2 => exact ⟨ih1 h2.1, ih2 h2.2⟩
      | or _ _ ih1 ih2 => exact ⟨ih1 h2.1, ih2 h2.2⟩
      | value | andValue | orValue => exact ob _
      | @term t u h =>
        have hl := h.isLiteral
        have hg := h.group
        cases u with
        | lit f as xs =>
          cases t with
          | lit g bs ys =>
            have : (f, as.length) = (g, bs.length) := hg
            change P _
            rw [this]
            exact h2
          | _ => cases hl
        | var x => exact absurd h (reduces_open (.inl ⟨x, rfl⟩) (by rintro rfl; exact h2))
        | wild => exact absurd h (reduces_open (.inr rfl) (by rintro rfl; exact h2))
        | _ => exact trivial
    rw [holds_lower_iff hs h2, holds_lower_iff hs h3]
    exact @QReduces.holds _ W A G (lowerWorld P inst) cmp w (lower_kb hs) σ _ _ hr (lower_ok h1)
  induction h with
  | refl => exact Iff.rfl
  | act => exact hq.elim
  | term h => exact term h
  | unify h1 h2 =>
    simp only [sat_unify_iff, h1.agree h2, h1.isLiteral, h2.isLiteral, h1.annots.match_iff h2.annots]
  | and _ _ ih1 ih2 => exact sat_and_iff.trans ((and_congr (ih1 hq.1) (ih2 hq.2)).trans sat_and_iff.symm)
  | or _ _ ih1 ih2 => exact sat_or_iff.trans ((or_congr (ih1 hq.1) (ih2 hq.2)).trans sat_or_iff.symm)
  | not h _ => rw [sat_not_iff, sat_not_iff, low h hq.1 hq.2.2]
  | value h =>
    rw [term h, ofBool, sat_term_iff]
    constructor
    · rintro (h1 | ⟨grp, b, hb, ⟨v, h1, h2⟩, _⟩ | ⟨grp, r, hr, τ, v, h1, h2, _⟩)
      · cases h1; rfl
      · exact absurd h1 (den_parts (hs.belief _ _ hb).2.1 h2 _)
      · exact absurd h1 (den_parts (hs.rule _ _ hr).2.1 h2 _)
    · rintro rfl
      exact .inl rfl
  | andValue _ _ ih1 ih2 =>
    refine sat_and_iff.trans ((and_congr (ih1 hq.1) (ih2 hq.2)).trans ?_)
    rw [ofBool, ofBool, ofBool, Bool.and_eq_true]
  | orValue _ _ ih1 ih2 =>
    refine sat_or_iff.trans ((or_congr (ih1 hq.1) (ih2 hq.2)).trans ?_)
    rw [ofBool, ofBool, ofBool, Bool.or_eq_true]
  | notValue h _ =>
    rw [sat_not_iff, low h hq.1 hq.2.2, ofBool, holds_ofBool]
    simp

end

section
variable [Host]

/-- **C80** for plans: a plan is only chosen with bindings that make its context true, negated
parts included, and its head match the event. -/
theorem C80_context {n : Nat} {c : Bool} {P : String × Nat → Prop} {e : Term} {p : Plan} {s s' : QSt World} (h : Accepts n e p s s')
    (hs : Strata s.w c P) (hhead : p.head.LitOK c) (hevent : e.Parts (Term.Tame c)) (hcompat : LitCompat p.head e)
    (hctx : p.context.NegOK s.w c P) (hvars : p.head.bound ≤ s.nv ∧ e.bound ≤ s.nv ∧ p.context.bound ≤ s.nv)
    (hsc : ScopeOK c s.b.scope) (hb : ScopeBelow s.nv s.b.scope) :
    ∀ σ : Asg, Models σ s'.b.scope → Agree σ p.head e ∧ AnnotsMatch σ p.head.annots e.annots ∧ Sat s.w σ p.context := by
  cases h with
  | @mk d b g h1 h2 =>
    obtain ⟨g1, g2, _⟩ := (UaSC.lit (n := n) (cm := false) hsc hhead hevent hcompat nofun).yes _ _ h1
    have g3 : ScopeBelow s.nv b.scope := ua_P (hered_bound s.nv) n p.head e s.b b hb hvars.1 hvars.2.1 (.inl ⟨_, h1⟩)
    intro σ hσ
    obtain ⟨_, _, _, _, h3, h4⟩ := (gnext_sound hs n (.start p.context) { s with b := b } b (fun σ => Sat s.w σ p.context) rfl
      ⟨g1, g3⟩ ⟨hctx, hvars.2.2, .refl _, fun σ _ hh => hh⟩).onSome _ _ h2
    obtain ⟨_, h5⟩ := g2 σ (h4.above.models hσ)
    exact ⟨h5.1, h5.2, h3 σ hσ⟩

end

section counterexamples
attribute [local instance] exactArith

/-- `p(a). r(b).` -/
def strangeKB : KB where
  bels := fun g => if g = ("p", 1) then [.lit "p" [.atom "a"] []] else if g = ("r", 1) then [.lit "r" [.atom "b"] []] else []

/-- `p(X)`, `r(X)` -/
private abbrev pX : Query Empty := .term (.lit "p" [.var 0] [])
private abbrev rX : Query Empty := .term (.lit "r" [.var 0] [])
private abbrev start : QSt KB := ⟨BSt.init, 1, strangeKB⟩

/-- `r(X) & not p(X)` is true for `X = b`. -/
private theorem strange_sat : Sat strangeKB (fun _ => .app "b" .nil) (.and (.not pX) rX) := by
  refine .and (.not fun h => ?_) (.belief (grp := ("r", 1)) (b := .lit "r" [.atom "b"] []) (by simp [QWorld.beliefs, strangeKB]) ?_ ?_)
  · rw [holds_term_iff] at h
    rcases h with h | ⟨grp, b, hb, ⟨v, h1, h2⟩, _⟩ | ⟨grp, r, hr, _⟩
    · simp [Den] at h
    · simp only [QWorld.beliefs, strangeKB] at hb
      split at hb
      · simp only [List.mem_singleton] at hb
        subst hb
        obtain ⟨u, h1, rfl⟩ := h1
        obtain ⟨u', h2, h3⟩ := h2
        simp [DenL, Den] at h1 h2 h3
        subst h1 h2
        simp at h3
      · split at hb
        · simp only [List.mem_singleton] at hb
          subst hb
          obtain ⟨u, h1, rfl⟩ := h1
          obtain ⟨u', h2, h3⟩ := h2
          simp at h3
        · cases hb
    · cases hr
  · exact ⟨.app "r" (.cons (.app "b" .nil) .nil), ⟨_, ⟨_, _, rfl, rfl, rfl⟩, rfl⟩, ⟨_, ⟨_, _, ⟨.nil, rfl, rfl⟩, rfl, rfl⟩, rfl⟩⟩
  · exact ⟨[], ⟨_, .refl _⟩, rfl, by simp [Term.annots]⟩

/-- **Completeness is false of the code**: with the beliefs `p(a)` and `r(b)`, the query
`not p(X) & r(X)` has no answer, although it is true for `X = b`; `r(X) & not p(X)` has the answer
`X = b`. -/
theorem C80_order : ∃ s' s'' : QSt KB,
    Drain (fun s s' => s' = s) (.start (.and (.not pX) rX) : Gen Empty Empty) start [] s' ∧
    (∃ σ, Models σ start.b.scope ∧ Sat strangeKB σ (.and (.not pX) rX)) ∧
    ∃ s₁, Drain (fun s s' => s' = s) (.start (.and rX (.not pX)) : Gen Empty Empty) start [s₁] s'' ∧ s₁.b.scope 0 = some (.atom "b") :=
  ⟨_, _, .stop (n := 20) rfl, ⟨_, nofun, strange_sat⟩, _, .next (n := 20) rfl rfl (.stop (n := 20) rfl), rfl⟩

/-- **Nested negation is not sound**: with the same beliefs, `not (not p(X) & r(X))` has an
answer, with `X` unbound, although what is negated is true for `X = b`. -/
theorem C80_nested_false : ∃ (g : Gen Empty Empty) (s' : QSt KB) (σ : Asg),
    gnext 20 (.start (.not (.and (.not pX) rX))) start = .ok (some g) s' ∧ Models σ s'.b.scope ∧
    Sat strangeKB σ (.and (.not pX) rX) :=
  ⟨_, _, _, rfl, by
    intro x t h
    change (if x = 0 then none else if x = 0 then some (Term.atom "a") else none) = some t at h
    split at h
    · cases h
    · simp at h, strange_sat⟩

/-- `p :- not q. q :- not p.` -/
def circularKB : KB where
  rules := fun g => if g = ("p", 0) then [⟨.atom "p", .not (.term (.atom "q"))⟩]
    else if g = ("q", 0) then [⟨.atom "q", .not (.term (.atom "p"))⟩] else []

/-- Rules that are recursive through negation: no query about them ever comes to an end, whatever the
depth of the recursion (in the code: `RecursionError`). -/
theorem C80_circular (n : Nat) (s : QSt KB) (hs : s.w = circularKB) :
    gnext n (.start (.term (.atom "p")) : Gen Empty Empty) s = .oof ∧ gnext n (.start (.term (.atom "q")) : Gen Empty Empty) s = .oof := by
  induction n using Nat.strongRecOn generalizing s with
  | ind n ih =>
    obtain ⟨b, nv, w⟩ := s
    subst hs
    match n with
    | 0 | 1 | 2 | 3 | 4 | 5 | 6 | 7 | 8 => exact ⟨rfl, rfl⟩
    | n + 9 =>
      constructor
      · change Res.onNext (Res.onNext (gnext (n + 4) (.start (.term (.atom "q"))) _) _ _) _ _ = _
        rw [(ih (n + 4) (by omega) _ rfl).2]
        rfl
      · change Res.onNext (Res.onNext (gnext (n + 4) (.start (.term (.atom "p"))) _) _ _) _ _ = _
        rw [(ih (n + 4) (by omega) _ rfl).1]
        rfl

end counterexamples

section examples
attribute [local instance] exactArith

/-- `pos(1). pos(2). at(a, 1). occupied(X) :- at(Y, X). free(X) :- pos(X) & not occupied(X).` -/
def gridKB : KB where
  bels := fun g => if g = ("pos", 1) then [.lit "pos" [.num 1] [], .lit "pos" [.num 2] []]
    else if g = ("at", 2) then [.lit "at" [.atom "a", .num 1] []] else []
  rules := fun g => if g = ("occupied", 1) then [⟨.lit "occupied" [.var 0] [], .term (.lit "at" [.var 1, .var 0] [])⟩]
    else if g = ("free", 1) then
      [⟨.lit "free" [.var 0] [], .and (.term (.lit "pos" [.var 0] [])) (.not (.term (.lit "occupied" [.var 0] [])))⟩]
    else []

/-- The lower stratum. -/
def gridP (g : String × Nat) : Prop := g = ("occupied", 1) ∨ g = ("at", 2)

theorem gridKB_strata : Strata gridKB true gridP := by
  constructor
  · intro grp b hb
    simp only [QWorld.beliefs, gridKB] at hb
    split at hb
    · rename_i h
      simp only [List.mem_cons, List.not_mem_nil, or_false] at hb
      subst h
      rcases hb with rfl | rfl <;> (refine ⟨rfl, ?_, ?_, rfl⟩ <;>
        simp [Term.Parts, Term.Closed, Term.Tame, Term.NoAnnots, Term.Every])
    · split at hb
      · rename_i h
        simp only [List.mem_singleton] at hb
        subst hb h
        refine ⟨rfl, ?_, ?_, rfl⟩ <;> simp [Term.Parts, Term.Closed, Term.Tame, Term.NoAnnots, Term.Every, Term.EveryL]
      · cases hb
  · intro grp r hr
    simp only [QWorld.rules, gridKB] at hr
    split at hr
    · rename_i h
      simp only [List.mem_singleton] at hr
      subst hr h
      simp [Term.group, Term.Parts, Term.NoWild, Term.Tame, Term.NoAnnots, Term.Every, Query.NegOK, Query.OK, Term.LitOK, Term.isLiteral]
    · split at hr
      · rename_i h
        simp only [List.mem_singleton] at hr
        subst hr h
        simp [Term.group, Term.Parts, Term.NoWild, Term.Tame, Term.NoAnnots, Term.Every, Query.NegOK, Query.OK, Term.LitOK, Term.isLiteral,
          Query.GroundAnnots, Term.annots, Query.Within, gridP]
      · cases hr
  · intro grp hg r hr
    rcases hg with rfl | rfl
    · simp only [QWorld.rules, gridKB, if_true, List.mem_singleton] at hr
      subst hr
      simp [Term.Parts, Term.NoWild, Term.Tame, Term.NoAnnots, Term.Every, Query.OK, Term.LitOK, Term.isLiteral,
          Query.GroundAnnots, Term.annots, Query.Within, gridP]
    · simp [QWorld.rules, gridKB] at hr

/-- `free(X) & not occupied(3)` -/
private abbrev gridQ : Query Empty := .and (.term (.lit "free" [.var 0] [])) (.not (.term (.lit "occupied" [.num 3] [])))

/-- C80: the one answer of `free(X) & not occupied(3)` is `X = 2`; the hypotheses hold. -/
example : ∃ s₁ s' : QSt KB, Drain (fun s s' => s' = s) (.start gridQ : Gen Empty Empty) ⟨BSt.init, 1, gridKB⟩ [s₁] s' ∧
    s₁.b.scope 1 = some (.num 2) ∧ ∀ σ, Models σ s₁.b.scope → Sat gridKB σ gridQ := by
  have h : ∃ (g : Gen Empty Empty) (s₁ s' : QSt KB), gnext 40 (.start gridQ : Gen Empty Empty) ⟨BSt.init, 1, gridKB⟩ = .ok (some g) s₁ ∧
      gnext 40 g s₁ = .ok none s' ∧ s₁.b.scope 1 = some (.num 2) := ⟨_, _, _, rfl, rfl, rfl⟩
  obtain ⟨g, s₁, s', h1, h2, h3⟩ := h
  refine ⟨s₁, s', .next h1 rfl (.stop h2), h3,
    C80_sound_partial (s := ⟨BSt.init, 1, gridKB⟩) gridKB_strata ?_ nofun nofun (Nat.le_refl _) (.now h1)⟩
  simp [Term.Parts, Term.NoWild, Term.Tame, Term.NoAnnots, Term.Every, Query.NegOK, Query.OK, Term.LitOK, Term.isLiteral,
          Query.GroundAnnots, Term.annots, Query.Within, gridP]

/-- C80_folded: `free(X) & not occupied(1 + 2)` becomes `free(X) & not occupied(3)`. -/
example (σ : Asg) : Sat gridKB σ (.and (.term (.lit "free" [.var 0] [])) (.not (.term (.lit "occupied" [.bin .add (.num 1) (.num 2)] [])))
    : Query Empty) ↔ Sat gridKB σ gridQ := by
  refine C80_folded gridKB_strata (.and (.refl _) (.not (.term (.lit (.cons
    (.binValue (.refl _) (.refl _) rfl (w := .num 3) (by with_unfolding_all rfl)) .nil) .nil)))) ?_ σ
  simp [Term.Parts, Term.NoWild, Term.Tame, Term.NoAnnots, Term.Every, Query.NegOK, Query.OK, Term.LitOK, Term.isLiteral,
          Query.GroundAnnots, Term.annots, Query.Within, gridP]

end examples

section examples
attribute [local instance] exactHost

/-- An agent with the belief `busy(a)`. -/
def busyWorld : World := (World.init fun _ => 0).setBeliefs 0 ("busy", 1) [.lit "busy" [.atom "a"] []]

/-- `+!move(X) : not busy(X)` -/
def movePlan : Plan where
  trigger := .addition
  goalType := .achievement
  head := .lit "move" [.var 0] []
  context := .not (.term (.lit "busy" [.var 0] []))
  body := 0
  label := none
  text := ""

theorem busyWorld_strata : Strata busyWorld true fun _ => True := by
  constructor
  · intro grp b hb
    by_cases h : grp = ("busy", 1)
    · subst h
      have : b = .lit "busy" [.atom "a"] [] := by simpa [QWorld.beliefs, World.beliefs, busyWorld, World.setBeliefs,
        World.init, World.setAg, World.setSet] using hb
      subst this
      refine ⟨rfl, ?_, ?_, rfl⟩ <;> simp [Term.Parts, Term.Closed, Term.Tame, Term.NoAnnots, Term.Every, Term.EveryL]
    · simp [QWorld.beliefs, World.beliefs, busyWorld, World.setBeliefs, World.init, World.setAg, World.setSet, h] at hb
  · intro grp r hr
    simp [QWorld.rules, busyWorld, World.setBeliefs, World.init, World.setAg, World.setSet] at hr
  · intro grp _ r hr
    simp [QWorld.rules, busyWorld, World.setBeliefs, World.init, World.setAg, World.setSet] at hr

/-- C80_context: the plan is chosen for the event `!move(b)`, as `busy(b)` does not follow. -/
example : ∃ s' : QSt World, Accepts 30 (.lit "move" [.atom "b"] []) movePlan ⟨BSt.init, 1, busyWorld⟩ s' ∧
    ∀ σ : Asg, Models σ s'.b.scope → ¬ Holds busyWorld σ (.term (.lit "busy" [.var 0] []) : Query Act) := by
  have h : ∃ s' : QSt World, Accepts 30 (.lit "move" [.atom "b"] []) movePlan ⟨BSt.init, 1, busyWorld⟩ s' := ⟨_, .mk rfl rfl⟩
  obtain ⟨s', h⟩ := h
  refine ⟨s', h, fun σ hσ => sat_not_iff.1 (C80_context h busyWorld_strata ?_ ?_ ?_ ?_ ?_ nofun nofun σ hσ).2.2⟩
  · simp [movePlan, Term.LitOK, Term.Tame, Term.NoAnnots, Term.Every, Term.annots]
  · simp [Term.Parts, Term.Tame, Term.NoAnnots, Term.Every, Term.EveryL]
  · exact .inr (.inr (by simp [Term.Parts, Term.Closed, Term.Every, Term.EveryL]))
  · simp [movePlan, Term.Parts, Term.NoWild, Term.Tame, Term.NoAnnots, Term.Every, Query.NegOK, Query.OK, Term.LitOK, Term.isLiteral,
          Query.GroundAnnots, Term.annots, Query.Within]
  · simp [movePlan, Term.bound, Term.boundL, Query.bound]

end examples

end Verif
