import Verif.Lemmas.SafeLogic
import Verif.Props.Negation

/-!
# C83: queries with safe negation find all answers
-/

namespace Verif

section
variable {W A G : Type} [Arith] [inst : QWorld W A G]

/-- **C83** (part).  Let all variables of negated queries be bound before.  If the query is
exhausted, then every assignment that is consistent with the initial bindings and makes the query true is,
up to variables created by the query, consistent with one of the answers.  `D` are variables
that are bound to ground terms at the beginning, `M` predicates whose rules need the variables of their head bound by
the caller.  Missing: negation in the rules for negated predicates; operations inside of terms in negated queries; actions. -/
theorem C83_complete_partial {cmp : Bool} {P M : String × Nat → Prop} {D : VarId → Prop} {q : Query A} {s s' : QSt W} {l : List (QSt W)}
    (hs : SafeStrata s.w cmp P M) (hq : q.NegOK s.w cmp P) (hg : q.GroundAnnots) (hsafe : q.Safe M D)
    (hD : ∀ x, D x → GroundIn false s.b.scope (.var x))
    (hsc : ScopeOK cmp s.b.scope) (hb : ScopeBelow s.nv s.b.scope) (hqb : q.bound ≤ s.nv)
    (h : Drain (Consumer cmp true) (.start q : Gen A G) s l s') :
    ∀ σ : Asg, Models σ s.b.scope → Sat s.w σ q →
      ∃ s₁ ∈ l, ∃ σ', EqBelow s.nv σ σ' ∧ Models σ' s₁.b.scope := by
  have h' : Drain (Uses cmp true) (.start q : Gen A G) s l s' :=
    h.mono fun _ _ h => ⟨h.world, h.vars, by simpa [rel] using h.trail, h.ok, h.below⟩
  exact drain_complete hs h' (E := D) (fun σ => Sat s.w σ q) rfl ⟨hsc, hb⟩ (Nat.le_refl _)
    ⟨⟨D, hsafe, q.after_sub, hD⟩, hq, hg, hqb, .refl _, fun _ _ hh => hh⟩

/-- **C83**: in every answer, the variables that the query is said to bind are bound to ground
terms. -/
theorem C83_binds {cmp : Bool} {P M : String × Nat → Prop} {D : VarId → Prop} {q : Query A} {s s' : QSt W}
    (hs : SafeStrata s.w cmp P M) (hq : q.NegOK s.w cmp P) (hg : q.GroundAnnots) (hsafe : q.Safe M D)
    (hD : ∀ x, D x → GroundIn false s.b.scope (.var x))
    (hsc : ScopeOK cmp s.b.scope) (hb : ScopeBelow s.nv s.b.scope) (hqb : q.bound ≤ s.nv)
    (h : Answer (Consumer cmp true) (.start q : Gen A G) s s') :
    ∀ x, q.after D x → GroundIn false s'.b.scope (.var x) := by
  have h' : Answer (Uses cmp true) (.start q : Gen A G) s s' :=
    h.mono fun _ _ h => ⟨h.world, h.vars, by simpa [rel] using h.trail, h.ok, h.below⟩
  exact answer_ground hs h' (fun σ => Sat s.w σ q) rfl ⟨hsc, hb⟩ (Nat.le_refl _)
    ⟨⟨D, hsafe, fun _ h => h, hD⟩, hq, hg, hqb, .refl _, fun _ _ hh => hh⟩

/-- A consumer that does nothing is a `Consumer`. -/
theorem safe_idle {cmp : Bool} {P M : String × Nat → Prop} {D : VarId → Prop} {q : Query A} {s s' : QSt W} {l : List (QSt W)}
    (hs : SafeStrata s.w cmp P M) (hq : q.NegOK s.w cmp P) (hg : q.GroundAnnots) (hsafe : q.Safe M D)
    (hD : ∀ x, D x → GroundIn false s.b.scope (.var x))
    (hsc : ScopeOK cmp s.b.scope) (hb : ScopeBelow s.nv s.b.scope) (hqb : q.bound ≤ s.nv)
    (h : Drain (fun s s' => s' = s) (.start q : Gen A G) s l s') : Drain (Consumer cmp true) (.start q : Gen A G) s l s' :=
  (drain_idle_safe hs h (E := D) (fun σ => Sat s.w σ q) rfl ⟨hsc, hb⟩ (Nat.le_refl _)
    ⟨⟨D, hsafe, q.after_sub, hD⟩, hq, hg, hqb, .refl _, fun _ _ hh => hh⟩).mono
    fun _ _ h => ⟨h.1, h.2.1, by simpa [rel] using h.2.2.1, h.2.2.2.ok, h.2.2.2.below⟩

/-- **C83**: a negated query whose variables are bound is true exactly if the query does not follow;
the bindings are the same afterwards. -/
theorem C83_not {cmp : Bool} {P M : String × Nat → Prop} {q : Query A} {n : Nat} {o : Option (Gen A G)} {s s' : QSt W}
    (hs : SafeStrata s.w cmp P M) (hq : q.OK s.w cmp) (hg : q.GroundAnnots) (hP : q.Within P)
    (hD : q.Over fun x => GroundIn false s.b.scope (.var x)) (hplain : q.Plain)
    (hsc : ScopeOK cmp s.b.scope) (hb : ScopeBelow s.nv s.b.scope) (hqb : q.bound ≤ s.nv)
    (h : gnext n (.start (.not q) : Gen A G) s = .ok o s') :
    s'.b.scope = s.b.scope ∧ ∀ σ : Asg, Models σ s.b.scope → (o.isSome = true ↔ ¬ Holds s.w σ q) := by
  have hn : (Query.not q : Query A).NegOK s.w cmp P := ⟨hq, hg, hP⟩
  have hc := gnext_complete hs n (.start (.not q)) s s.nv s.b (fun _ => False) (fun σ => Sat s.w σ (.not q)) rfl ⟨hsc, hb⟩
    (Nat.le_refl _) ⟨⟨fun x => GroundIn false s.b.scope (.var x), ⟨hD, hplain⟩, nofun, fun _ h => h⟩, hn, hg, hqb, .refl _, fun _ _ hh => hh⟩
  cases o with
  | none =>
    obtain ⟨_, _, _, h1, h2⟩ := hc.onNone _ h
    refine ⟨h1.scope, fun σ hσ => ⟨nofun, fun hh => absurd (sat_not_iff.2 hh) (h2 σ hσ)⟩⟩
  | some g =>
    obtain ⟨_, _, _, _, _, _, _, hi, _⟩ := hc.onSome _ _ h
    rw [not_done h] at hi
    have hsc' := hi.1.scope
    obtain ⟨_, _, _, _, hh, _⟩ := (gnext_sound hs.toStrata n (.start (.not q)) s s.b (fun σ => Sat s.w σ (.not q)) rfl
      ⟨hsc, hb⟩ ⟨hn, hqb, .refl _, fun σ _ hh => hh⟩).onSome _ _ h
    exact ⟨hsc', fun σ hσ => ⟨fun _ => sat_not_iff.1 (hh σ (hsc' ▸ hσ)), fun _ => rfl⟩⟩

end

section
variable [Host]

/-- **C83** for plans: a plan is passed over only if there is no assignment under which the event is an
instance of its head and its context is true, if the context is safe after the head. -/
theorem C83_context {n : Nat} {c : Bool} {P M : String × Nat → Prop} {e : Term} {p : Plan} {s s' : QSt World} (h : Rejects n e p s s')
    (hs : SafeStrata s.w c P M) (hhead : p.head.LitOK c) (hevent : e.Parts (Term.Tame c)) (hcompat : LitCompat p.head e)
    (hctx : p.context.NegOK s.w c P) (hvars : p.head.bound ≤ s.nv ∧ e.bound ≤ s.nv ∧ p.context.bound ≤ s.nv)
    (hsc : ScopeOK c s.b.scope) (hb : ScopeBelow s.nv s.b.scope) (hg : p.context.GroundAnnots)
    (hh : (∀ x ∈ p.head.annots, x.Closed) ∧ (p.head.annots.Pairwise fun x y => x.val ≠ y.val) ∧ ∀ y ∈ e.annots, y.Closed)
    (hground : GroundIn false s.b.scope e) (hsafe : p.context.Safe M p.head.Occurs) :
    ∀ σ : Asg, Models σ s.b.scope → ¬ (Agree σ p.head e ∧ AnnotsMatch σ p.head.annots e.annots ∧ Sat s.w σ p.context) := by
  have ua := UaSC.lit (n := n) (cm := true) hsc hhead hevent hcompat fun _ => hh
  intro σ hσ hf
  cases h with
  | head h1 => exact ua.no _ h1 rfl σ hσ ⟨hf.1, hf.2.1⟩
  | @context d b s₁ h1 h2 =>
    obtain ⟨g1, _, g2⟩ := ua.yes _ _ h1
    have g3 : ScopeBelow s.nv b.scope := ua_P (hered_bound s.nv) n p.head e s.b b hb hvars.1 hvars.2.1 (.inl ⟨_, h1⟩)
    have g4 := ua_grounds h1
    obtain ⟨_, h, _⟩ := C83_complete_partial (s := { s with b := b }) hs hctx hg hsafe
      (fun x hx => ((g4.left _ (.refl _) (hground.mono g4.sub)).occurs hx).strict (fun x t h => (g1 x t h).1) (by simp [Term.NoWild, Term.Every]))
      g1 g3 hvars.2.2 (.stop h2) σ (g2 rfl σ hσ ⟨hf.1, hf.2.1⟩) hf.2.2
    simp at h

end

section examples
attribute [local instance] exactArith

/-- `pos(1). pos(2). pos(3). pos(7). at(a, 1). blocked(X) :- X > 5. blocked(X) :- at(Y, X).
free(X) :- pos(X) & not blocked(X).` -/
def roomKB : KB where
  bels := fun g => if g = ("pos", 1) then [.lit "pos" [.num 1] [], .lit "pos" [.num 2] [], .lit "pos" [.num 3] [], .lit "pos" [.num 7] []]
    else if g = ("at", 2) then [.lit "at" [.atom "a", .num 1] []] else []
  rules := fun g => if g = ("free", 1) then
      [⟨.lit "free" [.var 0] [], .and (.term (.lit "pos" [.var 0] [])) (.not (.term (.lit "blocked" [.var 0] [])))⟩]
    else if g = ("blocked", 1) then
      [⟨.lit "blocked" [.var 0] [], .term (.bin .gt (.var 0) (.num 5))⟩,
       ⟨.lit "blocked" [.var 0] [], .term (.lit "at" [.var 1, .var 0] [])⟩]
    else []

/-- Predicates that may be negated. -/
def roomP (g : String × Nat) : Prop := g = ("at", 2) ∨ g = ("blocked", 1)

/-- Predicates that are called with ground arguments. -/
def roomM (g : String × Nat) : Prop := g = ("blocked", 1)

theorem roomKB_safe : SafeStrata roomKB true roomP roomM where
  belief := by
    intro grp b hb
    simp only [QWorld.beliefs, roomKB] at hb
    split at hb
    · rename_i h
      simp only [List.mem_cons, List.not_mem_nil, or_false] at hb
      subst h
      rcases hb with rfl | rfl | rfl | rfl <;> (refine ⟨rfl, ?_, ?_, rfl⟩ <;>
        simp [Term.Parts, Term.Closed, Term.Tame, Term.NoAnnots, Term.Every])
    · split at hb
      · rename_i h
        simp only [List.mem_singleton] at hb
        subst hb h
        refine ⟨rfl, ?_, ?_, rfl⟩ <;> simp [Term.Parts, Term.Closed, Term.Tame, Term.NoAnnots, Term.Every, Term.EveryL]
      · cases hb
  rule := by
    intro grp r hr
    simp only [QWorld.rules, roomKB] at hr
    split at hr
    · rename_i h
      simp only [List.mem_singleton] at hr
      subst hr h
      simp [Term.group, Term.Parts, Term.NoWild, Term.Tame, Term.NoAnnots, Term.Every, Query.NegOK, Query.OK, Term.LitOK,
        Term.isLiteral, Query.GroundAnnots, Term.annots, Query.Within, roomP]
    · split at hr
      · rename_i h
        simp only [List.mem_cons, List.not_mem_nil, or_false] at hr
        subst h
        rcases hr with rfl | rfl <;>
          simp [Term.group, Term.Parts, Term.NoWild, Term.Tame, Term.NoAnnots, Term.Every, Query.NegOK, Query.OK, Term.LitOK,
            Term.isLiteral, Term.annots]
      · cases hr
  lower := by
    rintro grp (rfl | rfl) r hr
    · simp [QWorld.rules, roomKB] at hr
    · simp only [QWorld.rules, roomKB] at hr
      rcases (by simpa using hr : r = _ ∨ r = _) with rfl | rfl <;> simp [Query.OK, Query.GroundAnnots, Query.Within, roomP, Term.isLiteral,
        Term.Parts, Term.NoWild, Term.Tame, Term.NoAnnots, Term.Every, Term.LitOK, Term.annots]
  ground := by
    rintro grp (rfl | rfl) r hr
    · simp [QWorld.rules, roomKB] at hr
    · simp only [QWorld.rules, roomKB] at hr
      rcases (by simpa using hr : r = _ ∨ r = _) with rfl | rfl <;> simp [Query.Plain, Term.Plain, Term.isOp, Query.Over, Query.after,
        Rule.given, roomM, Term.group, Term.Occurs, Term.Over, Term.Every, Term.EveryL]
  safe := by
    intro grp r hr
    simp only [QWorld.rules, roomKB] at hr
    split at hr
    · simp only [List.mem_singleton] at hr
      subst hr
      simp [Query.GroundAnnots, Query.Safe, Query.Plain, Term.Plain, Term.isOp, roomM, Query.after, Query.Over, Term.Occurs, Term.Over,
        Term.Every, Term.EveryL, Term.annots]
    · split at hr
      · simp only [List.mem_cons, List.not_mem_nil, or_false] at hr
        rcases hr with rfl | rfl <;>
          simp [Query.GroundAnnots, Query.Safe, roomM, Rule.given, Term.group, Query.after, Term.Occurs, Term.Over,
            Term.Every, Term.EveryL, Term.annots]
      · cases hr

/-- `free(X) & not at(a, X)` -/
private abbrev roomQ : Query Empty := .and (.term (.lit "free" [.var 0] [])) (.not (.term (.lit "at" [.atom "a", .var 0] [])))

/-- C83: the answers of `free(X) & not at(a, X)` are `X = 2` and `X = 3`, so there are no other
assignments that make it true. -/
example : ∃ s₁ s₂ s' : QSt KB, Drain (fun s s' => s' = s) (.start roomQ : Gen Empty Empty) ⟨BSt.init, 1, roomKB⟩ [s₁, s₂] s' ∧
    ∀ σ, Sat roomKB σ roomQ → σ 0 = .num 2 ∨ σ 0 = .num 3 := by
  have h : ∃ (g g' : Gen Empty Empty) (s₁ s₂ s' : QSt KB), gnext 40 (.start roomQ : Gen Empty Empty) ⟨BSt.init, 1, roomKB⟩ = .ok (some g) s₁ ∧
      gnext 40 g s₁ = .ok (some g') s₂ ∧ gnext 40 g' s₂ = .ok none s' ∧
      (s₁.b.scope 0 = some (.var 1) ∧ s₁.b.scope 1 = some (.num 2)) ∧ s₂.b.scope 0 = some (.var 1) ∧ s₂.b.scope 1 = some (.num 3) :=
    ⟨_, _, _, _, _, rfl, rfl, rfl, ⟨rfl, rfl⟩, rfl, rfl⟩
  obtain ⟨g, g', s₁, s₂, s', h1, h2, h3, h4, h5⟩ := h
  have hd : Drain (fun s s' => s' = s) (.start roomQ : Gen Empty Empty) ⟨BSt.init, 1, roomKB⟩ [s₁, s₂] s' :=
    .next h1 rfl (.next h2 rfl (.stop h3))
  refine ⟨s₁, s₂, s', hd, fun σ hσ => ?_⟩
  have hn : roomQ.NegOK roomKB true roomP := by
    simp [Term.Parts, Term.NoWild, Term.Tame, Term.NoAnnots, Term.Every, Term.EveryL, Query.NegOK, Query.OK, Term.LitOK, Term.isLiteral,
          Query.GroundAnnots, Term.annots, Query.Within, roomP]
  have hg : roomQ.GroundAnnots := by simp [Query.GroundAnnots, Term.annots]
  have hf : roomQ.Safe roomM fun _ => False := by
    simp [Query.Safe, Query.Plain, Term.Plain, Term.isOp, Term.atom, roomM, Query.after, Query.Over, Term.Occurs, Term.Over, Term.Every, Term.EveryL]
  obtain ⟨s₀, hs, σ', j1, j2⟩ := C83_complete_partial (s := ⟨BSt.init, 1, roomKB⟩) roomKB_safe hn hg hf nofun nofun nofun (Nat.le_refl _)
    (safe_idle roomKB_safe hn hg hf nofun nofun nofun (Nat.le_refl _) hd) σ nofun hσ
  simp only [List.mem_cons, List.not_mem_nil, or_false] at hs
  rw [j1 0 (by simp)]
  rcases hs with rfl | rfl
  · have a := j2 0 _ h4.1
    have b := j2 1 _ h4.2
    simp only [Den] at a b
    exact .inl (a ▸ b)
  · have a := j2 0 _ h5.1
    have b := j2 1 _ h5.2
    simp only [Den] at a b
    exact .inr (a ▸ b)

/-- C83_binds: in the first answer `X` is bound to a ground term. -/
example : ∃ (g : Gen Empty Empty) (s₁ : QSt KB), gnext 40 (.start roomQ) ⟨BSt.init, 1, roomKB⟩ = .ok (some g) s₁ ∧
    GroundIn false s₁.b.scope (.var 0) := by
  have h : ∃ (g : Gen Empty Empty) (s₁ : QSt KB), gnext 40 (.start roomQ : Gen Empty Empty) ⟨BSt.init, 1, roomKB⟩ = .ok (some g) s₁ := ⟨_, _, rfl⟩
  obtain ⟨g, s₁, h⟩ := h
  refine ⟨g, s₁, h, C83_binds (D := fun _ => False) (q := roomQ) (s := ⟨BSt.init, 1, roomKB⟩) roomKB_safe ?_ ?_ ?_ nofun nofun nofun
    (Nat.le_refl _) (.now h) 0 ?_⟩
  · simp [Term.Parts, Term.NoWild, Term.Tame, Term.NoAnnots, Term.Every, Term.EveryL, Query.NegOK, Query.OK, Term.LitOK, Term.isLiteral,
          Query.GroundAnnots, Term.annots, Query.Within, roomP]
  · simp [Query.GroundAnnots, Term.annots]
  · simp [Query.Safe, Query.Plain, Term.Plain, Term.isOp, Term.atom, roomM, Query.after, Query.Over, Term.Occurs, Term.Over, Term.Every, Term.EveryL]
  · simp [Query.after, Term.Occurs, Term.Over, Term.Every, Term.EveryL]

/-- `X = 2` -/
private abbrev withX : BSt := ⟨fun x => if x = 0 then some (.num 2) else none, [], 0⟩

/-- C83_not: with `X = 2`, `not at(a, X)` is true. -/
example : ∃ (g : Gen Empty Empty) (s₁ : QSt KB),
    gnext 40 (.start (.not (.term (.lit "at" [.atom "a", .var 0] [])))) ⟨withX, 1, roomKB⟩ = .ok (some g) s₁ ∧
    ¬ Holds roomKB (fun _ => .num 2) (.term (.lit "at" [.atom "a", .var 0] []) : Query Empty) := by
  have h : ∃ (g : Gen Empty Empty) (s₁ : QSt KB),
    gnext 40 (.start (.not (.term (.lit "at" [.atom "a", .var 0] []))) : Gen Empty Empty) ⟨withX, 1, roomKB⟩ = .ok (some g) s₁ :=
    ⟨_, _, rfl⟩
  obtain ⟨g, s₁, h⟩ := h
  have hval : ∀ x t, withX.scope x = some t → x = 0 ∧ t = .num 2 := by
    intro x t hx
    simp only at hx
    split at hx
    · cases hx; simp_all
    · cases hx
  refine ⟨g, s₁, h, ((C83_not (s := ⟨withX, 1, roomKB⟩) roomKB_safe ?_ ?_ ?_ ?_ ?_ ?_ ?_ (Nat.le_refl _) h).2 _ ?_).1 rfl⟩
  · simp [Term.Parts, Term.NoWild, Term.Tame, Term.NoAnnots, Term.Every, Term.EveryL, Query.OK, Term.LitOK, Term.isLiteral, Term.annots]
  · simp [Query.GroundAnnots, Term.annots]
  · simp [Query.Within, roomP]
  · simp only [Query.Over, Term.Over, Term.Every, Term.EveryL, and_true, true_and]
    exact .var rfl .num
  · simp [Query.Plain, Term.Plain, Term.isOp, Term.atom, Term.Every, Term.EveryL]
  · intro x t hx
    obtain ⟨rfl, rfl⟩ := hval x t hx
    simp [Term.NoWild, Term.Tame, Term.NoAnnots, Term.Every]
  · intro x t hx
    obtain ⟨rfl, rfl⟩ := hval x t hx
    simp [Term.bound]
  · intro x t hx
    obtain ⟨rfl, rfl⟩ := hval x t hx
    rfl

end examples

section examples
attribute [local instance] exactHost

theorem busyWorld_safe : SafeStrata busyWorld true (fun _ => True) fun _ => False where
  toStrata := busyWorld_strata
  ground := fun grp _ => by simp [QWorld.rules, busyWorld, World.setBeliefs, World.init, World.setAg, World.setSet]
  safe := fun grp r hr => by simp [QWorld.rules, busyWorld, World.setBeliefs, World.init, World.setAg, World.setSet] at hr

/-- C83_context: `+!move(X) : not busy(X)` is passed over for the event `!move(a)`, as `busy(a)` follows. -/
example : ∃ s' : QSt World, Rejects 30 (.lit "move" [.atom "a"] []) movePlan ⟨BSt.init, 1, busyWorld⟩ s' ∧
    ∀ σ : Asg, Agree σ movePlan.head (.lit "move" [.atom "a"] []) → Holds busyWorld σ (.term (.lit "busy" [.var 0] []) : Query Act) := by
  have h : ∃ s' : QSt World, Rejects 30 (.lit "move" [.atom "a"] []) movePlan ⟨BSt.init, 1, busyWorld⟩ s' := ⟨_, .context rfl rfl⟩
  obtain ⟨s', h⟩ := h
  refine ⟨s', h, fun σ hσ => Classical.byContradiction fun hh => ?_⟩
  refine C83_context h busyWorld_safe ?_ ?_ ?_ ?_ ?_ nofun nofun ?_ ?_ ?_ ?_ σ nofun ⟨hσ, ?_, sat_not_iff.2 hh⟩
  · simp [movePlan, Term.LitOK, Term.Tame, Term.NoAnnots, Term.Every, Term.annots]
  · simp [Term.Parts, Term.Tame, Term.NoAnnots, Term.Every, Term.EveryL]
  · exact .inr (.inr (by simp [Term.Parts, Term.Closed, Term.Every, Term.EveryL]))
  · simp [movePlan, Term.Parts, Term.NoWild, Term.Tame, Term.NoAnnots, Term.Every, Query.NegOK, Query.OK, Term.LitOK, Term.isLiteral,
          Query.GroundAnnots, Term.annots, Query.Within]
  · simp [movePlan, Term.bound, Term.boundL, Query.bound]
  · simp [movePlan, Query.GroundAnnots, Term.annots]
  · simp [movePlan, Term.annots]
  · exact .lit (by simp only [List.mem_singleton]; rintro a rfl; exact .lit nofun)
  · simp [movePlan, Query.Safe, Query.Plain, Term.Plain, Term.isOp, Query.Over, Term.Occurs, Term.Over, Term.Every, Term.EveryL]
  · exact ⟨[], ⟨_, .refl _⟩, rfl, by simp [movePlan, Term.annots]⟩

end examples

end Verif
