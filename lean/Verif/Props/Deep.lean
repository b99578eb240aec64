import Verif.Lemmas.DeepLogic
import Verif.Lemmas.DeepModel
import Verif.Props.Safe

/-!
# C89: negation to any depth
-/

namespace Verif

section
variable {W A G : Type} [Arith] [inst : QWorld W A G]
variable {cmp : Bool} {R : Val → Prop} {P M : String × Nat → Prop} {D : VarId → Prop} {q : Query A} {s s' : QSt W}

/-- **C89** (soundness): every answer of a query with safe negation, to any depth, satisfies the query, whatever values
the remaining variables have, in every set of derived facts that is supported by the rules. -/
theorem C89_sound (hs : DeepStrata s.w cmp P M) (hR : Supported R s.w) (hq : q.DeepOK s.w cmp P) (hg : q.GroundAnnots) (hsafe : q.Safe M D)
    (hD : ∀ x, D x → GroundIn false s.b.scope (.var x))
    (hsc : ScopeOK cmp s.b.scope) (hb : ScopeBelow s.nv s.b.scope) (hqb : q.bound ≤ s.nv)
    (h : Answer (Consumer cmp true) (.start q : Gen A G) s s') :
    ∀ σ : Asg, Models σ s'.b.scope → TrueIn R s.w σ q := by
  have h' : Answer (Uses cmp true) (.start q : Gen A G) s s' :=
    h.mono fun _ _ h => ⟨h.world, h.vars, by simpa [rel] using h.trail, h.ok, h.below⟩
  exact Deep.answer_sound hs hR h' _ (fun σ => TrueIn R s.w σ q) rfl ⟨hsc, hb⟩ (Nat.le_refl _)
    ⟨⟨D, hsafe, q.after_sub, hD⟩, hq, hg, hqb, .refl _, fun _ _ hh => hh, fun _ _ hh => hh⟩

/-- **C89** (completeness): if the query is exhausted, then every assignment that is consistent with the initial
bindings and makes the query true, in some set of derived facts that is supported by the rules, is consistent with
one of the answers, up to variables created by the query. -/
theorem C89_complete (hs : DeepStrata s.w cmp P M) (hR : Supported R s.w) (hq : q.DeepOK s.w cmp P) (hg : q.GroundAnnots)
    (hsafe : q.Safe M D) (hD : ∀ x, D x → GroundIn false s.b.scope (.var x))
    (hsc : ScopeOK cmp s.b.scope) (hb : ScopeBelow s.nv s.b.scope) (hqb : q.bound ≤ s.nv) {l : List (QSt W)}
    (h : Drain (Consumer cmp true) (.start q : Gen A G) s l s') :
    ∀ σ : Asg, Models σ s.b.scope → TrueIn R s.w σ q →
      ∃ s₁ ∈ l, ∃ σ', EqBelow s.nv σ σ' ∧ Models σ' s₁.b.scope := by
  have h' : Drain (Uses cmp true) (.start q : Gen A G) s l s' :=
    h.mono fun _ _ h => ⟨h.world, h.vars, by simpa [rel] using h.trail, h.ok, h.below⟩
  exact Deep.drain_complete hs hR h' (E := D) (fun σ => TrueIn R s.w σ q) (fun σ => TrueIn R s.w σ q) rfl ⟨hsc, hb⟩ (Nat.le_refl _)
    ⟨⟨D, hsafe, q.after_sub, hD⟩, hq, hg, hqb, .refl _, fun _ _ hh => hh, fun _ _ hh => hh⟩

/-- **C89**: in every answer, the variables that the query is said to bind are bound to ground terms. -/
theorem C89_binds (hs : DeepStrata s.w cmp P M) (hR : Supported R s.w) (hq : q.DeepOK s.w cmp P) (hg : q.GroundAnnots) (hsafe : q.Safe M D)
    (hD : ∀ x, D x → GroundIn false s.b.scope (.var x))
    (hsc : ScopeOK cmp s.b.scope) (hb : ScopeBelow s.nv s.b.scope) (hqb : q.bound ≤ s.nv)
    (h : Answer (Consumer cmp true) (.start q : Gen A G) s s') :
    ∀ x, q.after D x → GroundIn false s'.b.scope (.var x) := by
  have h' : Answer (Uses cmp true) (.start q : Gen A G) s s' :=
    h.mono fun _ _ h => ⟨h.world, h.vars, by simpa [rel] using h.trail, h.ok, h.below⟩
  exact Deep.answer_ground hs hR h' (fun σ => TrueIn R s.w σ q) (fun σ => TrueIn R s.w σ q) rfl ⟨hsc, hb⟩ (Nat.le_refl _)
    ⟨⟨D, hsafe, fun _ h => h, hD⟩, hq, hg, hqb, .refl _, fun _ _ hh => hh, fun _ _ hh => hh⟩

/-- A consumer that does nothing is a `Consumer`. -/
theorem deep_idle (hs : DeepStrata s.w cmp P M) (hR : Supported R s.w) (hq : q.DeepOK s.w cmp P) (hg : q.GroundAnnots)
    (hsafe : q.Safe M D) (hD : ∀ x, D x → GroundIn false s.b.scope (.var x))
    (hsc : ScopeOK cmp s.b.scope) (hb : ScopeBelow s.nv s.b.scope) (hqb : q.bound ≤ s.nv) {l : List (QSt W)}
    (h : Drain (fun s s' => s' = s) (.start q : Gen A G) s l s') : Drain (Consumer cmp true) (.start q : Gen A G) s l s' :=
  (Deep.drain_idle_safe hs hR h (E := D) (fun σ => TrueIn R s.w σ q) (fun σ => TrueIn R s.w σ q) rfl ⟨hsc, hb⟩ (Nat.le_refl _)
    ⟨⟨D, hsafe, q.after_sub, hD⟩, hq, hg, hqb, .refl _, fun _ _ hh => hh, fun _ _ hh => hh⟩).mono
    fun _ _ h => ⟨h.1, h.2.1, by simpa [rel] using h.2.2.1, h.2.2.2.ok, h.2.2.2.below⟩

/-- Answers of an exhausted query, one after the other. -/
theorem drain_answer {C : QSt W → QSt W → Prop} {g : Gen A G} {l : List (QSt W)} (h : Drain C g s l s') :
    ∀ s₁ ∈ l, Answer C g s s₁ := by
  induction h with
  | stop => nofun
  | next hn hr _ ih =>
    intro s₁ hs
    rcases List.mem_cons.1 hs with rfl | hs
    · exact .now hn
    · exact .later hn hr (ih s₁ hs)

/-- **C89**: if a query comes to an end, all sets of derived facts that are supported by the rules agree about
it. -/
theorem C89_unique {R' : Val → Prop} (hs : DeepStrata s.w cmp P M) (hR : Supported R s.w) (hR' : Supported R' s.w) (hq : q.DeepOK s.w cmp P)
    (hg : q.GroundAnnots) (hsafe : q.Safe M D) (hD : ∀ x, D x → GroundIn false s.b.scope (.var x))
    (hsc : ScopeOK cmp s.b.scope) (hb : ScopeBelow s.nv s.b.scope) (hqb : q.bound ≤ s.nv) {l : List (QSt W)}
    (h : Drain (Consumer cmp true) (.start q : Gen A G) s l s') (σ : Asg) (hσ : Models σ s.b.scope) :
    TrueIn R s.w σ q ↔ TrueIn R' s.w σ q := by
  have key : ∀ {R R' : Val → Prop}, Supported R s.w → Supported R' s.w → TrueIn R s.w σ q → TrueIn R' s.w σ q := by
    intro R R' hR hR' ht
    obtain ⟨s₁, h1, σ', h2, h3⟩ := C89_complete hs hR hq hg hsafe hD hsc hb hqb h σ hσ ht
    exact (true_congr hs (h2.mono hqb)).2 (C89_sound hs hR' hq hg hsafe hD hsc hb hqb (drain_answer h s₁ h1) σ' h3)
  exact ⟨key hR hR', key hR' hR⟩

/-- **C89**: a negated query whose variables are bound is true exactly if the query is false, whatever the negations
in it and in the rules; the bindings are the same afterwards. -/
theorem C89_not {n : Nat} {o : Option (Gen A G)} (hs : DeepStrata s.w cmp P M) (hR : Supported R s.w) (hq : q.DeepOK s.w cmp P) (hg : q.GroundAnnots)
    (hP : q.DeepIn P) (hD : q.Over fun x => GroundIn false s.b.scope (.var x)) (hplain : q.Plain)
    (hsc : ScopeOK cmp s.b.scope) (hb : ScopeBelow s.nv s.b.scope) (hqb : q.bound ≤ s.nv)
    (h : gnext n (.start (.not q) : Gen A G) s = .ok o s') :
    s'.b.scope = s.b.scope ∧ ∀ σ : Asg, Models σ s.b.scope → (o.isSome = true ↔ ¬ TrueIn R s.w σ q) := by
  have hn : (Query.not q : Query A).DeepOK s.w cmp P := ⟨hq, hg, hP⟩
  have hc := Deep.gnext_deep hs hR n (.start (.not q)) s s.nv s.b (fun _ => False) (fun σ => ¬ TrueIn R s.w σ q) (fun σ => ¬ TrueIn R s.w σ q) rfl
    ⟨hsc, hb⟩ (Nat.le_refl _) ⟨⟨fun x => GroundIn false s.b.scope (.var x), ⟨hD, hplain⟩, nofun, fun _ h => h⟩, hn, hg, hqb, .refl _,
      fun _ _ hh => hh, fun _ _ hh => hh⟩
  cases o with
  | none =>
    obtain ⟨_, _, _, h1, h2⟩ := hc.onNone _ h
    exact ⟨h1.scope, fun σ hσ => ⟨nofun, fun hh => absurd hh (h2 σ hσ)⟩⟩
  | some g =>
    obtain ⟨_, _, _, _, _, _, hh, _, hi, _⟩ := hc.onSome _ _ h
    rw [not_done h] at hi
    have hsc' := hi.1.scope
    exact ⟨hsc', fun σ hσ => ⟨fun _ => hh σ (hsc' ▸ hσ), fun _ => rfl⟩⟩

/-- **C89**: if the rules are stratified (a predicate is only negated in rules for predicates of higher levels), there is a
set of derived facts that is supported by them. -/
theorem C89_model {w : W} {lev : String × Nat → Nat} (hs : DeepStrata w cmp P M)
    (hl : ∀ grp, ∀ r ∈ QWorld.rules w grp, r.query.Strat lev (lev grp)) : ∃ R, Supported R w :=
  ⟨AllLevels lev w, levels_supported (fun grp r hr => ⟨(hs.rule grp r hr).1, (hs.rule grp r hr).2.1⟩) hl⟩

/-- **C89** (without negation): if neither the rules nor the query have negations, the heads of the rules whose
body follows are a set that is supported by the rules, and truth in it is the same as in C14 and C15. -/
theorem C89_positive {w : W} (hs : ∀ grp, ∀ r ∈ QWorld.rules w grp, r.query.OK w cmp) :
    ∃ R : Val → Prop, Supported R w ∧ ∀ q : Query A, q.OK w cmp → ∀ σ, TrueIn R w σ q ↔ Holds w σ q := by
  have key : ∀ q : Query A, q.OK w cmp → ∀ σ,
      TrueIn (fun v => ∃ grp, ∃ r ∈ QWorld.rules w grp, ∃ τ, Den τ r.head v ∧ Holds w τ r.query) w σ q ↔ Holds w σ q := by
    intro q
    induction q with
    | tru => exact fun _ σ => ⟨fun _ => .tru, fun _ => trivial⟩
    | fls => exact fun _ σ => ⟨nofun, nofun⟩
    | act => exact fun h => h.elim
    | not => exact fun h => h.elim
    | term t =>
      intro _ σ
      constructor
      · rintro (h | ⟨grp, b, h1, h2, h3⟩ | ⟨v, h1, grp, r, h2, τ, h3, h4⟩)
        · exact .bool h
        · exact .belief h1 h2 h3
        · exact .rule h2 h1 h3 h4
      · intro h
        cases h with
        | bool h => exact .inl h
        | belief h1 h2 h3 => exact .inr (.inl ⟨_, _, h1, h2, h3⟩)
        | rule h2 h1 h3 h4 => exact .inr (.inr ⟨_, h1, _, _, h2, _, h3, h4⟩)
    | and p q ihp ihq =>
      intro h σ
      constructor
      · exact fun hh => .and ((ihp h.1 σ).1 hh.1) ((ihq h.2 σ).1 hh.2)
      · intro hh
        cases hh with
        | and h1 h2 => exact ⟨(ihp h.1 σ).2 h1, (ihq h.2 σ).2 h2⟩
    | or p q ihp ihq =>
      intro h σ
      constructor
      · rintro (hh | hh)
        · exact .orL ((ihp h.1 σ).1 hh)
        · exact .orR ((ihq h.2 σ).1 hh)
      · intro hh
        cases hh with
        | orL h1 => exact .inl ((ihp h.1 σ).2 h1)
        | orR h1 => exact .inr ((ihq h.2 σ).2 h1)
    | unify l r =>
      intro _ σ
      constructor
      · exact fun h => .unify h.1 h.2
      · intro h
        cases h with
        | unify h1 h2 => exact ⟨h1, h2⟩
  refine ⟨_, fun v => ?_, key⟩
  constructor
  · rintro ⟨grp, r, h1, τ, h2, h3⟩
    exact ⟨grp, r, h1, τ, h2, (key _ (hs grp r h1) τ).2 h3⟩
  · rintro ⟨grp, r, h1, τ, h2, h3⟩
    exact ⟨grp, r, h1, τ, h2, (key _ (hs grp r h1) τ).1 h3⟩

end

section
variable [Host] {R : Val → Prop}

/-- **C89** for plans: a plan is only chosen with bindings that make its context true. -/
theorem C89_chosen {n : Nat} {c : Bool} {P M : String × Nat → Prop} {e : Term} {p : Plan} {s s' : QSt World} (h : Accepts n e p s s')
    (hs : DeepStrata s.w c P M) (hR : Supported R s.w) (hhead : p.head.LitOK c) (hevent : e.Parts (Term.Tame c)) (hcompat : LitCompat p.head e)
    (hctx : p.context.DeepOK s.w c P) (hvars : p.head.bound ≤ s.nv ∧ e.bound ≤ s.nv ∧ p.context.bound ≤ s.nv)
    (hsc : ScopeOK c s.b.scope) (hb : ScopeBelow s.nv s.b.scope) (hg : p.context.GroundAnnots)
    (hground : GroundIn false s.b.scope e) (hsafe : p.context.Safe M p.head.Occurs) :
    ∀ σ : Asg, Models σ s'.b.scope → Agree σ p.head e ∧ AnnotsMatch σ p.head.annots e.annots ∧ TrueIn R s.w σ p.context := by
  cases h with
  | @mk d b g h1 h2 =>
    obtain ⟨g1, g2, _⟩ := (UaSC.lit (n := n) (cm := false) hsc hhead hevent hcompat nofun).yes _ _ h1
    have g3 : ScopeBelow s.nv b.scope := ua_P (hered_bound s.nv) n p.head e s.b b hb hvars.1 hvars.2.1 (.inl ⟨_, h1⟩)
    have g4 := ua_grounds h1
    intro σ hσ
    obtain ⟨_, _, _, _, _, _, h3, _, h4, _⟩ := (Deep.gnext_deep hs hR n (.start p.context) { s with b := b } s.nv b p.head.Occurs
      (fun σ => TrueIn R s.w σ p.context) (fun σ => TrueIn R s.w σ p.context) rfl ⟨g1, g3⟩ (Nat.le_refl _)
      ⟨⟨_, hsafe, p.context.after_sub, fun x hx => ((g4.left _ (.refl _) (hground.mono g4.sub)).occurs hx).strict (fun x t h => (g1 x t h).1)
        (by simp [Term.NoWild, Term.Every])⟩, hctx, hg, hvars.2.2, .refl _, fun _ _ hh => hh, fun _ _ hh => hh⟩).onSome _ _ h2
    obtain ⟨_, h5⟩ := g2 σ (h4.above.models hσ)
    exact ⟨h5.1, h5.2, h3 σ hσ⟩

/-- **C89** for plans: a plan is passed over only if there is no assignment under which the event is an
instance of its head and its context is true. -/
theorem C89_context {n : Nat} {c : Bool} {P M : String × Nat → Prop} {e : Term} {p : Plan} {s s' : QSt World} (h : Rejects n e p s s')
    (hs : DeepStrata s.w c P M) (hR : Supported R s.w) (hhead : p.head.LitOK c) (hevent : e.Parts (Term.Tame c)) (hcompat : LitCompat p.head e)
    (hctx : p.context.DeepOK s.w c P) (hvars : p.head.bound ≤ s.nv ∧ e.bound ≤ s.nv ∧ p.context.bound ≤ s.nv)
    (hsc : ScopeOK c s.b.scope) (hb : ScopeBelow s.nv s.b.scope) (hg : p.context.GroundAnnots)
    (hh : (∀ x ∈ p.head.annots, x.Closed) ∧ (p.head.annots.Pairwise fun x y => x.val ≠ y.val) ∧ ∀ y ∈ e.annots, y.Closed)
    (hground : GroundIn false s.b.scope e) (hsafe : p.context.Safe M p.head.Occurs) :
    ∀ σ : Asg, Models σ s.b.scope → ¬ (Agree σ p.head e ∧ AnnotsMatch σ p.head.annots e.annots ∧ TrueIn R s.w σ p.context) := by
  have ua := UaSC.lit (n := n) (cm := true) hsc hhead hevent hcompat fun _ => hh
  intro σ hσ hf
  cases h with
  | head h1 => exact ua.no _ h1 rfl σ hσ ⟨hf.1, hf.2.1⟩
  | @context d b s₁ h1 h2 =>
    obtain ⟨g1, _, g2⟩ := ua.yes _ _ h1
    have g3 : ScopeBelow s.nv b.scope := ua_P (hered_bound s.nv) n p.head e s.b b hb hvars.1 hvars.2.1 (.inl ⟨_, h1⟩)
    have g4 := ua_grounds h1
    obtain ⟨_, h, _⟩ := C89_complete (s := { s with b := b }) hs hR hctx hg hsafe
      (fun x hx => ((g4.left _ (.refl _) (hground.mono g4.sub)).occurs hx).strict (fun x t h => (g1 x t h).1) (by simp [Term.NoWild, Term.Every]))
      g1 g3 hvars.2.2 (.stop h2) σ (g2 rfl σ hσ ⟨hf.1, hf.2.1⟩) hf.2.2
    simp at h

end

section examples
attribute [local instance] exactArith

/-- `pos(1). pos(2). pos(3). at(a, 1). at(b, 3). blocked(X) :- at(Y, X). free(X) :- pos(X) & not blocked(X).
stuck(X) :- pos(X) & not free(X). good(X) :- pos(X) & not stuck(X).` -/
def deepKB : KB where
  bels := fun g => if g = ("pos", 1) then [.lit "pos" [.num 1] [], .lit "pos" [.num 2] [], .lit "pos" [.num 3] []]
    else if g = ("at", 2) then [.lit "at" [.atom "a", .num 1] [], .lit "at" [.atom "b", .num 3] []] else []
  rules := fun g => if g = ("blocked", 1) then [⟨.lit "blocked" [.var 0] [], .term (.lit "at" [.var 1, .var 0] [])⟩]
    else if g = ("free", 1) then
      [⟨.lit "free" [.var 0] [], .and (.term (.lit "pos" [.var 0] [])) (.not (.term (.lit "blocked" [.var 0] [])))⟩]
    else if g = ("stuck", 1) then
      [⟨.lit "stuck" [.var 0] [], .and (.term (.lit "pos" [.var 0] [])) (.not (.term (.lit "free" [.var 0] [])))⟩]
    else if g = ("good", 1) then
      [⟨.lit "good" [.var 0] [], .and (.term (.lit "pos" [.var 0] [])) (.not (.term (.lit "stuck" [.var 0] [])))⟩]
    else []

private theorem deepKB_rule {Q : String × Nat → Rule Empty → Prop}
    (h1 : Q ("blocked", 1) ⟨.lit "blocked" [.var 0] [], .term (.lit "at" [.var 1, .var 0] [])⟩)
    (h2 : Q ("free", 1) ⟨.lit "free" [.var 0] [], .and (.term (.lit "pos" [.var 0] [])) (.not (.term (.lit "blocked" [.var 0] [])))⟩)
    (h3 : Q ("stuck", 1) ⟨.lit "stuck" [.var 0] [], .and (.term (.lit "pos" [.var 0] [])) (.not (.term (.lit "free" [.var 0] [])))⟩)
    (h4 : Q ("good", 1) ⟨.lit "good" [.var 0] [], .and (.term (.lit "pos" [.var 0] [])) (.not (.term (.lit "stuck" [.var 0] [])))⟩) :
    ∀ grp, ∀ r ∈ QWorld.rules deepKB grp, Q grp r := by
  intro grp r hr
  simp only [QWorld.rules, deepKB] at hr
  split at hr
  · simp only [List.mem_singleton] at hr; subst_vars; exact h1
  · split at hr
    · simp only [List.mem_singleton] at hr; subst_vars; exact h2
    · split at hr
      · simp only [List.mem_singleton] at hr; subst_vars; exact h3
      · split at hr
        · simp only [List.mem_singleton] at hr; subst_vars; exact h4
        · cases hr

theorem deepKB_strata : DeepStrata deepKB true (fun _ => True) fun _ => False where
  belief := by
    intro grp b hb
    simp only [QWorld.beliefs, deepKB] at hb
    split at hb
    · rename_i h
      simp only [List.mem_cons, List.not_mem_nil, or_false] at hb
      subst h
      rcases hb with rfl | rfl | rfl <;> (refine ⟨rfl, ?_, ?_, rfl⟩ <;>
        simp [Term.Parts, Term.Closed, Term.Tame, Term.NoAnnots, Term.Every])
    · split at hb
      · rename_i h
        simp only [List.mem_cons, List.not_mem_nil, or_false] at hb
        subst h
        rcases hb with rfl | rfl <;> (refine ⟨rfl, ?_, ?_, rfl⟩ <;>
          simp [Term.Parts, Term.Closed, Term.Tame, Term.NoAnnots, Term.Every, Term.EveryL])
      · cases hb
  rule := by
    apply deepKB_rule <;> simp [Term.group, Term.Parts, Term.NoWild, Term.Tame, Term.NoAnnots, Term.Every, Query.DeepOK, Query.OK, Term.LitOK,
      Term.isLiteral, Query.GroundAnnots, Term.annots, Query.DeepIn]
  lower := by
    intro grp _
    revert grp
    apply deepKB_rule <;> simp [Query.DeepIn]
  ground := by
    intro grp _
    revert grp
    apply deepKB_rule <;> simp [Query.Plain, Term.Plain, Term.isOp, Query.Over, Query.after, Term.Occurs, Term.Over, Term.Every, Term.EveryL]
  safe := by
    apply deepKB_rule <;> simp [Query.GroundAnnots, Query.Safe, Query.Plain, Term.Plain, Term.isOp, Query.after, Query.Over, Term.Occurs, Term.Over,
        Term.Every, Term.EveryL, Term.annots]

/-- Levels of the predicates. -/
def deepLev (g : String × Nat) : Nat := if g.1 = "free" then 1 else if g.1 = "stuck" then 2 else if g.1 = "good" then 3 else 0

/-- C89_model: the rules have four levels. -/
theorem deepKB_model : ∃ R, Supported R deepKB :=
  C89_model deepKB_strata (lev := deepLev) (by
    apply deepKB_rule
    · simp [Query.Strat, deepLev]
    · exact ⟨by simp [Query.Strat, deepLev], 0, by simp [deepLev], by simp [Query.Strat, deepLev]⟩
    · exact ⟨by simp [Query.Strat, deepLev], 1, by simp [deepLev], by simp [Query.Strat, deepLev]⟩
    · exact ⟨by simp [Query.Strat, deepLev], 2, by simp [deepLev], by simp [Query.Strat, deepLev]⟩)

/-- C89_positive: for a query about the predicates without negation, truth is the same as in C14. -/
example : ∃ R : Val → Prop, Supported R ({ deepKB with rules := fun g => if g = ("blocked", 1) then deepKB.rules g else [] } : KB) ∧
    ∀ σ, TrueIn R ({ deepKB with rules := fun g => if g = ("blocked", 1) then deepKB.rules g else [] } : KB) σ
        (.term (.lit "blocked" [.var 0] [])) ↔
      Holds ({ deepKB with rules := fun g => if g = ("blocked", 1) then deepKB.rules g else [] } : KB) σ (.term (.lit "blocked" [.var 0] [])) := by
  obtain ⟨R, h1, h2⟩ := C89_positive (cmp := true)
    (w := ({ deepKB with rules := fun g => if g = ("blocked", 1) then deepKB.rules g else [] } : KB)) (by
      intro grp r hr
      simp only [QWorld.rules] at hr
      split at hr
      · subst_vars
        simp only [deepKB, if_pos, List.mem_singleton] at hr
        subst hr
        simp [Query.OK, Term.LitOK, Term.Parts, Term.NoWild, Term.Tame, Term.NoAnnots, Term.Every, Term.isLiteral, Term.annots]
      · cases hr)
  refine ⟨R, h1, h2 _ ?_⟩
  simp [Query.OK, Term.LitOK, Term.Parts, Term.NoWild, Term.Tame, Term.NoAnnots, Term.Every, Term.isLiteral, Term.annots]

/-- `good(X)` -/
private abbrev goodQ : Query Empty := .term (.lit "good" [.var 0] [])

/-- C89_sound, C89_complete: the only answer of `good(X)` is `X = 2`; `good(X)` is true under all assignments that fit this answer and
under no assignment with another `X`. -/
example : ∃ (g : Gen Empty Empty) (s₁ s' : QSt KB), gnext 60 (.start goodQ : Gen Empty Empty) ⟨BSt.init, 1, deepKB⟩ = .ok (some g) s₁ ∧
    gnext 60 g s₁ = .ok none s' ∧ (s₁.b.scope 0 = some (.var 1) ∧ s₁.b.scope 1 = some (.num 2)) ∧
    ∀ R, Supported R deepKB → ∀ σ, (Models σ s₁.b.scope → TrueIn R deepKB σ goodQ) ∧ (TrueIn R deepKB σ goodQ → σ 0 = .num 2) := by
  have h : ∃ (g : Gen Empty Empty) (s₁ s' : QSt KB), gnext 60 (.start goodQ : Gen Empty Empty) ⟨BSt.init, 1, deepKB⟩ = .ok (some g) s₁ ∧
      gnext 60 g s₁ = .ok none s' ∧ (s₁.b.scope 0 = some (.var 1) ∧ s₁.b.scope 1 = some (.num 2)) :=
    ⟨_, _, _, rfl, rfl, rfl, rfl⟩
  obtain ⟨g, s₁, s', h1, h2, h3, h4⟩ := h
  refine ⟨g, s₁, s', h1, h2, ⟨h3, h4⟩, fun R hR σ => ?_⟩
  have hd : Drain (fun s s' => s' = s) (.start goodQ : Gen Empty Empty) ⟨BSt.init, 1, deepKB⟩ [s₁] s' := .next h1 rfl (.stop h2)
  have hn : goodQ.DeepOK deepKB true fun _ => True := by
    simp [Term.Parts, Term.NoWild, Term.Tame, Term.NoAnnots, Term.Every, Query.DeepOK, Query.OK, Term.LitOK, Term.isLiteral, Term.annots]
  have hg : goodQ.GroundAnnots := by simp [Query.GroundAnnots, Term.annots]
  have hf : goodQ.Safe (fun _ => False) fun _ => False := by simp [Query.Safe]
  have hc := deep_idle (s := ⟨BSt.init, 1, deepKB⟩) deepKB_strata hR hn hg hf nofun nofun nofun (Nat.le_refl _) hd
  constructor
  · exact C89_sound (s := ⟨BSt.init, 1, deepKB⟩) deepKB_strata hR hn hg hf nofun nofun nofun (Nat.le_refl _) (.now h1) σ
  · intro hσ
    obtain ⟨s₀, hs, σ', j1, j2⟩ := C89_complete (s := ⟨BSt.init, 1, deepKB⟩) deepKB_strata hR hn hg hf nofun nofun nofun (Nat.le_refl _) hc σ nofun hσ
    simp only [List.mem_cons, List.not_mem_nil, or_false] at hs
    subst hs
    rw [j1 0 (by simp)]
    have a := j2 0 _ h3
    have b := j2 1 _ h4
    simp only [Den] at a b
    exact a ▸ b

/-- C89_not: `not stuck(2)` is true, `not stuck(1)` is not, in every set supported by the rules; three negations are evaluated inside each other. -/
example : ∀ R, Supported R deepKB → ∀ σ, ¬ TrueIn R deepKB σ (.term (.lit "stuck" [.num 2] [])) ∧
    TrueIn R deepKB σ (.term (.lit "stuck" [.num 1] [])) := by
  intro R hR σ
  have h1 : ∃ (g : Gen Empty Empty) (s' : QSt KB),
      gnext 60 (.start (.not (.term (.lit "stuck" [.num 2] []))) : Gen Empty Empty) ⟨BSt.init, 0, deepKB⟩ = .ok (some g) s' := ⟨_, _, rfl⟩
  have h2 : ∃ s' : QSt KB,
      gnext 60 (.start (.not (.term (.lit "stuck" [.num 1] []))) : Gen Empty Empty) ⟨BSt.init, 0, deepKB⟩ = .ok none s' := ⟨_, rfl⟩
  obtain ⟨g, s', h1⟩ := h1
  obtain ⟨s'', h2⟩ := h2
  constructor
  · refine ((C89_not (s := ⟨BSt.init, 0, deepKB⟩) (cmp := true) deepKB_strata hR ?_ ?_ ?_ ?_ ?_ nofun nofun ?_ h1).2 σ nofun).1 rfl <;>
      simp [Term.Parts, Term.NoWild, Term.Tame, Term.NoAnnots, Term.Every, Query.DeepOK, Query.OK, Term.LitOK, Term.isLiteral, Term.annots,
        Query.GroundAnnots, Query.DeepIn, Query.Over, Term.Over, Term.EveryL, Query.Plain, Term.Plain, Term.isOp, Query.bound, Term.bound, Term.boundL]
  · refine Classical.byContradiction fun hn => ?_
    have hx := ((C89_not (s := ⟨BSt.init, 0, deepKB⟩) (cmp := true) deepKB_strata hR ?_ ?_ ?_ ?_ ?_ nofun nofun ?_ h2).2 σ nofun).2 hn
    · cases hx
    all_goals simp [Term.Parts, Term.NoWild, Term.Tame, Term.NoAnnots, Term.Every, Query.DeepOK, Query.OK, Term.LitOK, Term.isLiteral, Term.annots,
        Query.GroundAnnots, Query.DeepIn, Query.Over, Term.Over, Term.EveryL, Query.Plain, Term.Plain, Term.isOp, Query.bound, Term.bound, Term.boundL]

end examples

section examples
attribute [local instance] exactHost

theorem busyWorld_deep : DeepStrata busyWorld true (fun _ => True) fun _ => False where
  belief := busyWorld_strata.belief
  rule := fun grp r hr => by simp [QWorld.rules, busyWorld, World.setBeliefs, World.init, World.setAg, World.setSet] at hr
  lower := fun grp _ r hr => by simp [QWorld.rules, busyWorld, World.setBeliefs, World.init, World.setAg, World.setSet] at hr
  ground := fun grp _ => by simp [QWorld.rules, busyWorld, World.setBeliefs, World.init, World.setAg, World.setSet]
  safe := fun grp r hr => by simp [QWorld.rules, busyWorld, World.setBeliefs, World.init, World.setAg, World.setSet] at hr

/-- `+!move(X) : not not busy(X)` -/
def notNotPlan : Plan := { movePlan with context := .not (.not (.term (.lit "busy" [.var 0] []))) }

/-- C89_chosen: the plan is chosen for the event `!move(a)`, as `busy(a)` is true. -/
example : ∃ s' : QSt World, Accepts 30 (.lit "move" [.atom "a"] []) notNotPlan ⟨BSt.init, 1, busyWorld⟩ s' ∧
    ∀ R, Supported R busyWorld → ∀ σ : Asg, Models σ s'.b.scope → TrueIn R busyWorld σ (.term (.lit "busy" [.var 0] []) : Query Act) := by
  have h : ∃ s' : QSt World, Accepts 30 (.lit "move" [.atom "a"] []) notNotPlan ⟨BSt.init, 1, busyWorld⟩ s' := ⟨_, .mk rfl rfl⟩
  obtain ⟨s', h⟩ := h
  refine ⟨s', h, fun R hR σ hσ => ?_⟩
  have hx := (C89_chosen h busyWorld_deep hR ?_ ?_ ?_ ?_ ?_ nofun nofun ?_ ?_ ?_ σ hσ).2.2
  · exact Classical.byContradiction hx
  · simp [notNotPlan, movePlan, Term.LitOK, Term.Tame, Term.NoAnnots, Term.Every, Term.annots]
  · simp [Term.Parts, Term.Tame, Term.NoAnnots, Term.Every, Term.EveryL]
  · exact .inr (.inr (by simp [Term.Parts, Term.Closed, Term.Every, Term.EveryL]))
  · simp [notNotPlan, Term.Parts, Term.NoWild, Term.Tame, Term.NoAnnots, Term.Every, Query.DeepOK, Query.OK, Term.LitOK, Term.isLiteral,
          Query.GroundAnnots, Term.annots, Query.DeepIn]
  · simp [notNotPlan, movePlan, Term.bound, Term.boundL, Query.bound]
  · simp [notNotPlan, Query.GroundAnnots, Term.annots]
  · exact .lit (by simp only [List.mem_singleton]; rintro a rfl; exact .lit nofun)
  · simp [notNotPlan, movePlan, Query.Safe, Query.Plain, Term.Plain, Term.isOp, Query.Over, Term.Occurs, Term.Over, Term.Every, Term.EveryL]

/-- C89_context: the plan is passed over for the event `!move(b)`, as `busy(b)` is not true. -/
example : ∃ s' : QSt World, Rejects 30 (.lit "move" [.atom "b"] []) notNotPlan ⟨BSt.init, 1, busyWorld⟩ s' ∧
    ∀ R, Supported R busyWorld → ∀ σ : Asg, Agree σ notNotPlan.head (.lit "move" [.atom "b"] []) →
      ¬ TrueIn R busyWorld σ (.term (.lit "busy" [.var 0] []) : Query Act) := by
  have h : ∃ s' : QSt World, Rejects 30 (.lit "move" [.atom "b"] []) notNotPlan ⟨BSt.init, 1, busyWorld⟩ s' := ⟨_, .context rfl rfl⟩
  obtain ⟨s', h⟩ := h
  refine ⟨s', h, fun R hR σ hσ hh => ?_⟩
  refine C89_context h busyWorld_deep hR ?_ ?_ ?_ ?_ ?_ nofun nofun ?_ ?_ ?_ ?_ σ nofun ⟨hσ, ?_, fun hx => hx hh⟩
  · simp [notNotPlan, movePlan, Term.LitOK, Term.Tame, Term.NoAnnots, Term.Every, Term.annots]
  · simp [Term.Parts, Term.Tame, Term.NoAnnots, Term.Every, Term.EveryL]
  · exact .inr (.inr (by simp [Term.Parts, Term.Closed, Term.Every, Term.EveryL]))
  · simp [notNotPlan, Term.Parts, Term.NoWild, Term.Tame, Term.NoAnnots, Term.Every, Query.DeepOK, Query.OK, Term.LitOK, Term.isLiteral,
          Query.GroundAnnots, Term.annots, Query.DeepIn]
  · simp [notNotPlan, movePlan, Term.bound, Term.boundL, Query.bound]
  · simp [notNotPlan, Query.GroundAnnots, Term.annots]
  · simp [notNotPlan, movePlan, Term.annots]
  · exact .lit (by simp only [List.mem_singleton]; rintro a rfl; exact .lit nofun)
  · simp [notNotPlan, movePlan, Query.Safe, Query.Plain, Term.Plain, Term.isOp, Query.Over, Term.Occurs, Term.Over, Term.Every, Term.EveryL]
  · exact ⟨[], ⟨_, .refl _⟩, rfl, by simp [notNotPlan, movePlan, Term.annots]⟩

end examples

end Verif
