import Verif.Lemmas.QEnum
import Verif.Lemmas.QBound
import Verif.Lemmas.Vars
import Verif.Spec.KB
import Verif.Spec.ExactArith

/-!
# Properties C13–C17, C50: queries

`gnext n g s` is `next(g)`.  `Drain R g s l s'`: a consumer takes all answers of the
generator `g`, changing the state between answers as allowed by `R`; `l` are the states
of the answers, `s'` is the state after exhaustion.
-/

namespace Verif

section
variable {W A G : Type} [Arith] [QWorld W A G]

/-- **C13.** A query (without actions, and without `literal = variable`) leaves scope and
stack as they were when it is exhausted, if the consumer restores them between the
answers. -/
theorem C13_backtracking_restores {q : Query A} {s s' : QSt W} {l : List (QSt W)}
    (hq : q.Clean fun _ _ => False) (hw : Plain s.w)
    (h : Drain (fun s s' => Plain s'.w ∧ Same s.b s'.b) (.start q) s l s') :
    s'.b.scope = s.b.scope ∧ s'.b.stack = s.b.stack := by
  have := drain_trail (T := noActs Plain (fun w h => h.rules) (fun w h => h.bels)) (r := true) (e := true) (b₀ := s.b) noActs_good
    (fun s s' hR _ => hR) h hw ⟨hq, fun _ => Query.settles_clean hq, rel_refl _ _⟩
  exact ⟨Same.scope this.2, Same.stack this.2⟩

/-- **C13.** Queries whose every answer sets a choicepoint (`settles`: belief queries,
`=`, conjunctions with such a query, disjunctions of two such queries) also undo all
trailed bindings the consumer has made between the answers. -/
theorem C13_backtracking_undoes_consumer {q : Query A} {s s' : QSt W} {l : List (QSt W)}
    (hq : q.Clean fun _ _ => False) (hg : q.settles (fun _ _ _ => false) false = true) (hw : Plain s.w)
    (h : Drain (fun s s' => Plain s'.w ∧ Above s.b s'.b) (.start q) s l s') :
    s'.b.scope = s.b.scope ∧ s'.b.stack = s.b.stack := by
  have := drain_trail (T := noActs Plain (fun w h => h.rules) (fun w h => h.bels)) (r := false) (e := true) (b₀ := s.b) noActs_good
    (fun s s' hR _ => hR) h hw ⟨hq, fun _ => hg, rel_refl _ _⟩
  exact ⟨Same.scope this.2, Same.stack this.2⟩

/-- **C13.** Whatever the query (without actions, and without `literal = variable`) and
the consumer, at exhaustion there is nothing but additional trailed bindings: undoing
them gives the initial scope and stack. -/
theorem C13_backtracking_trailed {q : Query A} {s s' : QSt W} {l : List (QSt W)}
    (hq : q.Clean fun _ _ => False) (hw : Plain s.w)
    (h : Drain (fun s s' => Plain s'.w ∧ Above s.b s'.b) (.start q) s l s') : Above s.b s'.b :=
  (drain_trail (T := noActs Plain (fun w h => h.rules) (fun w h => h.bels)) (r := false) (e := false) (b₀ := s.b) noActs_good
    (fun s s' hR _ => hR) h hw ⟨hq, by simp, rel_refl _ _⟩).2

/-- **C14.** Every answer of a query is a logical consequence of the belief base and the
rules: all assignments consistent with the bindings of the answer make the query true. -/
theorem C14_query_sound {cmp : Bool} {q : Query A} {s s' : QSt W} (hw : KBOK s.w cmp) (hq : q.OK s.w cmp)
    (hsc : ScopeOK cmp s.b.scope) (hb : ScopeBelow s.nv s.b.scope) (hqb : q.bound ≤ s.nv)
    (h : Answer (Consumer cmp false) (.start q : Gen A G) s s') :
    ∀ σ : Asg, Models σ s'.b.scope → Holds s.w σ q := by
  have h' : Answer (Uses cmp false) (.start q : Gen A G) s s' :=
    h.mono fun _ _ h => ⟨h.world, h.vars, by simpa [rel] using h.trail, h.ok, h.below⟩
  exact answer_logic (cm := false) hw (by simp) h' (fun _ => True) rfl ⟨hsc, hb⟩ (Nat.le_refl _)
    ⟨hq, by simp, hqb, rel_refl _ _, fun σ _ hh => hh, by simp⟩

/-- **C15** (part).  If a query (ground annotations only) is exhausted, then every
assignment that is consistent with the initial bindings and makes the query true is, up
to variables created by the query, consistent with one of the answers.  Missing: variables
in annotations, for which this is false, see `C15_annotations_incomplete`; negation and
actions. -/
theorem C15_query_complete_partial {cmp : Bool} {q : Query A} {s s' : QSt W} {l : List (QSt W)} (hw : KBOK s.w cmp)
    (hq : q.OK s.w cmp) (hg : q.GroundAnnots) (hr : RulesAre (fun r : Rule A => r.query.GroundAnnots) s.w)
    (hsc : ScopeOK cmp s.b.scope) (hb : ScopeBelow s.nv s.b.scope) (hqb : q.bound ≤ s.nv)
    (h : Drain (Consumer cmp true) (.start q : Gen A G) s l s') :
    ∀ σ : Asg, Models σ s.b.scope → Holds s.w σ q →
      ∃ s₁ ∈ l, ∃ σ', EqBelow s.nv σ σ' ∧ Models σ' s₁.b.scope := by
  have h' : Drain (Uses cmp true) (.start q : Gen A G) s l s' :=
    h.mono fun _ _ h => ⟨h.world, h.vars, by simpa [rel] using h.trail, h.ok, h.below⟩
  exact drain_logic hw hr h' (φ := fun _ => True) (fun σ => Holds s.w σ q) rfl ⟨hsc, hb⟩ (Nat.le_refl _)
    ⟨hq, fun _ => hg, hqb, rel_refl _ _, fun _ _ _ => trivial, fun _ _ _ hh => hh⟩

/-- A consumer that does nothing is a `Consumer`. -/
theorem drain_consumer {cmp : Bool} {q : Query A} {s s' : QSt W} {l : List (QSt W)} (hw : KBOK s.w cmp)
    (hq : q.OK s.w cmp) (hg : q.GroundAnnots) (hr : RulesAre (fun r : Rule A => r.query.GroundAnnots) s.w)
    (hsc : ScopeOK cmp s.b.scope) (hb : ScopeBelow s.nv s.b.scope) (hqb : q.bound ≤ s.nv)
    (h : Drain (fun s s' => s' = s) (.start q : Gen A G) s l s') :
    Drain (Consumer cmp true) (.start q : Gen A G) s l s' :=
  (drain_idle (cm := true) hw (fun _ => hr) h (φ := fun _ => True) (fun σ => Holds s.w σ q) rfl ⟨hsc, hb⟩ (Nat.le_refl _)
    ⟨hq, fun _ => hg, hqb, rel_refl _ _, fun _ _ _ => trivial, fun _ _ _ hh => hh⟩).mono
    fun _ _ h => ⟨h.1, h.2.1, by simpa [rel] using h.2.2.1, h.2.2.2.ok, h.2.2.2.below⟩

/-- **C16.** `not q` is true exactly if `q` has no answer (`q` is run with the same
bindings; there is an additional choicepoint on the stack).  The bindings are restored
in both cases. -/
theorem C16_negation_as_failure {q : Query A} {s : QSt W} (hq : q.Clean fun _ _ => False) (hw : Plain s.w) (n : Nat) :
    (∀ g s₁, gnext n (.start q : Gen A G) { s with b := s.b.mark } = .ok (some g) s₁ →
      ∃ s', gnext (n + 1) (.start (.not q)) s = .ok none s' ∧ s'.b.scope = s.b.scope ∧ s'.b.stack = s.b.stack) ∧
    (∀ s₁, gnext n (.start q : Gen A G) { s with b := s.b.mark } = .ok none s₁ →
      ∃ g' s', gnext (n + 1) (.start (.not q)) s = .ok (some g') s' ∧ s'.b.scope = s.b.scope ∧ s'.b.stack = s.b.stack ∧
        ∀ m (s'' : QSt W), gnext (m + 1) g' s'' = .ok none s'') := by
  have tr := gnext_trail (T := noActs Plain (fun w h => h.rules) (fun w h => h.bels)) noActs_good n (.start q)
    { s with b := s.b.mark } true false s.b.mark hw ⟨hq, by simp, rel_refl _ _⟩
  constructor
  · intro g s₁ h
    obtain ⟨_, _, h3⟩ := tr.onSome _ _ h
    have hs : Same s.b (reroll s₁.b s.b.ncp) := same_reroll h3.above
    exact ⟨{ s₁ with b := reroll s₁.b s.b.ncp }, by simp [gnext, gstep, h, Res.onNext], hs.scope, hs.stack⟩
  · intro s₁ h
    have hs : Same s.b (reroll s₁.b s.b.ncp) := same_reroll (rel_above (tr.onNone _ h).2)
    exact ⟨.done, { s₁ with b := reroll s₁.b s.b.ncp }, by simp [gnext, gstep, h, Res.onNext], hs.scope, hs.stack,
      fun m s'' => rfl⟩

/-- **C16**, logical reading: if `not q` yields, no assignment consistent with the
bindings makes `q` true. -/
theorem C16_negation_sound {cmp : Bool} {q : Query A} {s s' : QSt W} {g : Gen A G} (hw : KBOK s.w cmp)
    (hq : q.OK s.w cmp) (hg : q.GroundAnnots) (hr : RulesAre (fun r : Rule A => r.query.GroundAnnots) s.w)
    (hsc : ScopeOK cmp s.b.scope) (hb : ScopeBelow s.nv s.b.scope) (hqb : q.bound ≤ s.nv) {n : Nat}
    (h : gnext n (.start (.not q)) s = .ok (some g) s') :
    ∀ σ : Asg, Models σ s.b.scope → ¬ Holds s.w σ q := by
  cases n with
  | zero => cases h
  | succ n =>
    simp only [gnext, gstep] at h
    cases hx : gnext n (.start q : Gen A G) { s with b := s.b.mark } with
    | oof => simp [hx, Res.onNext] at h
    | err e s₁ => simp [hx, Res.onNext] at h
    | ok o s₁ =>
      cases o with
      | some g' => simp [hx, Res.onNext] at h
      | none =>
        intro σ hσ hh
        obtain ⟨s₂, hs, _⟩ := C15_query_complete_partial (s := { s with b := s.b.mark }) hw hq hg hr hsc hb hqb (.stop hx) σ hσ hh
        simp at hs

/-- **C17.** A literal for whose predicate there are no rules: one answer for each
matching belief, in the order of the belief base, and nothing else; belief base and
bindings are unchanged at the end. -/
theorem C17_belief_query_enumerates {f : String} {as xs : List Term} {s s' : QSt W} {l : List (QSt W)}
    (hbel : ∀ x ∈ QWorld.beliefs s.w (f, as.length), x.isLiteral = true)
    (hr : QWorld.rules s.w (f, as.length) = ([] : List (Rule A)))
    (h : Drain (fun s s' => s'.w = s.w ∧ Same s.b s'.b) (.start (.term (.lit f as xs)) : Gen A G) s l s') :
    OnePerMatch (.lit f as xs) s.b (QWorld.beliefs s.w (f, as.length)) l ∧
      s'.w = s.w ∧ s'.b.scope = s.b.scope ∧ s'.b.stack = s.b.stack := by
  obtain ⟨h1, h2, h3⟩ := bel_drain_start (I := (· = s.w)) (fun w hw => by subst hw; exact ⟨hr, rfl⟩)
    (fun s₁ s₂ h hs => ⟨h.1.trans hs, h.2.above⟩) hbel rfl h
  exact ⟨h3, h1, h2.scope, h2.stack⟩

/-- **C17**, logical reading, for patterns with ground annotations: the answer of a matching
belief describes exactly the assignments under which pattern and belief
(with annotations) are equal; a belief is skipped iff there is no such assignment. -/
theorem C17_match_meaning {cmp : Bool} {t x : Term} {b b' : BSt} (hsc : ScopeOK cmp b.scope) (ht : t.LitOK cmp)
    (hg : (∀ a ∈ t.annots, a.Closed) ∧ t.annots.Pairwise fun a a' => a.val ≠ a'.val)
    (hx : x.Parts Term.Closed) (hx' : x.Parts (Term.Tame cmp)) :
    (Yields t x b b' → ∀ σ : Asg, Models σ b'.scope ↔ Models σ b.scope ∧ Agree σ t x ∧ AnnotsMatch σ t.annots x.annots) ∧
    (Fails t x b → ∀ σ : Asg, Models σ b.scope → ¬ (Agree σ t x ∧ AnnotsMatch σ t.annots x.annots)) := by
  have key : ∀ n (b₁ : BSt), Same b b₁ → UaSC cmp true (fun σ => Agree σ t x ∧ AnnotsMatch σ t.annots x.annots) b₁ (uaStart n t x b₁) :=
    fun n b₁ hs => UaSC.lit (by rw [hs.scope]; exact hsc) ht hx' (Or.inr (Or.inr hx)) fun _ => ⟨hg.1, hg.2, hx.closed_lit.2⟩
  constructor
  · rintro ⟨n, b₁, d, hs, h⟩ σ
    obtain ⟨_, h2, h3⟩ := (key n b₁ hs).yes _ _ h
    rw [← models_same hs]
    exact ⟨h2 σ, fun hh => h3 rfl σ hh.1 hh.2⟩
  · rintro ⟨n, b₁, b₂, hs, h⟩ σ hσ
    exact (key n b₁ hs).no _ h rfl σ ((models_same hs).2 hσ)

/-- **C50.** Rules are used through fresh copies.  `s.nv` is the number of `Var` objects
in use.  Whatever a query (without actions) does: (1) the counter never decreases, and all
bound variables and all variables in bound terms are below it; (2) a rule taken at that
point gets variables not below the counter, so they occur in no binding, in the same
positions, and different ones for different variables of the rule; (3) no copy made when
the counter has moved past the first copy shares a variable with it. -/
theorem C50_rules_hygienic {q : Query A} {s : QSt W} (hw : RulesAre (fun r : Rule A => r.query.Clean fun _ _ => False) s.w)
    (hb : ∀ grp, ∀ x ∈ QWorld.beliefs s.w grp, x.bound = 0) (hq : q.Clean fun _ _ => False) (hqb : q.bound ≤ s.nv)
    (hs : ScopeBelow s.nv s.b.scope) (n : Nat) (s' : QSt W) (h : (gnext n (.start q : Gen A G) s).leaves s') :
    (s.nv ≤ s'.nv ∧ ScopeBelow s'.nv s'.b.scope) ∧
    (∀ r : Rule A, (∀ x ∈ (r.deepcopy s'.nv).vars, x ∉ q.vars ∧ ∀ y t, s'.b.scope y = some t → x ≠ y ∧ x ∉ t.vars) ∧
      ∃ ρ : VarId → VarId, (∀ x y, ρ x = ρ y → x = y) ∧ (r.deepcopy s'.nv).vars = r.vars.map ρ) ∧
    (∀ r r' : Rule A, ∀ nv, s'.nv + r.bound ≤ nv → ∀ x ∈ (r.deepcopy s'.nv).vars, x ∉ (r'.deepcopy nv).vars) := by
  obtain ⟨_, h2, h3⟩ := (gnext_below ⟨hw, hb⟩ n (.start q) s rfl hs ⟨hq, hqb⟩).st s' h
  refine ⟨⟨h2, h3⟩, fun r => ⟨fun x hx => ?_, (s'.nv + ·), fun x y h => Nat.add_left_cancel h, r.vars_deepcopy _⟩,
    fun r r' nv hnv x hx hx' => ?_⟩
  · rw [r.vars_deepcopy, List.mem_map] at hx
    obtain ⟨z, _, rfl⟩ := hx
    refine ⟨fun hc => ?_, fun y t hy => ⟨fun he => ?_, fun hc => ?_⟩⟩
    · have := Query.lt_bound hc
      exact absurd (Nat.lt_of_lt_of_le this (Nat.le_trans hqb h2)) (Nat.not_lt.2 (Nat.le_add_right ..))
    · have := (h3 y t hy).1
      exact absurd (he ▸ this) (Nat.not_lt.2 (Nat.le_add_right ..))
    · exact absurd (Nat.lt_of_lt_of_le (Term.lt_bound hc) (h3 y t hy).2) (Nat.not_lt.2 (Nat.le_add_right ..))
  · rw [Rule.vars_deepcopy, List.mem_map] at hx hx'
    obtain ⟨z, hz, rfl⟩ := hx
    obtain ⟨z', _, hz'⟩ := hx'
    have h1 : s'.nv + z < s'.nv + r.bound := Nat.add_lt_add_left (Rule.lt_bound hz) _
    have h2 : nv ≤ nv + z' := Nat.le_add_right ..
    have hz' : nv + z' = s'.nv + z := hz'
    exact absurd (hz' ▸ h1) (Nat.not_lt.2 (Nat.le_trans hnv h2))

end

section counterexamples
attribute [local instance] exactArith

/-- **C13 is false of the code** for queries `literal = variable`: `Literal.unify_annotated`
then sets no choicepoint, and resuming undoes *all* bindings of the intention.  With `Y`
bound to `b`, exhausting `a = X` unbinds `Y`. -/
theorem C13_literal_eq_variable_unbinds_all : ∃ (q : Query Empty) (s s' : QSt KB) (l : List (QSt KB)),
    Drain (fun s s' => s' = s) (.start q : Gen Empty Empty) s l s' ∧
      s.b.scope 1 = some (.atom "b") ∧ s'.b.scope 1 = none :=
  ⟨.unify (.atom "a") (.var 0), ⟨⟨Scope.empty.set 1 (.atom "b"), [.v 1], 0⟩, 2, {}⟩, _, _,
    .next (n := 9) rfl rfl (.stop (n := 9) rfl), rfl, rfl⟩

/-- **C13 is false of the code** for queries that do not set a choicepoint: `true` does not undo
a binding made (with trail) while it was suspended. -/
theorem C13_true_keeps_consumer_bindings : ∃ (s s' : QSt KB) (l : List (QSt KB)),
    Drain (fun s s' => s'.w = s.w ∧ Above s.b s'.b) (.start .tru : Gen Empty Empty) s l s' ∧
      s.b.scope 0 = none ∧ s'.b.scope 0 = some (.atom "a") := by
  refine ⟨⟨BSt.init, 1, {}⟩, ⟨⟨Scope.empty.set 0 (.atom "a"), [.v 0], 0⟩, 1, {}⟩, _,
    .next (n := 9) rfl (s₂ := ⟨⟨Scope.empty.set 0 (.atom "a"), [.v 0], 0⟩, 1, {}⟩) ⟨rfl, [.v 0], rfl, ?_, ?_, Nat.le_refl _⟩
      (.stop (n := 9) rfl), rfl, rfl⟩
  · funext x
    simp only [undo, Scope.erase, Scope.set, BSt.init, Scope.empty]
    split <;> rfl
  · simp

/-- `p(1)[a, b]` -/
def annotKB : KB where
  bels := fun g => if g = ("p", 0) then [.lit "p" [] [.atom "a", .atom "b"]] else []

theorem annotKB_ok : KBOK annotKB false := by
  constructor
  · intro grp b hb
    simp only [QWorld.beliefs, annotKB] at hb
    split at hb
    · rename_i h
      simp only [List.mem_singleton] at hb
      subst hb h
      refine ⟨rfl, ?_, ?_, rfl⟩ <;>
        simp [Term.Parts, Term.Closed, Term.Tame, Term.NoCmp, Term.Every, Term.EveryL]
    · simp at hb
  · intro grp r hr
    simp [QWorld.rules, annotKB] at hr

/-- **C15 is false of the code** for variables in annotations: with the belief `p[a, b]`
the query `p[X]` is answered by `X = a` only. -/
theorem C15_annotations_incomplete : ∃ (w : KB) (q : Query Empty) (s s' : QSt KB) (l : List (QSt KB)) (σ : Asg),
    s.w = w ∧ KBOK w false ∧ q.OK w false ∧ ScopeOK false s.b.scope ∧ ScopeBelow s.nv s.b.scope ∧ q.bound ≤ s.nv ∧
    Drain (fun s s' => s' = s) (.start q : Gen Empty Empty) s l s' ∧
    Models σ s.b.scope ∧ Holds w σ q ∧ ∀ s₁ ∈ l, ∀ σ', EqBelow s.nv σ σ' → ¬ Models σ' s₁.b.scope := by
  refine ⟨annotKB, .term (.lit "p" [] [.var 0]), ⟨BSt.init, 1, annotKB⟩, _, _, fun _ => .app "b" .nil,
    rfl, annotKB_ok, ?_, nofun, nofun, Nat.le_refl _,
    .next (n := 12) rfl rfl (.stop (n := 12) rfl), nofun, ?_, ?_⟩
  · simp [Query.OK, Term.isLiteral, Term.LitOK, QWorld.rules, annotKB, Term.Tame, Term.NoCmp, Term.Every, Term.annots]
  · refine .belief (grp := ("p", 0)) (b := .lit "p" [] [.atom "a", .atom "b"]) (by simp [QWorld.beliefs, annotKB])
      ⟨.app "p" .nil, ⟨.nil, rfl, rfl⟩, ⟨.nil, rfl, rfl⟩⟩ ⟨[.atom "b"], ⟨[.atom "a"], List.Perm.swap _ _ _⟩, rfl, ?_⟩
    intro p hp
    simp [Term.annots] at hp
    subst hp
    exact ⟨.app "b" .nil, rfl, ⟨.nil, rfl, rfl⟩⟩
  · intro s₁ hs σ' he hm
    simp only [List.mem_singleton] at hs
    subst hs
    obtain ⟨v, _, hv⟩ := hm 0 (.atom "a") rfl
    have := he 0 (Nat.lt_succ_self 0)
    rw [hv] at this
    simp at this

end counterexamples

section examples
attribute [local instance] exactArith

/-- `p(1). p(2). q(X) :- p(X) & X > 1. r(X) :- q(X). r(X) :- X = a.` -/
def demoKB : KB where
  bels := fun g => if g = ("p", 1) then [.lit "p" [.num 1] [], .lit "p" [.num 2] []] else []
  rules := fun g =>
    if g = ("q", 1) then
      [⟨.lit "q" [.var 0] [], .and (.term (.lit "p" [.var 0] [])) (.term (.bin .gt (.var 0) (.num 1)))⟩]
    else if g = ("r", 1) then
      [⟨.lit "r" [.var 0] [], .term (.lit "q" [.var 0] [])⟩, ⟨.lit "r" [.var 0] [], .unify (.var 0) (.atom "a")⟩]
    else []

theorem demoKB_ok : KBOK demoKB true := by
  constructor
  · intro grp b hb
    simp only [QWorld.beliefs, demoKB] at hb
    split at hb
    · rename_i h
      simp only [List.mem_cons, List.not_mem_nil, or_false] at hb
      subst h
      rcases hb with rfl | rfl <;> (refine ⟨rfl, ?_, ?_, rfl⟩ <;>
        simp [Term.Parts, Term.Closed, Term.Tame, Term.NoAnnots, Term.Every])
    · simp at hb
  · intro grp r hr
    simp only [QWorld.rules, demoKB] at hr
    split at hr
    · rename_i h
      simp only [List.mem_singleton] at hr
      subst hr h
      simp [Term.group, Term.Parts, Term.NoWild, Term.Tame, Term.NoAnnots, Term.Every, Query.OK, Term.LitOK,
        Term.isLiteral]
    · split at hr
      · rename_i h
        simp only [List.mem_cons, List.not_mem_nil, or_false] at hr
        subst h
        rcases hr with rfl | rfl <;>
          simp [Term.group, Term.Parts, Term.NoWild, Term.Tame, Term.NoAnnots, Term.Every, Term.EveryL, Query.OK, Term.LitOK,
            Term.isLiteral, Term.annots]
      · simp at hr

theorem demoKB_plain : Plain demoKB := by
  constructor
  · intro grp r hr
    simp only [QWorld.rules, demoKB] at hr
    split at hr
    · simp only [List.mem_singleton] at hr
      subst hr
      simp [Query.Clean]
    · split at hr
      · simp only [List.mem_cons, List.not_mem_nil, or_false] at hr
        rcases hr with rfl | rfl <;> simp [Query.Clean, Term.isLiteral]
      · simp at hr
  · intro grp b hb
    obtain ⟨_, h, _⟩ := demoKB_ok.belief grp b hb
    cases b <;> simp [Term.Parts] at h <;> rfl

theorem demoKB_ground : RulesAre (fun r : Rule Empty => r.query.GroundAnnots) demoKB := by
  intro grp r hr
  simp only [QWorld.rules, demoKB] at hr
  split at hr
  · simp only [List.mem_singleton] at hr
    subst hr
    simp [Query.GroundAnnots, Term.annots]
  · split at hr
    · simp only [List.mem_cons, List.not_mem_nil, or_false] at hr
      rcases hr with rfl | rfl <;> simp [Query.GroundAnnots, Term.annots]
    · simp at hr

/-- The query `r(X)`. -/
abbrev demoQ : Query Empty := .term (.lit "r" [.var 0] [])

/-- Nothing is bound, `X` is in use. -/
abbrev demoS : QSt KB := ⟨BSt.init, 1, demoKB⟩

/-- All answers of `r(X)`: `X = 2` and `X = a`. -/
theorem demo_drain : ∃ s₁ s₂ s' : QSt KB, Drain (fun s s' => s' = s) (.start demoQ : Gen Empty Empty) demoS [s₁, s₂] s' ∧
    s₁.b.scope 0 = some (.var 1) ∧ s₁.b.scope 1 = some (.var 2) ∧ s₁.b.scope 2 = some (.num 2) ∧ s₂.b.scope 2 = none :=
  ⟨_, _, _, .next (n := 30) rfl rfl (.next (n := 30) rfl rfl (.stop (n := 30) rfl)), rfl, rfl, rfl, rfl⟩

theorem demoQ_ok : demoQ.OK demoKB true := by
  simp [Query.OK, Term.isLiteral, Term.LitOK, Term.Tame, Term.NoAnnots, Term.Every, Term.NoWild, Term.Parts]

theorem demoQ_ground : demoQ.GroundAnnots := by simp [Query.GroundAnnots, Term.annots]

theorem demo_consumer : ∃ (l : List (QSt KB)) (s' : QSt KB),
    Drain (Consumer true true) (.start demoQ : Gen Empty Empty) demoS l s' ∧ l.length = 2 := by
  obtain ⟨s₁, s₂, s', h, _⟩ := demo_drain
  exact ⟨_, s', drain_consumer demoKB_ok demoQ_ok demoQ_ground demoKB_ground nofun nofun (Nat.le_refl _) h, rfl⟩

/-- C13: hypotheses are satisfiable; `r(X)` sets choicepoints. -/
example : ∃ (l : List (QSt KB)) (s' : QSt KB), Drain (fun s s' => Plain s'.w ∧ Same s.b s'.b) (.start demoQ) demoS l s' ∧
    l.length = 2 ∧ demoQ.settles (fun _ _ _ => false) false = true ∧ s'.b.scope = demoS.b.scope := by
  obtain ⟨l, s', this, hl⟩ : ∃ (l : List (QSt KB)) (s' : QSt KB),
      Drain (fun s s' => Plain s'.w ∧ Same s.b s'.b) (.start demoQ) demoS l s' ∧ l.length = 2 :=
    ⟨_, _, .next (n := 30) rfl ⟨demoKB_plain, rfl, Nat.le_refl _⟩ (.next (n := 30) rfl ⟨demoKB_plain, rfl, Nat.le_refl _⟩
      (.stop (n := 30) rfl)), rfl⟩
  exact ⟨l, s', this, hl, rfl, (C13_backtracking_restores (q := demoQ) (by simp [Query.Clean]) demoKB_plain this).1⟩

/-- C14: every answer of `r(X)` is a consequence. -/
example : ∃ s' : QSt KB, s'.b.scope 2 = some (.num 2) ∧ ∀ σ : Asg, Models σ s'.b.scope → Holds demoKB σ demoQ := by
  obtain ⟨s₁, s₂, s', h, _, _, h2, _⟩ := demo_drain
  refine ⟨s₁, h2, C14_query_sound (s := demoS) (cmp := true) demoKB_ok demoQ_ok nofun nofun (Nat.le_refl _) ?_⟩
  cases h with
  | next h _ _ => exact .now h

/-- C15: the answers of `r(X)` cover every way to make it true. -/
example : ∃ l : List (QSt KB), l.length = 2 ∧ ∀ σ : Asg, Holds demoKB σ demoQ →
    ∃ s₁ ∈ l, ∃ σ', EqBelow 1 σ σ' ∧ Models σ' s₁.b.scope := by
  obtain ⟨l, s', h, hl⟩ := demo_consumer
  exact ⟨l, hl, fun σ hσ => C15_query_complete_partial (s := demoS) demoKB_ok demoQ_ok demoQ_ground demoKB_ground nofun nofun
    (Nat.le_refl _) h σ nofun hσ⟩

/-- C16: `not r(X)` fails, `not q(1)` yields once. -/
example : (∃ s', gnext 31 (.start (.not demoQ) : Gen Empty Empty) demoS = .ok none s') ∧
    ∃ g s', gnext 31 (.start (.not (.term (.lit "q" [.num 1] []))) : Gen Empty Empty) demoS = .ok (some g) s' :=
  ⟨⟨_, rfl⟩, ⟨_, _, rfl⟩⟩

/-- C17: the pattern `p(X)` has two answers, `p(2)` one. -/
example : (∃ l s', Drain (fun s s' => s'.w = s.w ∧ Same s.b s'.b) (.start (.term (.lit "p" [.var 0] [])) : Gen Empty Empty) demoS l s' ∧
      l.length = 2) ∧
    ∃ l s', Drain (fun s s' => s'.w = s.w ∧ Same s.b s'.b) (.start (.term (.lit "p" [.num 2] [])) : Gen Empty Empty) demoS l s' ∧
      l.length = 1 :=
  ⟨⟨_, _, .next (n := 30) rfl ⟨rfl, rfl, Nat.le_refl _⟩ (.next (n := 30) rfl ⟨rfl, rfl, Nat.le_refl _⟩ (.stop (n := 30) rfl)), rfl⟩,
    ⟨_, _, .next (n := 30) rfl ⟨rfl, rfl, Nat.le_refl _⟩ (.stop (n := 30) rfl), rfl⟩⟩

/-- C50: two copies of rules are in use at the first answer of `r(X)`. -/
example : ∃ g s', gnext 30 (.start demoQ : Gen Empty Empty) demoS = .ok (some g) s' ∧ s'.nv = 3 :=
  ⟨_, _, rfl, rfl⟩

end examples

end Verif
