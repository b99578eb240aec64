import Verif.Lemmas.Plans
import Verif.Lemmas.PlanOrder
import Verif.Lemmas.Reach
import Verif.Props.Step
import Verif.Props.Query

/-!
# C23, C24: choosing plans

`call` is followed through its parts: the belief change (`callBeliefs`, C18-C22), the delivery
of the frozen event (`callFrozen`, see `Announced`), and the search for a plan.
-/

namespace Verif

section
variable [Host]

/-- **C23, C24.** An event is delivered as a fresh copy of the goal term; only waiting
intentions are woken. -/
theorem C23_event_is_copy {n a : Nat} {tr : Trigger} {gt : GoalType} {t e : Term} {s s' : QSt World}
    (h : callFrozen n a tr gt t s = .ok e s') :
    Announced n a tr gt t e s s' ∧ ∃ ρ : VarId → VarId, (∀ x y, ρ x = ρ y → x = y) ∧ Copy s.b.scope (fun x y => y = ρ x) t e := by
  have h' := callFrozen_ok h
  obtain ⟨m, hf, _⟩ := h'.frozen
  obtain ⟨ρ, h1, _, h2, _⟩ := C10_freeze_copy hf
  exact ⟨h', ρ, h1, h2⟩

/-- **C23.** If some plan is applicable, the call succeeds and exactly one intention is
started: the body of the first applicable plan, with the bindings of the first answer of
its context.  (Contexts and rules without actions; no empty stacks in the agent, see C34.) -/
theorem C23_first_applicable {n a calling : Nat} {tr : Trigger} {gt : GoalType} {t e : Term} {delayed : Bool} {s s₀ s₁ : QSt World}
    (hk : planEvent tr gt = true) (hb : callBeliefs n a tr gt t s = .ok true s₀) (hf : callFrozen n a tr gt t s₀ = .ok e s₁)
    (hw : PlainAgent s₁.w a) (hp : ∀ p ∈ s₁.w.plansFor a (planKey tr gt e), p.Clean)
    (hne : [] ∉ (s₁.w.ags a).intentions)
    (hx : ∀ p ∈ s₁.w.plansFor a (planKey tr gt e), ∀ x, ¬ RaisesIn n e (s₁.w.forNew a) p x)
    (hof : call n (gnext n) a tr gt t calling delayed s ≠ .oof)
    (ha : ∃ p ∈ s₁.w.plansFor a (planKey tr gt e), ¬ Inapplicable n e (s₁.w.forNew a) p) :
    ∃ pre p post b s', s₁.w.plansFor a (planKey tr gt e) = pre ++ p :: post ∧
      (∀ q ∈ pre, Inapplicable n e (s₁.w.forNew a) q) ∧ Applicable n e (s₁.w.forNew a) p b ∧
      call n (gnext n) a tr gt t calling delayed s = .ok true s' ∧ Begun a t e p b calling delayed s₁.w s'.w := by
  rw [call_plans hk hb hf] at hof ⊢
  rcases callPlans_cases (n := n) (calling := calling) (t := t) (delayed := delayed) hw hp (callFrozen_ok hf).literal with
    ⟨pre, p, post, b, h1, h2, h3, ⟨s', h4, h5, _⟩ | ⟨_, h4, _⟩⟩ | ⟨h1, _⟩ | ⟨pre, p, post, x, s', h1, _, h2, _⟩ | h
  · exact ⟨pre, p, post, b, s', h1, h2, h3, h4, h5⟩
  · exact absurd h4 hne
  · obtain ⟨p, hm, hp'⟩ := ha
    exact absurd (h1 p hm) hp'
  · exact absurd h2 (hx p (by simp [h1]) x)
  · exact absurd h hof

/-- **C23.** Conversely, if a call succeeds and some plan is applicable, the one that is
started is the first applicable one. -/
theorem C23_only_first_applicable {n a calling : Nat} {tr : Trigger} {gt : GoalType} {t e : Term} {delayed r : Bool} {s s₀ s₁ s' : QSt World}
    (hk : planEvent tr gt = true) (hb : callBeliefs n a tr gt t s = .ok true s₀) (hf : callFrozen n a tr gt t s₀ = .ok e s₁)
    (hw : PlainAgent s₁.w a) (hp : ∀ p ∈ s₁.w.plansFor a (planKey tr gt e), p.Clean)
    (h : call n (gnext n) a tr gt t calling delayed s = .ok r s') :
    (∃ pre p post b, s₁.w.plansFor a (planKey tr gt e) = pre ++ p :: post ∧
      (∀ q ∈ pre, Inapplicable n e (s₁.w.forNew a) q) ∧ Applicable n e (s₁.w.forNew a) p b ∧
      r = true ∧ Begun a t e p b calling delayed s₁.w s'.w) ∨
    (∀ q ∈ s₁.w.plansFor a (planKey tr gt e), Inapplicable n e (s₁.w.forNew a) q) := by
  rw [call_plans hk hb hf] at h
  rcases callPlans_cases (n := n) (calling := calling) (t := t) (delayed := delayed) hw hp (callFrozen_ok hf).literal with
    ⟨pre, p, post, b, h1, h2, h3, ⟨s₂, h4, h5, _⟩ | ⟨_, _, s₂, h4⟩⟩ | ⟨h1, _⟩ | ⟨_, _, _, _, s₂, _, _, _, h4⟩ | h4
  · rw [h4] at h
    cases h
    exact .inl ⟨pre, p, post, b, h1, h2, h3, rfl, h5⟩
  · rw [h4] at h; cases h
  · exact .inr h1
  · rw [h4] at h; cases h
  · rw [h4] at h; cases h

/-- **C23**, with arbitrary contexts (actions in contexts and rules may change the state
while plans are tried): the plans are tried in order, starting in a new intention; the
first one that is accepted is started, in the state reached then. -/
theorem C23_with_actions {n a calling : Nat} {tr : Trigger} {gt : GoalType} {t e : Term} {delayed r : Bool} {s s₀ s₁ s' : QSt World}
    (hk : planEvent tr gt = true) (hb : callBeliefs n a tr gt t s = .ok true s₀) (hf : callFrozen n a tr gt t s₀ = .ok e s₁)
    (h : call n (gnext n) a tr gt t calling delayed s = .ok r s') :
    (∃ pre p post s₂ s₃, s₁.w.plansFor a (planKey tr gt e) = pre ++ p :: post ∧
      RejectsAll n e pre ⟨BSt.init, s₁.nv, s₁.w.forNew a⟩ s₂ ∧ Accepts n e p s₂ s₃ ∧ r = true ∧
      s'.w.ints s₁.w.nint = { s₃.w.ints s₁.w.nint with headTerm := some e, instr := some p.body, callingTerm := some t, b := s₃.b } ∧
      (∀ j, j ≠ s₁.w.nint → s'.w.ints j = s₃.w.ints j) ∧
      Placed s₁.w.nint calling delayed (s₃.w.ags a).intentions (s'.w.ags a).intentions ∧
      (∀ a', a' ≠ a → s'.w.ags a' = s₃.w.ags a') ∧ s'.w.sets = s₃.w.sets) ∨
    (gt ≠ .achievement ∧ ∃ s₂, RejectsAll n e (s₁.w.plansFor a (planKey tr gt e)) ⟨BSt.init, s₁.nv, s₁.w.forNew a⟩ s₂) := by
  rw [call_plans hk hb hf] at h
  have hcall : callPlans n (gnext n) a tr gt t e calling delayed s₁ =
      (QSt.nest { s₁ with w := { s₁.w.setInt s₁.w.nint {} with nint := s₁.w.nint + 1 } } a s₁.w.nint BSt.init
        (findPlan n (gnext n) e (s₁.w.plansFor a (planKey tr gt e)))).bind fun ob s' =>
          match ob with
          | (some p, b) => startPlan a s₁.w.nint calling delayed t e p b s'
          | (none, _) => unhandled n a calling gt t s' := rfl
  rcases findPlan_spec (n := n) (e := e) (ps := s₁.w.plansFor a (planKey tr gt e)) (s := ⟨BSt.init, s₁.nv, s₁.w.forNew a⟩) with
    ⟨pre, p, post, s₂, s₃, h1, h2, h3, h4⟩ | ⟨s₂, h1, h2⟩ | ⟨pre, p, post, s₂, x, s₃, h1, h2, h3, h4⟩ | h4
  · left
    rw [hcall, nest_ok h4] at h
    obtain ⟨rfl, g1, g2, g3, g4, g5⟩ := startPlan_ok h
    exact ⟨pre, p, post, s₂, s₃, h1, h2, h3, rfl, g1, g2, g3, g4, g5⟩
  · right
    rw [hcall, nest_ok h2] at h
    refine ⟨?_, s₂, h1⟩
    rintro rfl
    cases h
  · rw [hcall, nest_err h4] at h
    cases h
  · rw [hcall, nest_oof h4] at h
    cases h

/-- **C23**, logical reading: under all assignments consistent with the bindings with which
a plan is started, the event is an instance of its head and its context is true. -/
theorem C23_applicable_sound {n : Nat} {c : Bool} {e : Term} {p : Plan} {s s' : QSt World} (h : Accepts n e p s s')
    (hw : KBOK s.w c) (hp : p.OK s.w c s.nv e) (hsc : ScopeOK c s.b.scope) (hb : ScopeBelow s.nv s.b.scope) :
    ∀ σ : Asg, Models σ s'.b.scope → Fits s.w σ e p := by
  cases h with
  | @mk d b g h1 h2 =>
    obtain ⟨g1, g2, _⟩ := (UaSC.lit (n := n) (cm := false) hsc hp.head hp.event hp.compat nofun).yes _ _ h1
    have g3 : ScopeBelow s.nv b.scope := ua_P (hered_bound s.nv) n p.head e s.b b hb hp.vars.1 hp.vars.2.1 (.inl ⟨_, h1⟩)
    intro σ hσ
    obtain ⟨_, _, _, _, h3, _, h4, _⟩ := (gnext_logic (cm := false) hw (by simp) n (.start p.context) { s with b := b } s.nv b
      (fun σ => Holds s.w σ p.context) (fun _ => True) rfl ⟨g1, g3⟩ (Nat.le_refl _)
      ⟨hp.context, by simp, hp.vars.2.2, rel_refl _ _, fun σ _ hh => hh, by simp⟩).onSome _ _ h2
    obtain ⟨_, h5⟩ := g2 σ (h4.above.models hσ)
    exact ⟨h5.1, h5.2, h3 σ hσ⟩

/-- **C23**, logical reading: a plan is passed over only if there is no such assignment
(ground annotations, no negation). -/
theorem C23_inapplicable_sound {n : Nat} {c : Bool} {e : Term} {p : Plan} {s s' : QSt World} (h : Rejects n e p s s')
    (hw : KBOK s.w c) (hp : p.OK s.w c s.nv e) (hsc : ScopeOK c s.b.scope) (hb : ScopeBelow s.nv s.b.scope)
    (hg : p.context.GroundAnnots) (hr : RulesAre (fun r : Rule Act => r.query.GroundAnnots) s.w)
    (hh : (∀ x ∈ p.head.annots, x.Closed) ∧ (p.head.annots.Pairwise fun x y => x.val ≠ y.val) ∧ ∀ y ∈ e.annots, y.Closed) :
    ∀ σ : Asg, Models σ s.b.scope → ¬ Fits s.w σ e p := by
  have ua := UaSC.lit (n := n) (cm := true) hsc hp.head hp.event hp.compat fun _ => hh
  intro σ hσ hf
  cases h with
  | head h1 => exact ua.no _ h1 rfl σ hσ ⟨hf.1, hf.2.1⟩
  | @context d b s₁ h1 h2 =>
    obtain ⟨g1, _, g2⟩ := ua.yes _ _ h1
    have g3 : ScopeBelow s.nv b.scope := ua_P (hered_bound s.nv) n p.head e s.b b hb hp.vars.1 hp.vars.2.1 (.inl ⟨_, h1⟩)
    obtain ⟨_, h, _⟩ := C15_query_complete_partial (s := { s with b := b }) hw hp.context hg hr g1 g3 hp.vars.2.2
      (.stop h2) σ (g2 rfl σ hσ ⟨hf.1, hf.2.1⟩) hf.2.2
    simp at h

/-- **C24.** If no plan is applicable (and trying them raises no exception), then: an
achievement event raises `AslError`; belief events are accepted; test goals are answered
by `test_belief`.  In all cases no intention is started. -/
theorem C24_no_applicable_plan {n a calling : Nat} {tr : Trigger} {gt : GoalType} {t e : Term} {delayed : Bool} {s s₀ s₁ : QSt World}
    (hk : planEvent tr gt = true) (hb : callBeliefs n a tr gt t s = .ok true s₀) (hf : callFrozen n a tr gt t s₀ = .ok e s₁)
    (hw : PlainAgent s₁.w a) (hp : ∀ p ∈ s₁.w.plansFor a (planKey tr gt e), p.Clean)
    (hx : ∀ p ∈ s₁.w.plansFor a (planKey tr gt e), ∀ x, ¬ RaisesIn n e (s₁.w.forNew a) p x)
    (hof : call n (gnext n) a tr gt t calling delayed s ≠ .oof)
    (ha : ∀ p ∈ s₁.w.plansFor a (planKey tr gt e), ∀ b, ¬ Applicable n e (s₁.w.forNew a) p b) :
    ∃ s', Quiet s₁.w s'.w ∧ s'.b = s₁.b ∧
      (gt = .achievement → call n (gnext n) a tr gt t calling delayed s = .err (.asl "no applicable plan") s') ∧
      (gt = .belief → call n (gnext n) a tr gt t calling delayed s = .ok true s') ∧
      (gt = .test → call n (gnext n) a tr gt t calling delayed s = testBelief n (gnext n) a calling t s') := by
  rw [call_plans hk hb hf] at hof ⊢
  rcases callPlans_cases (n := n) (calling := calling) (t := t) (delayed := delayed) hw hp (callFrozen_ok hf).literal with
    ⟨pre, p, post, b, h1, h2, h3, _⟩ | ⟨_, s', h1, h2, _, _, _, _, h3⟩ | ⟨pre, p, post, x, s', h1, _, h2, _⟩ | h
  · exact absurd h3 (ha p (by simp [h1]) b)
  · refine ⟨s', h1, h2, ?_, ?_, ?_⟩
    all_goals rintro rfl; rw [h3]; rfl
  · exact absurd h2 (hx p (by simp [h1]) x)
  · exact absurd h hof

/-- **C24.** A test goal for which no plan is applicable is answered by a query on the beliefs
and rules: it succeeds exactly if the query has an answer.  No intention is started, and
beliefs, plans and intentions are unchanged. -/
theorem C24_test_goal {n a calling : Nat} {tr : Trigger} {t e : Term} {delayed r : Bool} {s s₁ s' : QSt World}
    (hf : callFrozen n a tr .test t s = .ok e s₁)
    (hw : PlainAgent s₁.w a) (hp : ∀ p ∈ s₁.w.plansFor a (planKey tr .test e), p.Clean)
    (ha : ∀ p ∈ s₁.w.plansFor a (planKey tr .test e), ∀ b, ¬ Applicable n e (s₁.w.forNew a) p b)
    (h : call n (gnext n) a tr .test t calling delayed s = .ok r s') :
    ∃ f as xs s₂, evaluate n s.b.scope t = .ok (.lit f as xs) ∧ s₂.b = s.b ∧ s₂.w.cur = a ∧ s₂.w.curInt = calling ∧
      Quiet s₁.w s₂.w ∧ Quiet s₁.w s'.w ∧
      (r = true ↔ ∃ g s₃, gnext n (.start (.term (.lit f as xs))) s₂ = .ok (some g) s₃ ∧ s'.b = s₃.b) ∧
      (r = false ↔ ∃ s₃, gnext n (.start (.term (.lit f as xs))) s₂ = .ok none s₃ ∧ s'.b = s₃.b) := by
  have hk : planEvent tr .test = true := by cases tr <;> rfl
  rw [call_plans hk (by cases tr <;> rfl) hf] at h
  rcases callPlans_cases (n := n) (calling := calling) (t := t) (delayed := delayed) hw hp (callFrozen_ok hf).literal with
    ⟨pre, p, post, b, h1, h2, h3, _⟩ | ⟨_, s₂, h1, h2, _, _, _, _, h3⟩ | ⟨pre, p, post, x, s', h1, _, _, h2⟩ | h2
  · exact absurd h3 (ha p (by simp [h1]) b)
  · rw [h3] at h
    have hb : s₂.b = s.b := h2.trans (callFrozen_ok hf).bindings
    unfold unhandled testBelief at h
    simp only [Res.bind_eq_ok] at h
    obtain ⟨t', s₃, h4, h⟩ := h
    unfold Res.lift at h4
    split at h4 <;> cases h4
    next h4 =>
    rw [hb] at h4
    split at h
    · next f as xs =>
      refine ⟨f, as, xs, { s₂ with w := { s₂.w with cur := a, curInt := calling } }, h4, hb, rfl, rfl, ⟨h1.ags, h1.ints, h1.sets, h1.plans, h1.events⟩, ?_⟩
      have hpl : Plain (W := World) (A := Act) (G := ActGen) { s₂.w with cur := a, curInt := calling } :=
        ⟨fun g r hr => (hw g).1 r (by rw [← h1.ags]; exact hr), fun g b hb => (hw g).2 b (by
          simp only [QWorld.beliefs, World.beliefs, h1.ags, h1.sets] at hb ⊢; exact hb)⟩
      have out := gnext_trail (T := fixedWorld _ hpl) noActs_good n (.start (.term (.lit f as xs)))
        { s₂ with w := { s₂.w with cur := a, curInt := calling } } true true s₂.b rfl ⟨by trivial, fun _ => rfl, rel_refl _ _⟩
      unfold QSt.as at h
      dsimp only at h
      revert out h
      cases gnext n (.start (.term (.lit f as xs))) { s₂ with w := { s₂.w with cur := a, curInt := calling } } with
      | oof => intro h; simp [Res.onNext] at h
      | err x s₃ => intro h; simp [Res.onNext] at h
      | ok o s₃ =>
        cases o with
        | none =>
          intro h out
          have hw₃ := (out.onNone _ rfl).1
          simp only [Res.onNext, Res.ok.injEq] at h
          obtain ⟨rfl, rfl⟩ := h
          refine ⟨?_, by simp, by simp⟩
          change s₃.w = _ at hw₃
          rw [hw₃]
          exact ⟨h1.ags, h1.ints, h1.sets, h1.plans, h1.events⟩
        | some g =>
          intro h out
          have hw₃ := (out.onSome _ _ rfl).1
          simp only [Res.onNext, Res.ok.injEq] at h
          obtain ⟨rfl, rfl⟩ := h
          refine ⟨?_, ⟨fun _ => ⟨g, s₃, rfl, rfl⟩, fun _ => rfl⟩, by simp⟩
          change s₃.w = _ at hw₃
          rw [hw₃]
          exact ⟨h1.ags, h1.ints, h1.sets, h1.plans, h1.events⟩
    · cases h
  · rw [h2] at h; cases h
  · rw [h2] at h; cases h

/-- **C23.** The plans that are searched are the plans of the program for the event (same trigger,
goal type, name and number of arguments), in program order: every agent starts (before its
initial beliefs and goals are added) with these plans. -/
theorem C23_program_order {n : Nat} {src : AgentSrc} {base : String} {s : QSt World} (hl : ∀ p ∈ src.plans, ∃ f as xs, p.head = .lit f as xs) :
    ∃ s₁, buildAgent n src base s = ((callAll n s.w.nag .belief src.beliefs s₁).bind fun _ s₂ =>
        (callAll n s.w.nag .achievement src.goals s₂).bind fun _ s₃ => .ok s.w.nag { s₃ with w := register s.w.nag s₃.w }) ∧
      ∀ tr gt f k, Pairs (fun p q => ∃ m c₀, BuiltFrom s₁.w.code p q m c₀) (s₁.w.plansFor s.w.nag (tr, gt, f, k))
        (src.plans.filter (·.isFor tr gt f k)) := by
  refine ⟨_, rfl, fun tr gt f k => ?_⟩
  have h0 : ∀ (rs : List (Rule Act)) (w : World), (w.ags s.w.nag).plans = [] → ((rs.foldl (addRule s.w.nag) w).ags s.w.nag).plans = [] := by
    intro rs
    induction rs with
    | nil => exact fun _ h => h
    | cons r rs ih =>
      intro w h
      refine ih _ ?_
      unfold addRule
      split <;> simp [World.setAg, h]
  have h1 := h0 src.rules (newAgent { name := makeName base (s.w.reg.map (·.1)) } s.w) (by simp [newAgent, World.setAg])
  obtain ⟨_, _, h2⟩ := buildPlans_order s.w.nag src.plans
    { s with w := src.rules.foldl (addRule s.w.nag) (newAgent { name := makeName base (s.w.reg.map (·.1)) } s.w) } hl
    (by intro k r hk; dsimp only at hk; rw [h1] at hk; cases hk)
  obtain ⟨qs, h3, h4⟩ := h2 tr gt f k
  rw [h3]
  have h5 : ({ s with w := src.rules.foldl (addRule s.w.nag) (newAgent { name := makeName base (s.w.reg.map (·.1)) } s.w) } : QSt World).w.plansFor
      s.w.nag (tr, gt, f, k) = [] := by
    unfold World.plansFor
    dsimp only
    rw [h1]
    rfl
  rw [h5]
  exact h4

/-- **C23.** A plan that is added later comes last; the plans for other events are not affected. -/
theorem C23_new_plan_last {a : Nat} {src : PlanSrc} {s : QSt World} (hr : Reachable s) (hl : ∃ f as xs, src.head = .lit f as xs)
    (tr : Trigger) (gt : GoalType) (f : String) (k : Nat) :
    if src.isFor tr gt f k then
      ∃ p, (buildPlan a src s).w.plansFor a (tr, gt, f, k) = s.w.plansFor a (tr, gt, f, k) ++ [p] ∧
        BuiltFrom (buildPlan a src s).w.code p src s.nv s.w.code
    else (buildPlan a src s).w.plansFor a (tr, gt, f, k) = s.w.plansFor a (tr, gt, f, k) := by
  have hs := hr.inv ownPlans_inv a
  have h1 := (addPlan_own (w := { s.w with code := compileBody (Stmt.renameL (s.nv + ·) src.body) s.w.code }) hs
    (planKey src.trigger src.goalType src.head) ⟨src.trigger, src.goalType, src.head.rename (s.nv + ·), src.context.rename (s.nv + ·),
      s.w.code.size, src.label, src.text⟩).2 (tr, gt, f, k)
  have hk := isFor_key hl (tr := tr) (gt := gt) (f := f) (n := k)
  split
  · next he =>
    rw [if_pos (hk.1 he)] at h1
    exact ⟨_, h1, rfl, by rw [buildPlan_code]; exact .refl _⟩
  · next he =>
    rw [if_neg (fun h => he (hk.2 h)), List.append_nil] at h1
    exact h1

end

section examples
attribute [local instance] exactHost

/-- `!go(2)` with the plans `+!go(1). +!go(X) : v(9). +!go(X) : v(Y). +!go(X).` and the
beliefs `v(2)`, `v(3)`. -/
def choosing : AgentSrc where
  plans := [
    { trigger := .addition, goalType := .achievement, head := .lit "go" [.num 1] [] },
    { trigger := .addition, goalType := .achievement, head := .lit "go" [.var 0] [], context := .term (.lit "v" [.num 9] []) },
    { trigger := .addition, goalType := .achievement, head := .lit "go" [.var 0] [], context := .term (.lit "v" [.var 1] []),
      body := [.add (.lit "done" [.var 1] [])] },
    { trigger := .addition, goalType := .achievement, head := .lit "go" [.var 0] [] }]
  beliefs := [.lit "v" [.num 2] [], .lit "v" [.num 3] []]

theorem plainAgent_of {s : QSt World} (h : Reachable s) {w : World} {a : Nat} (h1 : w.ags = s.w.ags) (h2 : w.sets = s.w.sets)
    (h3 : (s.w.ags a).rules = fun _ => []) : PlainAgent w a := by
  intro g
  constructor
  · intro r hr
    rw [h1, h3] at hr
    cases hr
  · intro b hb
    have : b ∈ s.w.beliefs a g := by simpa [World.beliefs, h1, h2] using hb
    obtain ⟨f, as, xs, rfl, _⟩ := (h.inv beliefsOK_inv).lits this
    rfl

/-- C23: four plans for `!go(X)` (and none for `!go`) in program order. -/
example : (∀ p ∈ choosing.plans, ∃ f as xs, p.head = .lit f as xs) ∧
    choosing.plans.filter (·.isFor .addition .achievement "go" 1) = choosing.plans ∧
    choosing.plans.filter (·.isFor .addition .achievement "go" 0) = [] := by
  refine ⟨?_, rfl, rfl⟩
  intro p hp
  simp only [choosing, List.mem_cons, List.not_mem_nil, or_false] at hp
  rcases hp with rfl | rfl | rfl | rfl <;> exact ⟨_, _, _, rfl⟩

/-- C23: the event `!go(2)` satisfies all hypotheses; the third plan is chosen. -/
example : ∃ s s₁ e p₁ p₂ p₃ p₄, Reachable s ∧ callFrozen 20 0 .addition .achievement (.lit "go" [.num 2] []) s = .ok e s₁ ∧
    s₁.w.plansFor 0 (planKey .addition .achievement e) = [p₁, p₂, p₃, p₄] ∧ PlainAgent s₁.w 0 ∧
    (∃ s', call 20 (gnext 20) 0 .addition .achievement (.lit "go" [.num 2] []) 100 false s = .ok true s' ∧
      (s'.w.ints s₁.w.nint).instr = some p₃.body) ∧ (s₁.w.ags 0).intentions = [] ∧ (∀ p ∈ [p₁, p₂, p₃, p₄], p.Clean) ∧
    Inapplicable 20 e (s₁.w.forNew 0) p₁ ∧ Inapplicable 20 e (s₁.w.forNew 0) p₂ ∧ (∃ b, Applicable 20 e (s₁.w.forNew 0) p₃ b) ∧
    (∀ x, ¬ RaisesIn 20 e (s₁.w.forNew 0) p₁ x) ∧
    (∀ x, ¬ RaisesIn 20 e (s₁.w.forNew 0) p₂ x) ∧
    (∀ x, ¬ RaisesIn 20 e (s₁.w.forNew 0) p₃ x) ∧
    (∀ x, ¬ RaisesIn 20 e (s₁.w.forNew 0) p₄ x) := by
  have hr : ∃ s, started (fun _ => 0) choosing = some s := ⟨_, rfl⟩
  obtain ⟨s, hs⟩ := hr
  have hr := started_reachable hs
  cases hs
  refine ⟨_, _, _, _, _, _, _, hr, rfl, rfl, plainAgent_of hr rfl rfl rfl, ?_, rfl, ?_, ?_, ?_, ?_, ?_, ?_, ?_, ?_⟩
  · exact ⟨_, rfl, rfl⟩
  · intro p hp
    simp only [List.mem_cons, List.not_mem_nil, or_false] at hp
    rcases hp with rfl | rfl | rfl | rfl <;> exact ⟨rfl, trivial⟩
  · exact ⟨⟨BSt.init, 0, _⟩, _, .refl _, rfl, .head rfl⟩
  · exact ⟨⟨BSt.init, 0, _⟩, _, .refl _, rfl, .context rfl rfl⟩
  · exact ⟨_, ⟨BSt.init, 0, _⟩, _, .refl _, rfl, .mk rfl rfl, rfl⟩
  · rintro x ⟨⟨⟨sc, st, k⟩, nv, w⟩, s', h1, h4, h5⟩
    obtain ⟨rfl, rfl⟩ : st = [] ∧ sc = Scope.empty := ⟨h1.stack, h1.scope⟩
    cases h4
    cases h5 with
    | head h => cases h
    | context h => cases h
  · rintro x ⟨⟨⟨sc, st, k⟩, nv, w⟩, s', h1, h4, h5⟩
    obtain ⟨rfl, rfl⟩ : st = [] ∧ sc = Scope.empty := ⟨h1.stack, h1.scope⟩
    cases h4
    cases h5 with
    | head h => cases h
    | context h h' => cases h; cases h'
  · rintro x ⟨⟨⟨sc, st, k⟩, nv, w⟩, s', h1, h4, h5⟩
    obtain ⟨rfl, rfl⟩ : st = [] ∧ sc = Scope.empty := ⟨h1.stack, h1.scope⟩
    cases h4
    cases h5 with
    | head h => cases h
    | context h h' => cases h; cases h'
  · rintro x ⟨⟨⟨sc, st, k⟩, nv, w⟩, s', h1, h4, h5⟩
    obtain ⟨rfl, rfl⟩ : st = [] ∧ sc = Scope.empty := ⟨h1.stack, h1.scope⟩
    cases h4
    cases h5 with
    | head h => cases h
    | context h h' => cases h; cases h'

/-- C24: an achievement goal, a belief addition and two test goals for which there are no
plans. -/
example : ∃ s s₁ s₂ s₃ s₄, Reachable s ∧
    call 20 (gnext 20) 0 .addition .achievement (.atom "nogo") 100 false s = .err (.asl "no applicable plan") s₁ ∧
    call 20 (gnext 20) 0 .addition .belief (.atom "b") 100 false s = .ok true s₂ ∧
    call 20 (gnext 20) 0 .addition .test (.lit "v" [.num 3] []) 100 false s = .ok true s₃ ∧
    call 20 (gnext 20) 0 .addition .test (.lit "v" [.num 7] []) 100 false s = .ok false s₄ ∧
    (s₁.w.ags 0).intentions = [] ∧ (s₂.w.ags 0).intentions = [] ∧ (s₃.w.ags 0).intentions = [] ∧ (s₄.w.ags 0).intentions = [] ∧
    PlainAgent s₁.w 0 := by
  have hr : ∃ s, started (fun _ => 0) choosing = some s := ⟨_, rfl⟩
  obtain ⟨s, hs⟩ := hr
  have hr := started_reachable hs
  cases hs
  exact ⟨_, _, _, _, _, hr, rfl, rfl, rfl, rfl, rfl, rfl, rfl, rfl, plainAgent_of hr rfl rfl rfl⟩

/-- `+!only : v(9).` -/
def hopeless : AgentSrc where
  plans := [{ trigger := .addition, goalType := .achievement, head := .atom "only", context := .term (.lit "v" [.num 9] []) }]
  beliefs := [.lit "v" [.num 2] []]

/-- C24: a plan with a context that does not hold. -/
example : ∃ s s₁ e p, Reachable s ∧ callFrozen 20 0 .addition .achievement (.atom "only") s = .ok e s₁ ∧
    s₁.w.plansFor 0 (planKey .addition .achievement e) = [p] ∧ PlainAgent s₁.w 0 ∧ p.Clean ∧
    call 20 (gnext 20) 0 .addition .achievement (.atom "only") 100 false s ≠ .oof ∧
    (∀ b, ¬ Applicable 20 e (s₁.w.forNew 0) p b) ∧ (∀ x, ¬ RaisesIn 20 e (s₁.w.forNew 0) p x) := by
  have hr : ∃ s, started (fun _ => 0) hopeless = some s := ⟨_, rfl⟩
  obtain ⟨s, hs⟩ := hr
  have hr := started_reachable hs
  cases hs
  refine ⟨_, _, _, _, hr, rfl, rfl, plainAgent_of hr rfl rfl rfl, ?_, ?_, ?_, ?_⟩
  · exact ⟨rfl, trivial⟩
  · intro h; cases h
  · rintro b ⟨⟨⟨sc, st, k⟩, nv, w⟩, s', h1, h4, h5, _⟩
    obtain ⟨rfl, rfl⟩ : st = [] ∧ sc = Scope.empty := ⟨h1.stack, h1.scope⟩
    cases h4
    cases h5 with
    | mk h h' => cases h; cases h'
  · rintro x ⟨⟨⟨sc, st, k⟩, nv, w⟩, s', h1, h4, h5⟩
    obtain ⟨rfl, rfl⟩ : st = [] ∧ sc = Scope.empty := ⟨h1.stack, h1.scope⟩
    cases h4
    cases h5 with
    | head h => cases h
    | context h h' => cases h; cases h'

end examples

end Verif
