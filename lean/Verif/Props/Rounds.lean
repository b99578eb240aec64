import Verif.Props.Loops
import Verif.Props.Query
import Verif.Lemmas.Rounds
import Verif.Lemmas.ReplNames
import Verif.Lemmas.Collect

/-! # C51, C78: loops over any query -/

namespace Verif

section
variable [Host]

variable {D : String × Nat → Prop}

omit [Host] in
theorem drain_mem_answer {W A G : Type} [Arith] [QWorld W A G] {R : QSt W → QSt W → Prop} {g : Gen A G} {s s' : QSt W} {l : List (QSt W)}
    (h : Drain R g s l s') : ∀ s₁ ∈ l, Answer R g s s₁ := by
  induction h with
  | stop _ => exact nofun
  | next hn hr _ ih =>
    intro s₁ hs
    rcases List.mem_cons.1 hs with rfl | hs
    · exact .now hn
    · exact .later hn hr (ih s₁ hs)

theorem rounds_logic {cmp : Bool} {q : Query Act} {s s' : QSt World} {l : List (QSt World)} (hw : KBOK s.w cmp) (hq : q.OK s.w cmp)
    (hd : q.AsksOnly D) (hz : q.tidy = true) (hg : q.GroundAnnots) (hr : RulesAre (fun r : Rule Act => r.query.GroundAnnots) s.w)
    (hrd : RulesAsk (A := Act) (G := ActGen) D s.w)
    (hsc : ScopeOK cmp s.b.scope) (hb : ScopeBelow s.nv s.b.scope) (hqb : q.bound ≤ s.nv)
    (h : Drain (Rounder (A := Act) (G := ActGen) D s.w) (.start q : Gen Act ActGen) s l s') :
    (∀ s₁ ∈ l, ∀ σ : Asg, Models σ s₁.b.scope → Holds s.w σ q) ∧
    ∀ σ : Asg, Models σ s.b.scope → Holds s.w σ q → ∃ s₁ ∈ l, ∃ σ', EqBelow s.nv σ σ' ∧ Models σ' s₁.b.scope := by
  obtain ⟨s'', h'⟩ := drain_rounds (fun h hm => gnext_mono h hm) hd hz hw.plain hrd h
  have hu := drain_back (cm := true) hw (fun _ => hr) h' (φ := fun σ => Holds s.w σ q) (fun σ => Holds s.w σ q) rfl ⟨hsc, hb⟩ (Nat.le_refl _)
    ⟨hq, fun _ => hg, hqb, rel_refl _ _, fun σ _ hh => hh, fun _ _ _ hh => hh⟩
  refine ⟨fun s₁ hs σ hσ => ?_, fun σ hσ hh => ?_⟩
  · exact answer_logic (cm := true) hw (fun _ => hr) (drain_mem_answer hu _ (List.mem_map_of_mem hs)) (φ := fun σ => Holds s.w σ q) (fun σ => Holds s.w σ q) rfl ⟨hsc, hb⟩
      (Nat.le_refl _) ⟨hq, fun _ => hg, hqb, rel_refl _ _, fun σ _ hh => hh, fun _ _ _ hh => hh⟩ σ hσ
  · obtain ⟨s₁, h1, h2⟩ := drain_logic hw hr hu (φ := fun σ => Holds s.w σ q) (fun σ => Holds s.w σ q) rfl ⟨hsc, hb⟩ (Nat.le_refl _)
      ⟨hq, fun _ => hg, hqb, rel_refl _ _, fun σ _ hh => hh, fun _ _ _ hh => hh⟩ σ hσ hh
    obtain ⟨s₂, h3, rfl⟩ := List.mem_map.1 h1
    exact ⟨s₂, h3, h2⟩

/-- **C51**, for any query (without negation and actions).  `D` are the predicates that the query depends on, directly or by rules.  Between two answers the body may
do anything but change the beliefs and rules of `D`; it may bind variables.  Then the rounds are the answers that the query had when
the loop was entered: each of them makes the query true, and whatever makes the query true is consistent with one of them.

`tidy`: where the query can be asked for the next answer without first undoing bindings (`true | p(X)`), bindings of the
body leak into the next round, see `C51_bindings_leak`.

`_partial`: also the side conditions of C14 and C15; ground annotations. -/
theorem C51_for_queries_partial {cmp : Bool} {q : Query Act} {s s' : QSt World} {l : List (QSt World)} (hw : KBOK s.w cmp) (hq : q.OK s.w cmp)
    (hd : q.AsksOnly D) (hz : q.tidy = true) (hg : q.GroundAnnots) (hr : RulesAre (fun r : Rule Act => r.query.GroundAnnots) s.w)
    (hrd : RulesAsk (A := Act) (G := ActGen) D s.w)
    (hsc : ScopeOK cmp s.b.scope) (hb : ScopeBelow s.nv s.b.scope) (hqb : q.bound ≤ s.nv)
    (h : Drain (fun s s' => SameKB (A := Act) (G := ActGen) D s.w s'.w ∧ s.nv ≤ s'.nv ∧ Above s.b s'.b) (.start q : Gen Act ActGen) s l s') :
    (∀ s₁ ∈ l, ∀ σ : Asg, Models σ s₁.b.scope → Holds s.w σ q) ∧
    ∀ σ : Asg, Models σ s.b.scope → Holds s.w σ q → ∃ s₁ ∈ l, ∃ σ', EqBelow s.nv σ σ' ∧ Models σ' s₁.b.scope :=
  rounds_logic hw hq hd hz hg hr hrd hsc hb hqb (h.mono fun _ _ h =>
    ⟨fun hk g hg => ⟨(h.1 g hg).1.trans (hk g hg).1, (h.1 g hg).2.trans (hk g hg).2⟩, h.2.1, h.2.2⟩)

variable {a i : Nat} {K : QSt World → Prop}

theorem Calm.nv {s s' : QSt World} {tr : Trace} (hr : Reachable s) (h : Calm a i K s tr s') : s.nv ≤ s'.nv := by
  have key : ∀ {n a : Nat} {s s' : QSt World}, Reachable s → (step n a s).leaves s' → s.nv ≤ s'.nv := fun {n a s s'} hr hs =>
    (step_counts (k := 0) (n := n) (a := a) ⟨hr.stacksOK.below, Nat.le_refl s.nv, Nat.zero_le _⟩ s' hs).nv
  induction h with
  | refl => exact Nat.le_refl _
  | runs h hx _ ih =>
    obtain ⟨n, _, _, _, _, _, _, _, hs⟩ := hx
    exact Nat.le_trans ih (key (h.reachable hr) hs)
  | rests h hx _ ih =>
    obtain ⟨⟨n, hs⟩, _⟩ := hx
    exact Nat.le_trans ih (key (h.reachable hr) hs)
  | sleeps h hx _ ih =>
    rw [sleep_eq hx]
    exact ih

/-- **C78**, `for` with any query (without negation and actions), where nobody changes the beliefs and rules of the predicates `D` that the query depends on while the
loop is executed: each round makes the query true, and whatever makes the query true when the loop is entered is consistent with one of the rounds.

`_partial`: as in C51_for_queries_partial; the queries of the body and the rules must not contain `.unbind_all` or `literal = variable`. -/
theorem C78_for_queries_partial {s s' : QSt World} {tr : Trace} {q : Query Act} {body : List Stmt}
    {bels : String × Nat → List Term} {rls : String × Nat → List (Rule Act)} (hr : Reachable s) (ho : RulesKeep s.w) (hi : i < s.w.nint)
    (hk : Stmt.KeepingL body) (hK : ∀ u, K u → ∀ g, D g → u.w.beliefs a g = bels g ∧ (u.w.ags a).rules g = rls g) (hs : K s)
    (hd : q.AsksOnly D) (hz : q.tidy = true) (hg : q.GroundAnnots) (hrd : ∀ g, D g → ∀ r ∈ rls g, r.query.AsksOnly D ∧ r.query.tidy = true)
    (h : Calm a i K s tr s') (hx : (Stmt.forall_ q body).sem tr .done) :
    ∃ u t l t' u', Calm a i K s [(.pushQuery q, true)] u ∧ Sees a i t u ∧ t.w.cur = a ∧
      Drain (Round a i K body) (.start q) t l t' ∧ Sees a i t' u' ∧ Calm a i K u' [(.popQuery, true)] s' ∧
      ∀ cmp, KBOK t.w cmp → q.OK t.w cmp → RulesAre (fun r : Rule Act => r.query.GroundAnnots) t.w →
        ScopeOK cmp (u.w.ints i).b.scope → ScopeBelow u.nv (u.w.ints i).b.scope → q.bound ≤ u.nv →
        (∀ t₁ ∈ l, ∀ σ : Asg, Models σ t₁.b.scope → Holds t.w σ q) ∧
        ∀ σ : Asg, Models σ (u.w.ints i).b.scope → Holds t.w σ q → ∃ t₁ ∈ l, ∃ σ', EqBelow u.nv σ σ' ∧ Models σ' t₁.b.scope := by
  obtain ⟨u, t, l, t', u', h1, h2, h3, h4, h5, h6⟩ := C78_for hr hi (h.strong hr (hr.orderly ho) hi) hx
  have hu := h1.keeps ⟨hs, hr, hr.orderly ho, hi⟩
  have see : ∀ {t u : QSt World}, Sees a i t u → K u → t.w.cur = a →
      ∀ g, D g → QWorld.beliefs (A := Act) (G := ActGen) t.w g = bels g ∧ (QWorld.rules t.w g : List (Rule Act)) = rls g := by
    intro t u hs hk hc g hg
    refine ⟨?_, ?_⟩
    · show t.w.beliefs t.w.cur _ = _
      rw [hc, hs.beliefs]
      exact (hK u hk g hg).1
    · show (t.w.ags t.w.cur).rules _ = _
      rw [hc, hs.rules]
      exact (hK u hk g hg).2
  have ht := see h2 hu.1 h3
  refine ⟨u, t, l, t', u', h1.mono fun _ h => h.1, h2, h3, h4.mono fun t₁ t₂ ⟨v, tr', v', b1, b2, b3, b4, b5, b6⟩ =>
    ⟨v, tr', v', b1, b2.1, b3.mono fun _ h => h.1, b4, b5, b6⟩, h5, h6.mono fun _ h => h.1, fun cmp c1 c2 c3 g1 g2 g3 => ?_⟩
  rw [← h2.b] at g1 g2 ⊢
  rw [← h2.nv] at g2 g3 ⊢
  refine rounds_logic c1 c2 hd hz hg c3 (fun g hg r hx => hrd g hg r (by rw [← (ht g hg).2]; exact hx)) g1 g2 g3 (h4.mono fun t₁ t₂ hb => ?_)
  obtain ⟨v, tr', v', b1, b2, b3, b4, b5, b6⟩ := hb
  have hv := b3.keeps b2
  refine ⟨fun _ g hg => ?_, ?_, ?_⟩
  · have hv' := see b5 hv.1 b6 g hg
    exact ⟨hv'.1.trans (ht g hg).1.symm, hv'.2.trans (ht g hg).2.symm⟩
  · rw [b1.nv, b5.nv]
    exact b3.nv b2.2.1
  · rw [b1.b, b5.b]
    exact (semL_holds body hk _ _ _ _ _ _ _ b4 (b3.acts b2.2.1 b2.2.2.1 b2.2.2.2) ⟨rfl, .refl _⟩).1

end

/-! ### Examples -/

section examples
attribute [local instance] exactHost

/-- `p(1). p(2). q(X) :- p(X) & X > 0.` -/
private def loopW : World :=
  { World.init (fun _ => 0) with
    ags := fun _ => { name := "ag", beliefs := fun g => if g = ("p", 1) then some 0 else none
                      rules := fun g => if g = ("q", 1) then
                        [⟨.lit "q" [.var 0] [], .and (.term (.lit "p" [.var 0] [])) (.term (.bin .gt (.var 0) (.num 0)))⟩] else [] }
    nag := 1
    sets := fun _ => [.lit "p" [.num 1] [], .lit "p" [.num 2] []]
    nset := 1 }

private def loopD (g : String × Nat) : Prop := g = ("p", 1) ∨ g = ("q", 1)

/-- `q(X)`, with the variables `X` (0) and `Y` (1). -/
private def loopQ : Query Act := .term (.lit "q" [.var 0] [])
private def loopS : QSt World := ⟨BSt.init, 2, loopW⟩

private theorem loopW_beliefs {grp : String × Nat} {b : Term} (h : b ∈ QWorld.beliefs (A := Act) (G := ActGen) loopW grp) :
    grp = ("p", 1) ∧ (b = .lit "p" [.num 1] [] ∨ b = .lit "p" [.num 2] []) := by
  simp only [QWorld.beliefs, World.beliefs, loopW] at h
  by_cases hg : grp = ("p", 1)
  · rw [if_pos hg] at h
    exact ⟨hg, by simpa using h⟩
  · rw [if_neg hg] at h
    cases h

private theorem loopW_rules {grp : String × Nat} {r : Rule Act} (h : r ∈ (QWorld.rules loopW grp : List (Rule Act))) :
    grp = ("q", 1) ∧ r = ⟨.lit "q" [.var 0] [], .and (.term (.lit "p" [.var 0] [])) (.term (.bin .gt (.var 0) (.num 0)))⟩ := by
  simp only [QWorld.rules, loopW] at h
  split at h
  · next hg => exact ⟨hg, by simpa using h⟩
  · cases h

private theorem loopW_ok : KBOK loopW true := by
  constructor
  · intro grp b hb
    obtain ⟨rfl, h⟩ := loopW_beliefs hb
    clear hb
    rcases h with rfl | rfl <;> (refine ⟨rfl, ?_, ?_, rfl⟩ <;>
      simp [Term.Parts, Term.Closed, Term.Tame, Term.NoAnnots, Term.Every])
  · intro grp r hr
    obtain ⟨rfl, rfl⟩ := loopW_rules hr
    simp [Term.group, Term.Parts, Term.NoWild, Term.Tame, Term.NoAnnots, Term.Every, Query.OK, Term.LitOK, Term.isLiteral]

/-- C51: `for (q(X)) { Y = 7 }`; two rounds, for every way to make `q(X)` true. -/
example : ∃ (l : List (QSt World)) (s' : QSt World), l.length = 2 ∧
    Drain (fun s s' => SameKB (A := Act) (G := ActGen) loopD s.w s'.w ∧ s.nv ≤ s'.nv ∧ Above s.b s'.b ∧ s'.b.scope 1 = some (.num 7))
      (.start loopQ : Gen Act ActGen) loopS l s' ∧
    ∀ σ : Asg, Holds loopW σ loopQ → ∃ s₁ ∈ l, ∃ σ', EqBelow 2 σ σ' ∧ Models σ' s₁.b.scope := by
  have h : ∃ g₁ s₁ b₁ g₂ s₂ b₂ s', gnext 30 (.start loopQ : Gen Act ActGen) loopS = .ok (some g₁) s₁ ∧ unify 5 (.var 1) (.num 7) s₁.b = .ok true b₁ ∧
      b₁.scope 1 = some (.num 7) ∧ gnext 30 g₁ { s₁ with b := b₁ } = .ok (some g₂) s₂ ∧ unify 5 (.var 1) (.num 7) s₂.b = .ok true b₂ ∧
      b₂.scope 1 = some (.num 7) ∧ gnext 30 g₂ { s₂ with b := b₂ } = .ok none s' :=
    ⟨_, _, _, _, _, _, _, rfl, rfl, rfl, rfl, rfl, rfl, rfl⟩
  obtain ⟨g₁, s₁, b₁, g₂, s₂, b₂, s', h1, h2, h3, h4, h5, h6, h7⟩ := h
  have hd : Drain (fun s s' => SameKB (A := Act) (G := ActGen) loopD s.w s'.w ∧ s.nv ≤ s'.nv ∧ Above s.b s'.b ∧ s'.b.scope 1 = some (.num 7))
      (.start loopQ : Gen Act ActGen) loopS [s₁, s₂] s' :=
    .next (s₂ := { s₁ with b := b₁ }) h1 ⟨SameKB.refl _, Nat.le_refl _, (unify_grow _ _ _ _ _ (.inl ⟨_, h2⟩)).above, h3⟩
      (.next (s₂ := { s₂ with b := b₂ }) h4 ⟨SameKB.refl _, Nat.le_refl _, (unify_grow _ _ _ _ _ (.inl ⟨_, h5⟩)).above, h6⟩ (.stop h7))
  refine ⟨_, s', rfl, hd, fun σ hσ => ?_⟩
  refine (C51_for_queries_partial (D := loopD) (q := loopQ) (s := loopS) loopW_ok ?_ (show loopD _ from .inr rfl) rfl ?_ ?_ ?_ nofun nofun (by decide)
    (hd.mono fun _ _ h => ⟨h.1, h.2.1, h.2.2.1⟩)).2 σ nofun hσ
  · simp [loopQ, Query.OK, Term.isLiteral, Term.LitOK, Term.Tame, Term.NoAnnots, Term.Every, Term.NoWild, Term.Parts]
  · simp [loopQ, Query.GroundAnnots, Term.annots]
  · intro grp r hr
    obtain ⟨rfl, rfl⟩ := loopW_rules hr
    simp [Query.GroundAnnots, Term.annots]
  · intro grp _ r hr
    obtain ⟨rfl, rfl⟩ := loopW_rules hr
    exact ⟨⟨show loopD _ from .inl rfl, rfl⟩, rfl⟩

/-- `p(a). p(b). p(c). q(b). q(c). !main. +!main <- for (p(X) & q(X)) { +s(X) }; +done.` -/
def pairs : AgentSrc where
  beliefs := [.lit "p" [.atom "a"] [], .lit "p" [.atom "b"] [], .lit "p" [.atom "c"] [], .lit "q" [.atom "b"] [], .lit "q" [.atom "c"] []]
  plans := [simplePlan "main" [.forall_ (.and pX (.term (fX "q"))) [.add (fX "s")], .add (goalNamed "done")]]
  goals := [goalNamed "main"]

private def pqOnly (s : QSt World) : Bool :=
  match s.w.beliefs 0 ("p", 1), s.w.beliefs 0 ("q", 1), (s.w.ags 0).rules ("p", 1), (s.w.ags 0).rules ("q", 1) with
  | [.lit "p" [.atom "a"] [], .lit "p" [.atom "b"] [], .lit "p" [.atom "c"] []], [.lit "q" [.atom "b"] [], .lit "q" [.atom "c"] []], [], [] => true
  | _, _, _, _ => false

/-- C78_for_queries_partial: two rounds. -/
example : ∃ (s s' : QSt World) (tr : Trace) (q : Query Act) (x : Term), Reachable s ∧ RulesKeep s.w ∧ 11 < s.w.nint ∧ pqOnly s = true ∧
    Calm 0 11 (fun s => pqOnly s = true) s tr s' ∧ Stmt.KeepingL [.add x] ∧ q.AsksOnly loopD ∧ q.tidy = true ∧ q.GroundAnnots ∧
    (Stmt.forall_ q [.add x]).sem tr .done ∧
    s'.w.beliefs 0 ("s", 1) = [.lit "s" [.atom "b"] [], .lit "s" [.atom "c"] []] := by
  have h : ∃ s₀ s s' tr, started (fun _ => 0) pairs = some s₀ ∧ stepsOf 20 0 1 s₀ = some s ∧ 11 < s.w.nint ∧ pqOnly s = true ∧
      calmOf 20 0 11 pqOnly 7 s = some (tr, s') ∧
      (∃ y b, tr = [(.pushQuery (.and (.term (.lit "p" [y] [])) (.term (.lit "q" [y] []))), true), (.nextOrFail, true), (.addBelief b, true), (.nextOrFail, true),
        (.addBelief b, true), (.nextOrFail, false), (.popQuery, true)]) ∧
      s'.w.beliefs 0 ("s", 1) = [.lit "s" [.atom "b"] [], .lit "s" [.atom "c"] []] ∧ ∀ a grp, (s.w.ags a).rules grp = [] :=
    ⟨_, _, _, _, rfl, rfl, by decide, rfl, rfl, ⟨_, _, rfl⟩, rfl, fun a grp => match a with | 0 => rfl | _ + 1 => rfl⟩
  obtain ⟨s₀, s, s', tr, h0, h1, h2, h3, h4, ⟨y, b, h5⟩, h6, h7⟩ := h
  refine ⟨s, s', tr, _, b, (started_reachable h0).steps (stepsOf_steps h1), fun a grp r h => (by rw [h7] at h; cases h), h2, h3, calmOf_calm h4,
    ⟨trivial, trivial⟩, ?_, ?_, ?_, by
    rw [h5, Stmt.sem]
    have hb : Stmt.semL [.add b] [(.addBelief b, true)] .done := by
      rw [Stmt.semL, Stmt.semL, Stmt.sem]
      exact Lang.seq.both (tr := [_]) (tr' := []) .done ⟨rfl, rfl⟩
    exact Lang.seq.both (tr := [_]) .done (.again (tr := []) ⟨rfl, rfl⟩ hb (.again (tr := []) ⟨rfl, rfl⟩ hb (.leave (tr := []) ⟨rfl, rfl⟩ .done))), h6⟩
  · exact ⟨show loopD _ from .inl rfl, show loopD _ from .inr rfl⟩
  · rfl
  · simp [Query.GroundAnnots, Term.annots]

end examples

end Verif
