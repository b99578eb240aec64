import Verif.Props.Rounds
import Verif.Props.Deep

/-! # C51, C78: loops over queries with negation -/

namespace Verif

section
variable {W A G : Type} [Arith] [QWorld W A G]

theorem Query.deepOK_clean {w : W} {c : Bool} {P : String × Nat → Prop} : ∀ {q : Query A}, q.DeepOK w c P → q.Clean fun _ _ => False
  | .tru, _ | .fls, _ | .term _, _ => trivial
  | .act _ _, h => h.elim
  | .not q, h => deepOK_clean (q := q) h.1
  | .and _ _, h | .or _ _, h => ⟨deepOK_clean h.1, deepOK_clean h.2⟩
  | .unify _ _, h => Query.ok_clean h

theorem DeepStrata.plain {w : W} {c : Bool} {P M : String × Nat → Prop} (h : DeepStrata w c P M) : Plain (A := A) (G := G) w :=
  ⟨fun grp r hr => Query.deepOK_clean (h.rule grp r hr).2.2.2, fun grp b hb => Term.parts_isLiteral (h.belief grp b hb).2.1⟩

theorem Deep.drain_back {R : Val → Prop} {w : W} {c : Bool} {P M : String × Nat → Prop} (hs : DeepStrata w c P M) (hR : Supported R w)
    {g : Gen A G} {s s' : QSt W} {l : List (QSt W)} {k : Nat} {b₀ : BSt} {E : VarId → Prop}
    (h : Drain (fun s s' => s'.w = s.w ∧ s.nv ≤ s'.nv ∧ Same s.b s'.b) g s l s') :
    ∀ φ ρ, s.w = w → Fine c s → k ≤ s.nv → Deep.LInv R w c P M s.nv g k b₀ s.b E φ ρ → Drain (Uses c true) g s l s' := by
  induction h with
  | stop hn => exact fun _ _ _ _ _ _ => .stop hn
  | next hn hr _ ih =>
    intro φ ρ h1 h2 h3 h4
    obtain ⟨i1, i2, i3, i4, _, _, _, ρ', i6, _⟩ := (Deep.gnext_deep hs hR _ _ _ _ _ _ _ _ h1 h2 h3 h4).onSome _ _ hn
    obtain ⟨j1, j2, j3⟩ := hr
    have hf := i3.same j3.scope j2
    exact .next hn ⟨j1, j2, rel_of_same j3, hf⟩ (ih φ ρ' (j1.trans i1) hf (Nat.le_trans h3 (Nat.le_trans i2 j2)) ((i6.closed i4 j3).mono j2))

end

section
variable [Host]

variable {D : String × Nat → Prop}

theorem rounds_deep {cmp : Bool} {R : Val → Prop} {P M : String × Nat → Prop} {B : VarId → Prop} {q : Query Act} {s s' : QSt World} {l : List (QSt World)}
    (hs : DeepStrata s.w cmp P M) (hR : Supported R s.w) (hq : q.DeepOK s.w cmp P) (hg : q.GroundAnnots) (hsafe : q.Safe M B)
    (hB : ∀ x, B x → GroundIn false s.b.scope (.var x)) (hd : q.AsksOnly D) (hz : q.tidy = true) (hrd : RulesAsk (A := Act) (G := ActGen) D s.w)
    (hsc : ScopeOK cmp s.b.scope) (hb : ScopeBelow s.nv s.b.scope) (hqb : q.bound ≤ s.nv)
    (h : Drain (Rounder (A := Act) (G := ActGen) D s.w) (.start q : Gen Act ActGen) s l s') :
    (∀ s₁ ∈ l, ∀ σ : Asg, Models σ s₁.b.scope → TrueIn R s.w σ q) ∧
    ∀ σ : Asg, Models σ s.b.scope → TrueIn R s.w σ q → ∃ s₁ ∈ l, ∃ σ', EqBelow s.nv σ σ' ∧ Models σ' s₁.b.scope := by
  obtain ⟨s'', h'⟩ := drain_rounds (fun h hm => gnext_mono h hm) hd hz hs.plain hrd h
  have hu := Deep.drain_back hs hR h' (E := B) (fun σ => TrueIn R s.w σ q) (fun σ => TrueIn R s.w σ q) rfl ⟨hsc, hb⟩ (Nat.le_refl _)
    ⟨⟨B, hsafe, q.after_sub, hB⟩, hq, hg, hqb, .refl _, fun _ _ hh => hh, fun _ _ hh => hh⟩
  refine ⟨fun s₁ hs₁ σ hσ => ?_, fun σ hσ hh => ?_⟩
  · exact Deep.answer_sound hs hR (drain_mem_answer hu _ (List.mem_map_of_mem hs₁)) (E := B) (fun σ => TrueIn R s.w σ q) (fun σ => TrueIn R s.w σ q) rfl ⟨hsc, hb⟩
      (Nat.le_refl _) ⟨⟨B, hsafe, q.after_sub, hB⟩, hq, hg, hqb, .refl _, fun _ _ hh => hh, fun _ _ hh => hh⟩ σ hσ
  · obtain ⟨s₁, h1, h2⟩ := Deep.drain_complete hs hR hu (E := B) (fun σ => TrueIn R s.w σ q) (fun σ => TrueIn R s.w σ q) rfl ⟨hsc, hb⟩ (Nat.le_refl _)
      ⟨⟨B, hsafe, q.after_sub, hB⟩, hq, hg, hqb, .refl _, fun _ _ hh => hh, fun _ _ hh => hh⟩ σ hσ hh
    obtain ⟨s₂, h3, rfl⟩ := List.mem_map.1 h1
    exact ⟨s₂, h3, h2⟩

/-- **C51**, for any query with safe negation (to any depth, see C89).  `D` are the predicates that the query depends on, directly or by rules, negated or not.  Between
two answers the body may do anything but change the beliefs and rules of `D`; it may bind variables.  Then the rounds are the answers that the query had when
the loop was entered: each of them makes the query true, and whatever makes the query true is consistent with one of them, in every set
of derived facts supported by the rules.

`_partial`: the side conditions of C89, `tidy` as in `C51_for_queries_partial`; no actions. -/
theorem C51_for_negation_partial {cmp : Bool} {R : Val → Prop} {P M : String × Nat → Prop} {B : VarId → Prop} {q : Query Act} {s s' : QSt World} {l : List (QSt World)}
    (hs : DeepStrata s.w cmp P M) (hR : Supported R s.w) (hq : q.DeepOK s.w cmp P) (hg : q.GroundAnnots) (hsafe : q.Safe M B)
    (hB : ∀ x, B x → GroundIn false s.b.scope (.var x)) (hd : q.AsksOnly D) (hz : q.tidy = true) (hrd : RulesAsk (A := Act) (G := ActGen) D s.w)
    (hsc : ScopeOK cmp s.b.scope) (hb : ScopeBelow s.nv s.b.scope) (hqb : q.bound ≤ s.nv)
    (h : Drain (fun s s' => SameKB (A := Act) (G := ActGen) D s.w s'.w ∧ s.nv ≤ s'.nv ∧ Above s.b s'.b) (.start q : Gen Act ActGen) s l s') :
    (∀ s₁ ∈ l, ∀ σ : Asg, Models σ s₁.b.scope → TrueIn R s.w σ q) ∧
    ∀ σ : Asg, Models σ s.b.scope → TrueIn R s.w σ q → ∃ s₁ ∈ l, ∃ σ', EqBelow s.nv σ σ' ∧ Models σ' s₁.b.scope :=
  rounds_deep hs hR hq hg hsafe hB hd hz hrd hsc hb hqb (h.mono fun _ _ h =>
    ⟨fun hk g hg => ⟨(h.1 g hg).1.trans (hk g hg).1, (h.1 g hg).2.trans (hk g hg).2⟩, h.2.1, h.2.2⟩)

variable {a i : Nat} {K : QSt World → Prop}

/-- **C78**, `for` with any query with safe negation (to any depth, see C89), where nobody changes the beliefs and rules of the predicates `D` that the query depends
on while the loop is executed: each round makes the query true, and whatever makes the query true when the loop is entered is consistent with one of the rounds.

`_partial`: as in C51_for_negation_partial; the queries of the body and the rules must not contain `.unbind_all` or `literal = variable`. -/
theorem C78_for_negation_partial {s s' : QSt World} {tr : Trace} {q : Query Act} {body : List Stmt}
    {bels : String × Nat → List Term} {rls : String × Nat → List (Rule Act)} (hr : Reachable s) (ho : RulesKeep s.w) (hi : i < s.w.nint)
    (hk : Stmt.KeepingL body) (hK : ∀ u, K u → ∀ g, D g → u.w.beliefs a g = bels g ∧ (u.w.ags a).rules g = rls g) (hs : K s)
    (hd : q.AsksOnly D) (hz : q.tidy = true) (hg : q.GroundAnnots) (hrd : ∀ g, D g → ∀ r ∈ rls g, r.query.AsksOnly D ∧ r.query.tidy = true)
    (h : Calm a i K s tr s') (hx : (Stmt.forall_ q body).sem tr .done) :
    ∃ u t l t' u', Calm a i K s [(.pushQuery q, true)] u ∧ Sees a i t u ∧ t.w.cur = a ∧
      Drain (Round a i K body) (.start q) t l t' ∧ Sees a i t' u' ∧ Calm a i K u' [(.popQuery, true)] s' ∧
      ∀ cmp R P M B, DeepStrata t.w cmp P M → Supported R t.w → q.DeepOK t.w cmp P → q.Safe M B →
        (∀ x, B x → GroundIn false (u.w.ints i).b.scope (.var x)) →
        ScopeOK cmp (u.w.ints i).b.scope → ScopeBelow u.nv (u.w.ints i).b.scope → q.bound ≤ u.nv →
        (∀ t₁ ∈ l, ∀ σ : Asg, Models σ t₁.b.scope → TrueIn R t.w σ q) ∧
        ∀ σ : Asg, Models σ (u.w.ints i).b.scope → TrueIn R t.w σ q → ∃ t₁ ∈ l, ∃ σ', EqBelow u.nv σ σ' ∧ Models σ' t₁.b.scope := by
  obtain ⟨u, t, l, t', u', h1, h2, h3, h4, h5, h6⟩ := C78_for hr hi (h.strong hr (hr.orderly ho) hi) hx
  have hu := h1.keeps ⟨hs, hr, hr.orderly ho, hi⟩
  have see : ∀ {t u : QSt World}, Sees a i t u → K u → t.w.cur = a →
      ∀ g, D g → QWorld.beliefs (A := Act) (G := ActGen) t.w g = bels g ∧ (QWorld.rules t.w g : List (Rule Act)) = rls g := by
    intro t u hs hk hc g hg
    refine ⟨?_, ?_⟩
    · show t.w.beliefs t.w.cur _ = _
      rw [hc, hs.beliefs]
      exact (hK u hk g hg).1
    · show (t.w.ags t.w.cur).rules _ = _
      rw [hc, hs.rules]
      exact (hK u hk g hg).2
  have ht := see h2 hu.1 h3
  refine ⟨u, t, l, t', u', h1.mono fun _ h => h.1, h2, h3, h4.mono fun t₁ t₂ ⟨v, tr', v', b1, b2, b3, b4, b5, b6⟩ =>
    ⟨v, tr', v', b1, b2.1, b3.mono fun _ h => h.1, b4, b5, b6⟩, h5, h6.mono fun _ h => h.1, fun cmp R P M B c1 c2 c3 c4 c5 g1 g2 g3 => ?_⟩
  rw [← h2.b] at c5 g1 g2 ⊢
  rw [← h2.nv] at g2 g3 ⊢
  refine rounds_deep c1 c2 c3 hg c4 c5 hd hz (fun g hg r hx => hrd g hg r (by rw [← (ht g hg).2]; exact hx)) g1 g2 g3 (h4.mono fun t₁ t₂ hb => ?_)
  obtain ⟨v, tr', v', b1, b2, b3, b4, b5, b6⟩ := hb
  have hv := b3.keeps b2
  refine ⟨fun _ g hg => ?_, ?_, ?_⟩
  · have hv' := see b5 hv.1 b6 g hg
    exact ⟨hv'.1.trans (ht g hg).1.symm, hv'.2.trans (ht g hg).2.symm⟩
  · rw [b1.nv, b5.nv]
    exact b3.nv b2.2.1
  · rw [b1.b, b5.b]
    exact (semL_holds body hk _ _ _ _ _ _ _ b4 (b3.acts b2.2.1 b2.2.2.1 b2.2.2.2) ⟨rfl, .refl _⟩).1

end

section examples
attribute [local instance] exactHost

/-- `p(1). p(2). r(2). ok(X) :- p(X) & not r(X).` -/
private def notW : World :=
  { World.init (fun _ => 0) with
    ags := fun _ => { name := "ag", beliefs := fun g => if g = ("p", 1) then some 0 else if g = ("r", 1) then some 1 else none
                      rules := fun g => if g = ("ok", 1) then
                        [⟨.lit "ok" [.var 0] [], .and (.term (.lit "p" [.var 0] [])) (.not (.term (.lit "r" [.var 0] [])))⟩] else [] }
    nag := 1
    sets := fun n => if n = 0 then [.lit "p" [.num 1] [], .lit "p" [.num 2] []] else [.lit "r" [.num 2] []]
    nset := 2 }

/-- `p(X) & not ok(X)`, with the variables `X` (0) and `Y` (1). -/
private def notQ : Query Act := .and (.term (.lit "p" [.var 0] [])) (.not (.term (.lit "ok" [.var 0] [])))
private def notS : QSt World := ⟨BSt.init, 2, notW⟩

private theorem notW_beliefs {grp : String × Nat} {b : Term} (h : b ∈ QWorld.beliefs (A := Act) (G := ActGen) notW grp) :
    (grp = ("p", 1) ∧ (b = .lit "p" [.num 1] [] ∨ b = .lit "p" [.num 2] [])) ∨ (grp = ("r", 1) ∧ b = .lit "r" [.num 2] []) := by
  simp only [QWorld.beliefs, World.beliefs, notW] at h
  by_cases hg : grp = ("p", 1)
  · rw [if_pos hg] at h
    exact .inl ⟨hg, by simpa using h⟩
  · rw [if_neg hg] at h
    by_cases hg : grp = ("r", 1)
    · rw [if_pos hg] at h
      exact .inr ⟨hg, by simpa using h⟩
    · rw [if_neg hg] at h
      cases h

private theorem notW_rules {grp : String × Nat} {r : Rule Act} (h : r ∈ (QWorld.rules notW grp : List (Rule Act))) :
    grp = ("ok", 1) ∧ r = ⟨.lit "ok" [.var 0] [], .and (.term (.lit "p" [.var 0] [])) (.not (.term (.lit "r" [.var 0] [])))⟩ := by
  simp only [QWorld.rules, notW] at h
  split at h
  · next hg => exact ⟨hg, by simpa using h⟩
  · cases h

private theorem notW_deep : DeepStrata notW true (fun _ => True) fun _ => False where
  belief := by
    intro grp b hb
    rcases notW_beliefs hb with ⟨rfl, h⟩ | ⟨rfl, rfl⟩
    · clear hb
      rcases h with rfl | rfl <;> (refine ⟨rfl, ?_, ?_, rfl⟩ <;>
        simp [Term.Parts, Term.Closed, Term.Tame, Term.NoAnnots, Term.Every])
    · refine ⟨rfl, ?_, ?_, rfl⟩ <;> simp [Term.Parts, Term.Closed, Term.Tame, Term.NoAnnots, Term.Every]
  rule := by
    intro grp r hr
    obtain ⟨rfl, rfl⟩ := notW_rules hr
    simp [Term.group, Term.Parts, Term.NoWild, Term.Tame, Term.NoAnnots, Term.Every, Query.DeepOK, Query.OK, Term.LitOK,
      Term.isLiteral, Query.GroundAnnots, Term.annots, Query.DeepIn]
  lower := by
    intro grp _ r hr
    obtain ⟨rfl, rfl⟩ := notW_rules hr
    simp [Query.DeepIn]
  ground := by
    intro grp _ r hr
    obtain ⟨rfl, rfl⟩ := notW_rules hr
    simp [Query.Plain, Term.Plain, Term.isOp, Query.Over, Query.after, Term.Occurs, Term.Over, Term.Every, Term.EveryL]
  safe := by
    intro grp r hr
    obtain ⟨rfl, rfl⟩ := notW_rules hr
    simp [Query.GroundAnnots, Query.Safe, Query.Plain, Term.Plain, Term.isOp, Query.after, Query.Over, Term.Occurs, Term.Over,
        Term.Every, Term.EveryL, Term.annots]

/-- C51: `for (p(X) & not ok(X)) { Y = 7 }`; one round, `X = 2`, as `ok(1)` follows and `ok(2)` does not. -/
example : ∃ (s₁ s' : QSt World),
    Drain (fun s s' => SameKB (A := Act) (G := ActGen) (fun _ => True) s.w s'.w ∧ s.nv ≤ s'.nv ∧ Above s.b s'.b ∧ s'.b.scope 1 = some (.num 7))
      (.start notQ : Gen Act ActGen) notS [s₁] s' ∧ s₁.b.scope 0 = some (.num 2) ∧
    ∀ R, Supported R notW → ∀ σ : Asg, (Models σ s₁.b.scope → TrueIn R notW σ notQ) ∧ (TrueIn R notW σ notQ → σ 0 = .num 2) := by
  have h : ∃ g₁ s₁ b₁ s', gnext 30 (.start notQ : Gen Act ActGen) notS = .ok (some g₁) s₁ ∧ unify 5 (.var 1) (.num 7) s₁.b = .ok true b₁ ∧
      b₁.scope 1 = some (.num 7) ∧ gnext 30 g₁ { s₁ with b := b₁ } = .ok none s' ∧ s₁.b.scope 0 = some (.num 2) :=
    ⟨_, _, _, _, rfl, rfl, rfl, rfl, rfl⟩
  obtain ⟨g₁, s₁, b₁, s', h1, h2, h3, h4, h5⟩ := h
  have hd : Drain (fun s s' => SameKB (A := Act) (G := ActGen) (fun _ => True) s.w s'.w ∧ s.nv ≤ s'.nv ∧ Above s.b s'.b ∧ s'.b.scope 1 = some (.num 7))
      (.start notQ : Gen Act ActGen) notS [s₁] s' :=
    .next (s₂ := { s₁ with b := b₁ }) h1 ⟨SameKB.refl _, Nat.le_refl _, (unify_grow _ _ _ _ _ (.inl ⟨_, h2⟩)).above, h3⟩ (.stop h4)
  refine ⟨s₁, s', hd, h5, fun R hR σ => ?_⟩
  have key := C51_for_negation_partial (D := fun _ => True) (q := notQ) (s := notS) (B := fun _ => False) notW_deep hR
    (by simp [notQ, Term.Parts, Term.NoWild, Term.Tame, Term.NoAnnots, Term.Every, Query.DeepOK, Query.OK, Term.LitOK, Term.isLiteral, Term.annots,
        Query.GroundAnnots, Query.DeepIn])
    (by simp [notQ, Query.GroundAnnots, Term.annots])
    (by simp [notQ, Query.Safe, Query.Plain, Term.Plain, Term.isOp, Query.after, Query.Over, Term.Occurs, Term.Over, Term.Every, Term.EveryL]) nofun
    (by simp [notQ, Query.AsksOnly, Query.Clean, Term.isLiteral]) rfl
    (by
      intro grp _ r hr
      obtain ⟨rfl, rfl⟩ := notW_rules hr
      exact ⟨by simp [Query.AsksOnly, Query.Clean, Term.isLiteral], rfl⟩) nofun nofun (by decide) (hd.mono fun _ _ h => ⟨h.1, h.2.1, h.2.2.1⟩)
  refine ⟨key.1 s₁ (by simp) σ, fun hσ => ?_⟩
  obtain ⟨s₂, j1, σ', j2, j3⟩ := key.2 σ nofun hσ
  simp only [List.mem_singleton] at j1
  subst j1
  rw [j2 0 (by decide)]
  have := j3 0 _ h5
  simpa only [Den] using this

/-- `p(a). p(b). p(c). q(b). !main. +!main <- for (p(X) & not q(X)) { +s(X) }; +done.` -/
def exceptions : AgentSrc where
  beliefs := [.lit "p" [.atom "a"] [], .lit "p" [.atom "b"] [], .lit "p" [.atom "c"] [], .lit "q" [.atom "b"] []]
  plans := [simplePlan "main" [.forall_ (.and pX (.not (.term (fX "q")))) [.add (fX "s")], .add (goalNamed "done")]]
  goals := [goalNamed "main"]

private def pqKept (s : QSt World) : Bool :=
  match s.w.beliefs 0 ("p", 1), s.w.beliefs 0 ("q", 1), (s.w.ags 0).rules ("p", 1), (s.w.ags 0).rules ("q", 1) with
  | [.lit "p" [.atom "a"] [], .lit "p" [.atom "b"] [], .lit "p" [.atom "c"] []], [.lit "q" [.atom "b"] []], [], [] => true
  | _, _, _, _ => false

private def pqD (g : String × Nat) : Prop := g = ("p", 1) ∨ g = ("q", 1)

/-- C78_for_negation_partial: two rounds, for `a` and `c`. -/
example : ∃ (s s' : QSt World) (tr : Trace) (q : Query Act) (x : Term), Reachable s ∧ RulesKeep s.w ∧ 9 < s.w.nint ∧ pqKept s = true ∧
    Calm 0 9 (fun s => pqKept s = true) s tr s' ∧ Stmt.KeepingL [.add x] ∧ q.AsksOnly pqD ∧ q.tidy = true ∧ q.GroundAnnots ∧
    (Stmt.forall_ q [.add x]).sem tr .done ∧
    s'.w.beliefs 0 ("s", 1) = [.lit "s" [.atom "a"] [], .lit "s" [.atom "c"] []] := by
  have h : ∃ s₀ s s' tr, started (fun _ => 0) exceptions = some s₀ ∧ stepsOf 20 0 1 s₀ = some s ∧ 9 < s.w.nint ∧ pqKept s = true ∧
      calmOf 20 0 9 pqKept 7 s = some (tr, s') ∧
      (∃ y b, tr = [(.pushQuery (.and (.term (.lit "p" [y] [])) (.not (.term (.lit "q" [y] [])))), true), (.nextOrFail, true), (.addBelief b, true), (.nextOrFail, true),
        (.addBelief b, true), (.nextOrFail, false), (.popQuery, true)]) ∧
      s'.w.beliefs 0 ("s", 1) = [.lit "s" [.atom "a"] [], .lit "s" [.atom "c"] []] ∧ ∀ a grp, (s.w.ags a).rules grp = [] :=
    ⟨_, _, _, _, rfl, rfl, by decide, rfl, rfl, ⟨_, _, rfl⟩, rfl, fun a grp => match a with | 0 => rfl | _ + 1 => rfl⟩
  obtain ⟨s₀, s, s', tr, h0, h1, h2, h3, h4, ⟨y, b, h5⟩, h6, h7⟩ := h
  refine ⟨s, s', tr, _, b, (started_reachable h0).steps (stepsOf_steps h1), fun a grp r h => (by rw [h7] at h; cases h), h2, h3, calmOf_calm h4,
    ⟨trivial, trivial⟩, ?_, ?_, ?_, by
    rw [h5, Stmt.sem]
    have hb : Stmt.semL [.add b] [(.addBelief b, true)] .done := by
      rw [Stmt.semL, Stmt.semL, Stmt.sem]
      exact Lang.seq.both (tr := [_]) (tr' := []) .done ⟨rfl, rfl⟩
    exact Lang.seq.both (tr := [_]) .done (.again (tr := []) ⟨rfl, rfl⟩ hb (.again (tr := []) ⟨rfl, rfl⟩ hb (.leave (tr := []) ⟨rfl, rfl⟩ .done))), h6⟩
  · exact ⟨show pqD _ from .inl rfl, show pqD _ from .inr rfl, trivial⟩
  · rfl
  · simp [Query.GroundAnnots, Term.annots]

end examples

end Verif
