import Verif.Lemmas.ToldLex
import Verif.Props.Build

/-!
# C65: plans that are asked for

`Spec/Told.lean` says which plan arrives if a plan is asked for with `askHow` and told with
`tellHow`.
-/

namespace Verif

/-- The head arrives as it was if and only if its variables, in the order in which they are
written, are the first of its arguments. -/
theorem C65_head {a : Ast} (ρ : List Char → List Char) (ha : a.terms ≠ []) :
    toldHeadTerm ρ a = some a ↔ a.varSeq.map .var <+: planArgs a := by
  have he : a.terms.isEmpty = false := by simpa using ha
  rw [toldHeadTerm, he]
  simp only [Bool.false_eq_true, if_false, Option.map_eq_some_iff]
  constructor
  · rintro ⟨⟨b, r⟩, h, rfl⟩
    exact ⟨r, (fill_same _ h).symm⟩
  · rintro ⟨r, h⟩
    exact ⟨(a, r), by rw [← h, fill_varSeq], rfl⟩

/-- A plan without a context is one with the context `true`. -/
theorem makePlan_true {acts : Lookup} {text : APlan → String} {p : APlan} {q : PlanSrc} {e : Nat} (h : makePlan acts text p 0 = .ok q e) :
    makePlan acts text { p with context := some (p.context.getD (.const (.bool true))) } 0 =
      .ok { q with text := text { p with context := some (p.context.getD (.const (.bool true))) } } e := by
  have ec : ∀ s, makeContext acts (some (p.context.getD (.const (.bool true)))) s = makeContext acts p.context s := by
    intro s
    cases p.context with
    | some c => rfl
    | none => rfl
  unfold makePlan at h ⊢
  simp only [ec]
  simp only at h
  cases h1 : makeContext acts p.context (({ errs := 0 } : Bld).term p.event.head).2 with
  | err x y => rw [h1] at h; cases h
  | oof => rw [h1] at h; cases h
  | ok c s =>
    rw [h1] at h
    simp only [Res.bind] at h ⊢
    cases h2 : makeBody acts p.body s with
    | err x y => rw [h2] at h; cases h
    | oof => rw [h2] at h; cases h
    | ok b s =>
      rw [h2] at h
      simp only at h ⊢
      by_cases h3 : p.event.head.annotations.all Ast.hasTerms = true
      · rw [if_pos h3] at h ⊢
        cases h
        rfl
      · rw [if_neg h3] at h
        cases h

section
variable [Unicode] [Floats]

omit [Unicode] in
/-- The text of a plan, in parts. -/
theorem told_text {W : Wording} {acts : Lookup} {vars : List Char → Term} (hW : W.Good) (hn : Naming vars) {p : APlan} {q : PlanSrc}
    (hq : PlanWith acts vars p q) (hs : p.Sendable acts) {p' : APlan} (ht : p.told (W.name vars) = some p') :
    ∃ r c, planToStr W p q ((planArgs p.event.head).map Ast.print) = .ok (toldHead p.label p'.event c ++ bodyStr p.body ++ ['.'], r) ∧
      p'.context = some c ∧ c.Source ∧ c.Finite := by
  obtain ⟨h', e1, rfl⟩ := Option.map_eq_some_iff.1 ht
  obtain ⟨f, ts, as, eh⟩ := hs.source.1.head
  have hsrc := hs.source.2.head
  have hhas : q.head.hasArgs = !ts.isEmpty := by rw [hq.head, eh, Ast.build]; cases ts <;> rfl
  have head : ∃ r, (if q.head.hasArgs then subVars 0 (q.head.show W) ((planArgs p.event.head).map Ast.print)
      else .ok (q.head.show W, (planArgs p.event.head).map Ast.print)) = .ok (h'.print, r) := by
    rw [hhas]
    have et : p.event.head.terms = ts := by rw [eh]; rfl
    rw [toldHeadTerm, et] at e1
    cases ts with
    | nil =>
      simp only [List.isEmpty_nil, if_true, Option.some.injEq] at e1
      subst e1
      refine ⟨(planArgs p.event.head).map Ast.print, ?_⟩
      simp only [List.isEmpty_nil, Bool.not_true, Bool.false_eq_true, if_false, hq.head]
      rw [show_build W hn _ hsrc.2 hs.headChars]
    | cons t ts =>
      simp only [List.isEmpty_cons, Bool.false_eq_true, if_false] at e1
      obtain ⟨⟨b, r⟩, e2, rfl⟩ := Option.map_eq_some_iff.1 e1
      refine ⟨r.map Ast.print, ?_⟩
      simp only [List.isEmpty_cons, Bool.not_false, if_true, hq.head]
      rw [sub_head hW hn hsrc.2 hs.headChars hs.headText, e2]
      rfl
  have context : q.context.context W = .ok (toldContext (W.name vars) p.context).ctx ∧ (toldContext (W.name vars) p.context).Source ∧
      (toldContext (W.name vars) p.context).Finite := by
    cases hc : p.context with
    | none =>
      rw [hq.noContext hc]
      exact ⟨rfl, trivial, trivial⟩
    | some c =>
      have h1 := hq.context c hc
      have h2 := hs.source.2.context c hc
      rcases hs.context c hc with rfl | ⟨h3, h4⟩
      · generalize q.context = z at h1
        cases h1
        exact ⟨rfl, trivial, trivial⟩
      · refine ⟨?_, rename_source (hW.name_text vars) c h2.1, rename_finite c h2.2⟩
        have := query_show (W := W) hn h1 h3 h2.2 h4
        generalize q.context = z at h1 this
        cases h1 with
        | tru => exact h3.elim
        | _ => exact this
  obtain ⟨r, hr⟩ := head
  refine ⟨r, _, ?_, rfl, context.2⟩
  rw [planToStr, hr]
  simp only [Ev.bind, context.1]
  rw [hq.trigger, hq.goalType, toldHead, AEvent.print]
  simp

/-- The text of a plan is read as the plan described by `APlan.told`.  A plan with too few
arguments for its variables cannot be sent. -/
theorem C65_arrives {W : Wording} {acts acts' : Lookup} {label : APlan → String} {vars : List Char → Term} (hW : W.Good) (hn : Naming vars)
    {p : APlan} {q : PlanSrc} (hq : PlanWith acts vars p q) (hs : p.Sendable acts) :
    match p.told (W.name vars) with
    | none => planToStr W p q ((planArgs p.event.head).map Ast.print) = .err (.py "IndexError")
    | some p' => ∃ u r, planToStr W p q ((planArgs p.event.head).map Ast.print) = .ok (u, r) ∧
        ∀ q' e, makePlan acts' label p' 0 = .ok q' e → Told acts' label u (.ok q') := by
  obtain ⟨f, ts, as, eh⟩ := hs.source.1.head
  have hsrc := hs.source.2.head
  cases ht : p.told (W.name vars) with
  | none =>
    have h1 : toldHeadTerm (W.name vars) p.event.head = none := by simpa [APlan.told] using ht
    have et : p.event.head.terms = ts := by rw [eh]; rfl
    have hhas : q.head.hasArgs = !ts.isEmpty := by rw [hq.head, eh, Ast.build]; cases ts <;> rfl
    rw [toldHeadTerm, et] at h1
    cases ts with
    | nil => simp at h1
    | cons t ts =>
      simp only [List.isEmpty_cons, Bool.false_eq_true, if_false, Option.map_eq_none_iff] at h1
      show planToStr W p q ((planArgs p.event.head).map Ast.print) = .err (.py "IndexError")
      rw [planToStr, hhas]
      simp only [List.isEmpty_cons, Bool.not_false, if_true, hq.head]
      rw [sub_head hW hn hsrc.2 hs.headChars hs.headText, h1]
      rfl
  | some p' =>
    obtain ⟨r, c, h1, h2, h3, h4⟩ := told_text hW hn hq hs ht
    refine ⟨_, r, h1, fun q' e hm => ?_⟩
    obtain ⟨h', e1, e2⟩ := Option.map_eq_some_iff.1 ht
    have hh : h'.IsLit ∧ h'.Source ∧ h'.Finite := by
      rw [toldHeadTerm] at e1
      split at e1
      · cases e1
        refine ⟨?_, rename_source (hW.name_text vars) _ hsrc.1, rename_finite _ hsrc.2⟩
        rw [eh]
        exact ⟨_, _, _, rfl⟩
      · obtain ⟨⟨b, r⟩, e3, rfl⟩ := Option.map_eq_some_iff.1 e1
        exact ⟨fill_lit hs.source.1.head e3, (fill_source _ _ e3 hsrc.1 (planArgs_source hsrc.1)).1,
          (fill_finite _ _ e3 hsrc.2 (planArgs_finite hsrc.2)).1⟩
    obtain ⟨s1, s2, -⟩ := source_shown h' hh.2.1 hh.2.2
    obtain ⟨s3, s4, -⟩ := source_shown c h3 h4
    cases hb : p.body with
    | none => exact absurd hb hs.body
    | some b =>
      have hbne : b ≠ [] := by rintro rfl; exact hs.source.1.body hb
      obtain ⟨s5, s6⟩ := stmts_source_shown b (hs.source.2.body b hb)
      have hl : ∀ x ∈ p.label, x.IsLit ∧ x.Shown := fun x hx =>
        ⟨hs.source.1.label x hx, (source_shown x (hs.source.2.label x hx).1 (hs.source.2.label x hx).2).1⟩
      have el : p.label.map Ast.raw = p.label := by
        cases hl' : p.label with
        | none => rfl
        | some x => exact congrArg some (source_shown x (hs.source.2.label x hl').1 (hs.source.2.label x hl').2).2.1
      subst e2
      obtain ⟨us, t, evs, k1, k2, k3, k4, k5⟩ := told_lexed (l := p.label) (e := ⟨p.event.trigger, p.event.goalType, h'⟩) (c := c) (b := b)
        hl hs.source.1.goalType hh.1 s1 s3 hbne s5
      rw [el, s6, stmts_tidy b (hs.branches b hb)] at k1
      simp only [s2, s4] at k1
      cases h2
      rw [hb] at hm
      have k6 := C60_told (acts := acts') (text := label) (vs := []) k3 k1 k2 hm
      refine ⟨evs, k4, fun x hx => ?_, ?_⟩
      · have : x.2 ∈ evs.map Prod.snd := List.mem_map_of_mem hx
        rw [k5, List.mem_map] at this
        obtain ⟨y, -, e⟩ := this
        exact ⟨y, e.symm⟩
      · rw [k5, toksOf_toks]
        exact k6

/-- A plan arrives as it was if there is no variable in its context, and the variables of its
head, in the order in which they are written, are the first of its arguments (and there are no
variables in the annotations of a head without arguments).  Missing: all other plans, see below;
there are plans that cannot be sent and plans that arrive as other plans. -/
theorem C65_partial {W : Wording} {acts acts' : Lookup} {label : APlan → String} (hW : W.Good) {p : APlan} {q : PlanSrc}
    (hq : makePlan acts label p 0 = .ok q 0) (hs : p.Sendable acts) (h1 : p.event.head.varSeq.map .var <+: planArgs p.event.head)
    (h2 : p.event.head.terms = [] → p.event.head.varSeq = []) (h3 : ∀ c ∈ p.context, c.varSeq = []) :
    ∃ u r, planToStr W p q ((planArgs p.event.head).map Ast.print) = .ok (u, r) ∧
      ∀ q' e, makePlan acts' label p 0 = .ok q' e →
        Told acts' label u (.ok { q' with text := label { p with context := some (p.context.getD (.const (.bool true))) } }) := by
  obtain ⟨vars, hn, hp⟩ := C58_plan hq
  have hρ : W.name vars ['_'] = ['_'] := by rw [Wording.name, hn.wild]
  have eh : toldHeadTerm (W.name vars) p.event.head = some p.event.head := by
    by_cases ht : p.event.head.terms = []
    · rw [toldHeadTerm, ht]
      exact congrArg some (rename_closed _ hρ _ (h2 ht))
    · exact (C65_head _ ht).2 h1
  have ec : toldContext (W.name vars) p.context = p.context.getD (.const (.bool true)) := by
    cases hc : p.context with
    | none => rfl
    | some c => exact rename_closed _ hρ c (h3 c hc)
  have et : p.told (W.name vars) = some { p with context := some (p.context.getD (.const (.bool true))) } := by
    rw [APlan.told, eh, ec]
    rfl
  have := C65_arrives (acts' := acts') (label := label) hW hn hp hs
  rw [et] at this
  obtain ⟨u, r, k1, k2⟩ := this
  refine ⟨u, r, k1, fun q' e hm => k2 _ e ?_⟩
  exact makePlan_true hm

omit [Unicode] in
/-- Sending a plan uses up the arguments: a second request fails if they do not suffice. -/
theorem C65_twice {W : Wording} {acts : Lookup} {vars : List Char → Term} (hW : W.Good) (hn : Naming vars)
    {p : APlan} {q : PlanSrc} (hq : PlanWith acts vars p q) (hs : p.Sendable acts) (h1 : p.event.head.terms ≠ [])
    (h2 : (planArgs p.event.head).length < 2 * p.event.head.varSeq.length) {u : List Char} {r : List (List Char)}
    (h : planToStr W p q ((planArgs p.event.head).map Ast.print) = .ok (u, r)) : planToStr W p q r = .err (.py "IndexError") := by
  obtain ⟨f, ts, as, eh⟩ := hs.source.1.head
  have hsrc := hs.source.2.head
  have et : p.event.head.terms = ts := by rw [eh]; rfl
  have hhas : q.head.hasArgs = true := by
    rw [hq.head, eh, Ast.build]
    rw [et] at h1
    cases ts with
    | nil => exact absurd rfl h1
    | cons t ts => rfl
  have e := sub_head hW hn hsrc.2 hs.headChars hs.headText
  rw [planToStr, hhas] at h
  simp only [if_true, hq.head, e] at h
  cases hf : p.event.head.fill (planArgs p.event.head) with
  | none => rw [hf] at h; cases h
  | some x =>
    obtain ⟨b, r'⟩ := x
    rw [hf] at h
    simp only [Option.map_some, filled, Ev.bind] at h
    have er : r = r'.map Ast.print := by
      split at h
      · cases h; rfl
      · cases h
      · cases h
    subst er
    rw [planToStr, hhas]
    simp only [if_true, hq.head, e]
    cases hf' : p.event.head.fill r' with
    | none => rfl
    | some y =>
      have l1 := fill_length _ hf
      have l2 := fill_length _ hf'
      omega

end

/-! ## Plans that do not arrive as they were -/

section examples
attribute [local instance] asciiText toyFloats exactArith

private def w0 : Wording where
  digest _ := "0a0".toList
  addr v := List.replicate (v + 1) 'f'
  object := ['0']
  float _ := []
  tuple _ := []

private theorem good0 : w0.Good where
  digest v := ⟨rfl, by show ∀ c ∈ "0a0".toList, isHex c = true; decide⟩
  addr v := ⟨by simp [w0], by intro c hc; rw [List.eq_of_mem_replicate hc]; decide⟩
  inj v v' h := by
    have := congrArg List.length h
    simpa [w0] using this

private def noActs : Lookup := fun _ _ => none
private def noText : APlan → String := fun _ => ""
private abbrev x : Ast := .var ['X']
private abbrev lit (f : Char) (ts : List Ast) : Ast := .lit [f] ts []
private abbrev one : Ast := .const (.num (.fin 1))

private theorem xText : VarText ['X'] := .inl ⟨[], 'X', [], rfl, by simp, by decide, by simp⟩

private theorem fText {c : Char} (h : isLow c = true) : FunctorText [c] :=
  ⟨false, false, [c], [], rfl, ⟨c, [], rfl, h, by simp⟩, by simp, by
    intro _ hk
    have : ∀ w ∈ keywords, w.length ≠ 1 := by decide
    exact this _ hk rfl⟩

private theorem oneText : ∃ u, toyFloats.read u = .fin 1 := ⟨['1'], by with_unfolding_all rfl⟩


/-- `@l +!g(X) : p <- !h(X); -b.` -/
private def planP : APlan := ⟨some (lit 'l' []), ⟨.addition, .achievement, lit 'g' [x]⟩, some (lit 'p' []), some [.formula .achieve (lit 'h' [x]), .formula .remove (lit 'b' [])]⟩

private def srcP : PlanSrc where
  trigger := .addition
  goalType := .achievement
  head := .lit "g" [.var 0] []
  context := .term (.lit "p" [] [])
  body := [.achieve (.lit "h" [.var 0] []), .remove (.lit "b" [] [])]
  label := some "l"

private theorem makeP : makePlan noActs noText planP 0 = .ok srcP 0 := by with_unfolding_all rfl

example : planToStr w0 planP srcP ["X".toList] = .ok ("@l +!g(X) : p <- !h(X);\n-b.".toList, []) := by rfl

private theorem sendP : planP.Sendable noActs where
  source := ⟨⟨by simp [planP, Ast.IsLit], ⟨_, _, _, rfl⟩, .inr (.inl rfl), by simp [planP]⟩,
    ⟨by simp [planP, Ast.Source, Ast.Sources, Ast.Finite, Ast.Finites]; exact fText (by decide),
     by simp [planP, Ast.Source, Ast.Sources, Ast.Finite, Ast.Finites, xText]; exact fText (by decide),
     by simp [planP, Ast.Source, Ast.Sources, Ast.Finite, Ast.Finites]; exact fText (by decide),
     by simp [planP, AStmt.AllTermsL, AStmt.AllTerms, Ast.Source, Ast.Sources, Ast.Finite, Ast.Finites, xText]; exact ⟨fText (by decide), fText (by decide)⟩⟩⟩
  headChars := by simp [planP, Ast.Chars, Ast.CharsL]
  headText := by decide
  context c h := by cases h; exact .inr ⟨rfl, trivial, trivial⟩
  body := nofun
  branches b h := by cases h; exact ⟨trivial, trivial, trivial⟩

/-- `C65_partial` and `C65_twice` apply to it. -/
example : ∃ u r, planToStr w0 planP srcP ["X".toList] = .ok (u, r) ∧ Told noActs noText u (.ok srcP) ∧ planToStr w0 planP srcP r = .err (.py "IndexError") := by
  obtain ⟨u, r, h1, h2⟩ := C65_partial (acts' := noActs) good0 makeP sendP ⟨[], rfl⟩ nofun (by simp [planP, Ast.varSeq, Ast.varSeqs])
  obtain ⟨vars, hn, hp⟩ := C58_plan makeP
  exact ⟨u, r, h1, h2 srcP 0 makeP, C65_twice good0 hn hp sendP nofun (by decide) h1⟩

private abbrev body1 : Option (List AStmt) := some [.formula .achieve (lit 'h' [x])]

private theorem sendable {e : AEvent} {c : Option Ast} (hg : e.goalType = .achievement) (hl : e.head.IsLit) (h1 : e.head.Source ∧ e.head.Finite)
    (h2 : e.head.Chars) (h3 : ¬"_X_".toList <:+: e.head.print)
    (hc : ∀ a, c = some a → (a.Source ∧ a.Finite) ∧ a.Askable noActs ∧ a.Chars) : (⟨none, e, c, body1⟩ : APlan).Sendable noActs where
  source := ⟨⟨nofun, hl, .inr (.inl hg), nofun⟩, ⟨nofun, h1, fun a h => (hc a h).1, fun b h => by
    cases h
    exact ⟨⟨⟨fText (by decide), ⟨xText, trivial⟩, trivial⟩, ⟨trivial, trivial⟩, trivial⟩, trivial⟩⟩⟩
  headChars := h2
  headText := h3
  context a h := .inr (hc a h).2
  body := nofun
  branches b h := by cases h; exact ⟨trivial, trivial⟩

/-- `+!g(X) : p(X) <- !h(X).` -/
private def planC : APlan := ⟨none, ⟨.addition, .achievement, lit 'g' [x]⟩, some (lit 'p' [x]), body1⟩

private theorem sendC : planC.Sendable noActs :=
  sendable rfl ⟨_, _, _, rfl⟩ ⟨⟨fText (by decide), ⟨xText, trivial⟩, trivial⟩, ⟨trivial, trivial⟩, trivial⟩ ⟨⟨trivial, trivial⟩, trivial⟩ (by decide)
    (by rintro a ⟨⟩; exact ⟨⟨⟨fText (by decide), ⟨xText, trivial⟩, trivial⟩, ⟨trivial, trivial⟩, trivial⟩, rfl, ⟨trivial, trivial⟩, trivial⟩)

private theorem makeC : makePlan noActs noText planC 0 = .ok {
    trigger := .addition, goalType := .achievement, head := .lit "g" [.var 0] [],
    context := .term (.lit "p" [.var 0] []), body := [.achieve (.lit "h" [.var 0] [])] } 0 := by with_unfolding_all rfl

/-- What arrives. -/
private def gotC : PlanSrc where
  trigger := .addition
  goalType := .achievement
  head := .lit "g" [.var 0] []
  context := .term (.lit "p" [.var 1] [])
  body := [.achieve (.lit "h" [.var 0] [])]

/-- It is not true that a plan arrives as it was: the variables of the context have their
internal names in the text, and are no longer those of the head and the body.  The plan
`+!g(X) : p(X) <- !h(X)` arrives as a plan that is applicable whenever there is some `p(Y)`. -/
theorem C65_context : ∃ p q u r q', makePlan noActs noText p 0 = .ok q 0 ∧ p.Sendable noActs ∧
    planToStr w0 p q ((planArgs p.event.head).map Ast.print) = .ok (u, r) ∧ Told noActs noText u (.ok q') ∧
    q'.head = .lit "g" [.var 0] [] ∧ q'.context = .term (.lit "p" [.var 1] []) ∧ q'.body = [.achieve (.lit "h" [.var 0] [])] ∧ ¬BuiltPlan noActs p q' := by
  obtain ⟨vars, hn, hp⟩ := C58_plan makeC
  have hv : vars ['X'] = .var 0 := by
    have := hp.head
    simp only [planC, Ast.build, Ast.builds, Term.lit.injEq, List.cons.injEq] at this
    exact this.2.1.1.symm
  have h := C65_arrives (acts' := noActs) (label := noText) good0 hn hp sendC
  have e : planC.told (w0.name vars) = some ⟨none, ⟨.addition, .achievement, lit 'g' [x]⟩, some (lit 'p' [.var "_X_0a0_f".toList]), body1⟩ := by
    simp [APlan.told, planC, toldHeadTerm, Ast.terms, toldContext, Ast.rename, Ast.renames, Wording.name, hv]
    exact ⟨_, ⟨_, rfl⟩, rfl, rfl⟩
  rw [e] at h
  obtain ⟨u, r, h1, h2⟩ := h
  refine ⟨planC, _, u, r, _, makeC, sendC, h1, h2 gotC 0 (by with_unfolding_all rfl), rfl, rfl, rfl, ?_⟩
  rintro ⟨vars, hn, hp⟩
  have e1 := hp.head
  have e2 := hp.context _ rfl
  simp only [gotC, planC, Ast.build, Ast.builds, Term.lit.injEq, List.cons.injEq] at e1
  generalize hq : gotC.context = z at e2
  cases e2 with
  | act h => cases h
  | belief h =>
    simp only [gotC, Ast.build, Ast.builds, Query.term.injEq, Term.lit.injEq, List.cons.injEq] at hq
    have := e1.2.1.1.trans hq.2.1.1.symm
    cases this

/-- `+!g(1, X) <- !h(X).` -/
private def planD : APlan := ⟨none, ⟨.addition, .achievement, lit 'g' [one, x]⟩, none, body1⟩

private theorem sendD : planD.Sendable noActs :=
  sendable rfl ⟨_, _, _, rfl⟩ ⟨⟨fText (by decide), ⟨oneText, xText, trivial⟩, trivial⟩, ⟨by simp [Ast.Finite], trivial, trivial⟩, trivial⟩
    ⟨⟨trivial, trivial, trivial⟩, trivial⟩ (by decide) nofun

private theorem makeD : makePlan noActs noText planD 0 = .ok {
    trigger := .addition, goalType := .achievement, head := .lit "g" [.num 1, .var 0] [], body := [.achieve (.lit "h" [.var 0] [])] } 0 := by
  with_unfolding_all rfl

/-- What arrives. -/
private def gotD : PlanSrc where
  trigger := .addition
  goalType := .achievement
  head := .lit "g" [.num 1, .num 1] []
  body := [.achieve (.lit "h" [.var 0] [])]

/-- The variables of the head are replaced by the arguments from the first one on, whether they
are variables or not: `+!g(1, X) <- !h(X)` arrives as `+!g(1, 1) <- !h(X)`. -/
theorem C65_constant : ∃ p q u r q', makePlan noActs noText p 0 = .ok q 0 ∧ p.Sendable noActs ∧
    planToStr w0 p q ((planArgs p.event.head).map Ast.print) = .ok (u, r) ∧ Told noActs noText u (.ok q') ∧
    q.head = .lit "g" [.num 1, .var 0] [] ∧ q'.head = .lit "g" [.num 1, .num 1] [] ∧ q'.body = q.body := by
  obtain ⟨vars, hn, hp⟩ := C58_plan makeD
  have h := C65_arrives (acts' := noActs) (label := noText) good0 hn hp sendD
  have e : planD.told (w0.name vars) = some ⟨none, ⟨.addition, .achievement, lit 'g' [one, one]⟩, some (.const (.bool true)), body1⟩ := rfl
  rw [e] at h
  obtain ⟨u, r, h1, h2⟩ := h
  exact ⟨planD, _, u, r, _, makeD, sendD, h1, h2 gotD 0 (by with_unfolding_all rfl), rfl, rfl, rfl⟩

/-- The outcome for a text with these tokens. -/
private theorem told_of {u : List Char} {acts : Lookup} {us vs : List Tok} {t : Tok} {k : Nat} {p : APlan} {q : PlanSrc} {e : Nat}
    (h1 : tokenize 1 (fileLines u) = some ((us ++ t :: vs).map fun t => (1, .tok t))) (h2 : parsePlan k (us ++ t :: vs) = .ok (p, t :: vs))
    (ht : t.kind = .fullstop) (h3 : makePlan acts noText p 0 = .ok q e) : Told acts noText u (.ok q) := by
  have e1 : ((us ++ t :: vs).map fun t => ((1 : Nat), LexEv.tok t)).map Prod.snd = (us ++ t :: vs).map LexEv.tok := by rw [List.map_map]; rfl
  have hp : AllProper (us ++ t :: vs) := by
    have := C44_tokens h1
    rwa [e1, toksOf_toks] at this
  obtain ⟨us', e2, hP⟩ := plan_sound hp h2
  cases List.append_cancel_right e2
  refine ⟨_, h1, fun x hx => ?_, ?_⟩
  · obtain ⟨t, -, rfl⟩ := List.mem_map.1 hx
    exact ⟨t, rfl⟩
  · rw [e1, toksOf_toks]
    exact C60_told hp hP ht h3

/-- `+!g : true <- None` -/
private def toksB : List Tok :=
  [⟨['+'], .opPlus, 0, 1⟩, ⟨['!'], .exclam, 1, 2⟩, ⟨['g'], .functor, 2, 3⟩, ⟨[':'], .colon, 4, 5⟩, ⟨['t', 'r', 'u', 'e'], .litTrue, 6, 10⟩,
   ⟨['<', '-'], .arrow, 11, 13⟩, ⟨['N', 'o', 'n', 'e'], .var, 14, 18⟩]

/-- A plan without a body arrives with a body: the variable `None`, as a query. -/
theorem C65_body : ∃ p q u r, makePlan noActs noText p 0 = .ok q 0 ∧ q.body = [] ∧ planToStr w0 p q [] = .ok (u, r) ∧
    Told noActs noText u (.ok { q with body := [.query (.term (.var 0))] }) :=
  ⟨⟨none, ⟨.addition, .achievement, lit 'g' []⟩, none, none⟩, _, "+!g : true <- None.".toList, _, by with_unfolding_all rfl, rfl, by with_unfolding_all rfl,
    told_of (us := toksB) (t := ⟨['.'], .fullstop, 18, 19⟩) (vs := []) (k := 60) (by rfl)
      (p := ⟨none, ⟨.addition, .achievement, lit 'g' []⟩, some (.const (.bool true)), some [.formula .term (.var "None".toList)]⟩)
      (by with_unfolding_all rfl) rfl (by with_unfolding_all rfl)⟩

/-- `+!g(X) : (_X_0a0_f = a) <- !h(X)` -/
private def toksS : List Tok :=
  [⟨['+'], .opPlus, 0, 1⟩, ⟨['!'], .exclam, 1, 2⟩, ⟨['g'], .functor, 2, 3⟩, ⟨['('], .parenOpen, 3, 4⟩, ⟨['X'], .var, 4, 5⟩,
   ⟨[')'], .parenClose, 5, 6⟩, ⟨[':'], .colon, 7, 8⟩, ⟨['('], .parenOpen, 9, 10⟩, ⟨['_', 'X', '_', '0', 'a', '0', '_', 'f'], .var, 10, 18⟩,
   ⟨['='], .opUnify, 19, 20⟩, ⟨['a'], .functor, 21, 22⟩, ⟨[')'], .parenClose, 22, 23⟩, ⟨['<', '-'], .arrow, 24, 26⟩, ⟨['!'], .exclam, 27, 28⟩,
   ⟨['h'], .functor, 28, 29⟩, ⟨['('], .parenOpen, 29, 30⟩, ⟨['X'], .var, 30, 31⟩, ⟨[')'], .parenClose, 31, 32⟩]

/-- What arrives. -/
private def gotS : PlanSrc where
  trigger := .addition
  goalType := .achievement
  head := .lit "g" [.var 0] []
  context := .unify (.var 1) (.lit "a" [] [])
  body := [.achieve (.lit "h" [.var 0] [])]

/-- `+!g(X) : X = "a" <- !h(X).`: the string arrives as a literal. -/
theorem C65_string : ∃ p q u r q', makePlan noActs noText p 0 = .ok q 0 ∧ q.context = .unify (.var 0) (.str "a") ∧
    planToStr w0 p q ["X".toList] = .ok (u, r) ∧ Told noActs noText u (.ok q') ∧ q'.context = .unify (.var 1) (.lit "a" [] []) :=
  ⟨⟨none, ⟨.addition, .achievement, lit 'g' [x]⟩, some (.bin .unify x (.const (.str [97]))), body1⟩, _, "+!g(X) : (_X_0a0_f = a) <- !h(X).".toList, _, gotS,
    by with_unfolding_all rfl, rfl, by with_unfolding_all rfl,
    told_of (us := toksS) (t := ⟨['.'], .fullstop, 32, 33⟩) (vs := []) (k := 60) (by rfl)
      (p := ⟨none, ⟨.addition, .achievement, lit 'g' [x]⟩, some (.bin .unify (.var "_X_0a0_f".toList) (lit 'a' [])), body1⟩)
      (by with_unfolding_all rfl) rfl (by with_unfolding_all rfl), rfl⟩

/-- `+!g(X) : (_X_0a0_f = True) <- !h(X)` -/
private def toksT : List Tok :=
  [⟨['+'], .opPlus, 0, 1⟩, ⟨['!'], .exclam, 1, 2⟩, ⟨['g'], .functor, 2, 3⟩, ⟨['('], .parenOpen, 3, 4⟩, ⟨['X'], .var, 4, 5⟩,
   ⟨[')'], .parenClose, 5, 6⟩, ⟨[':'], .colon, 7, 8⟩, ⟨['('], .parenOpen, 9, 10⟩, ⟨['_', 'X', '_', '0', 'a', '0', '_', 'f'], .var, 10, 18⟩,
   ⟨['='], .opUnify, 19, 20⟩, ⟨['T', 'r', 'u', 'e'], .var, 21, 25⟩, ⟨[')'], .parenClose, 25, 26⟩, ⟨['<', '-'], .arrow, 27, 29⟩, ⟨['!'], .exclam, 30, 31⟩,
   ⟨['h'], .functor, 31, 32⟩, ⟨['('], .parenOpen, 32, 33⟩, ⟨['X'], .var, 33, 34⟩, ⟨[')'], .parenClose, 34, 35⟩]

/-- What arrives. -/
private def gotT : PlanSrc where
  trigger := .addition
  goalType := .achievement
  head := .lit "g" [.var 0] []
  context := .unify (.var 1) (.var 2)
  body := [.achieve (.lit "h" [.var 0] [])]

/-- `+!g(X) : X = true <- !h(X).`: the truth value arrives as the variable `True`, so that the context of the plan is always true. -/
theorem C65_truth : ∃ p q u r q', makePlan noActs noText p 0 = .ok q 0 ∧ q.context = .unify (.var 0) (.bool true) ∧
    planToStr w0 p q ["X".toList] = .ok (u, r) ∧ Told noActs noText u (.ok q') ∧ q'.context = .unify (.var 1) (.var 2) :=
  ⟨⟨none, ⟨.addition, .achievement, lit 'g' [x]⟩, some (.bin .unify x (.const (.bool true))), body1⟩, _, "+!g(X) : (_X_0a0_f = True) <- !h(X).".toList, _, gotT,
    by with_unfolding_all rfl, rfl, by with_unfolding_all rfl,
    told_of (us := toksT) (t := ⟨['.'], .fullstop, 35, 36⟩) (vs := []) (k := 60) (by rfl)
      (p := ⟨none, ⟨.addition, .achievement, lit 'g' [x]⟩, some (.bin .unify (.var "_X_0a0_f".toList) (.var "True".toList)), body1⟩)
      (by with_unfolding_all rfl) rfl (by with_unfolding_all rfl), rfl⟩

/-- Plans with a negated conjunction as the context cannot be sent: there is no text. -/
theorem C65_negation : ∃ p q, makePlan noActs noText p 0 = .ok q 0 ∧ ∀ W args, planToStr W p q args = .err (.py "AttributeError") :=
  ⟨⟨none, ⟨.addition, .achievement, lit 'g' []⟩, some (.un .not (.bin .and (lit 'p' []) (lit 'q' []))), body1⟩, _,
    by with_unfolding_all rfl, fun _ _ => rfl⟩

/-- `+!g : <agentspeak.runtime.ActionQuery object at 0x0> <- !h(X).` -/
private def toksA : List Tok :=
  [⟨['+'], .opPlus, 0, 1⟩, ⟨['!'], .exclam, 1, 2⟩, ⟨['g'], .functor, 2, 3⟩, ⟨[':'], .colon, 4, 5⟩, ⟨['<'], .opLt, 6, 7⟩,
   ⟨"agentspeak.runtime".toList, .functor, 7, 25⟩, ⟨['.'], .fullstop, 25, 26⟩, ⟨"ActionQuery".toList, .var, 26, 37⟩,
   ⟨['o', 'b', 'j', 'e', 'c', 't'], .functor, 38, 44⟩, ⟨['a', 't'], .functor, 45, 47⟩, ⟨['0'], .numeric, 48, 49⟩, ⟨['x', '0'], .functor, 49, 51⟩,
   ⟨['>'], .opGt, 51, 52⟩, ⟨['<', '-'], .arrow, 53, 55⟩, ⟨['!'], .exclam, 56, 57⟩, ⟨['h'], .functor, 57, 58⟩, ⟨['('], .parenOpen, 58, 59⟩,
   ⟨['X'], .var, 59, 60⟩, ⟨[')'], .parenClose, 60, 61⟩, ⟨['.'], .fullstop, 61, 62⟩]

/-- If there is an action in the context the text cannot be read. -/
theorem C65_action : ∃ (acts : Lookup) (p : APlan) (q : PlanSrc) (u : List Char) (r : List (List Char)), makePlan acts noText p 0 = .ok q 0 ∧
    planToStr w0 p q [] = .ok (u, r) ∧ Told acts noText u syntaxError := by
  refine ⟨fun _ _ => some .print, ⟨none, ⟨.addition, .achievement, lit 'g' []⟩, some (.lit ".print".toList [] []), body1⟩, _,
    "+!g : <agentspeak.runtime.ActionQuery object at 0x0> <- !h(X).".toList, _, by with_unfolding_all rfl, by with_unfolding_all rfl,
    toksA.map fun t => (1, .tok t), by rfl, fun e he => ?_, 20, fun n hn => ?_⟩
  · obtain ⟨t, -, rfl⟩ := List.mem_map.1 he
    exact ⟨t, rfl⟩
  · obtain ⟨k, rfl⟩ := Nat.exists_eq_add_of_le' hn
    have : (toksA.map fun t => ((1 : Nat), LexEv.tok t)).map Prod.snd = toksA.map LexEv.tok := by rw [List.map_map]; rfl
    rw [this, toksOf_toks]
    with_unfolding_all rfl

end examples

end Verif
