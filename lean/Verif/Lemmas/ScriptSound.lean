import Verif.Lemmas.Complete
import Verif.Spec.Script

/-! What the parser accepts as statements, plans and clauses are phrases of the grammar. -/

namespace Verif

section
variable [Unicode] [Floats]

theorem lit_sound : ∀ {n : Nat} {ts : List Tok} {a : Ast} {rs : List Tok}, AllProper ts → parseLiteral n ts = .ok (a, rs) →
    ∃ us, ts = us ++ rs ∧ LitPhrase us a
  | 0, ts, a, rs, _, h => by rw [parseLiteral] at h; cases h
  | n + 1, ts, a, rs, hp, h => by
    have ih := allSound n
    rw [parseLiteral.eq_def] at h
    cases ts with
    | nil => cases h
    | cons t ts =>
      simp only at h
      split at h
      · rename_i hk
        obtain ⟨ts1, h1, hh⟩ := Ev.bind_eq_ok.1 h
        obtain ⟨⟨args, ts2⟩, h2, h3⟩ := Ev.bind_eq_ok.1 hh
        obtain ⟨⟨annots, ts3⟩, h4, h5⟩ := Ev.bind_eq_ok.1 h3
        cases h5
        obtain ⟨_, u, rs', e1, e2⟩ := advance_ok h1
        cases e1
        subst e2
        have ha : ∃ us, u :: rs' = us ++ ts2 ∧ OptArgs .parenOpen .parenClose us args := by
          split at h2
          · rename_i hat
            obtain ⟨_, _, e1, hko⟩ := at?_cons (k := .parenOpen) rfl hat hp.tail
            cases e1
            obtain ⟨us, e2, harg⟩ := ih.args [')'] .parenClose _ rfl rfl _ _ _ _ hp.tail h2
            exact ⟨u :: us, by rw [e2]; rfl, .some hko harg⟩
          · cases h2
            exact ⟨[], rfl, .none⟩
        obtain ⟨us, e3, ha⟩ := ha
        have hp2 : AllProper ts2 := by rw [e3] at hp; exact hp.tail.right
        have hb : ∃ vs, ts2 = vs ++ ts3 ∧ OptArgs .bracketOpen .bracketClose vs annots := by
          split at h4
          · rename_i hat
            obtain ⟨_, _, e1, hko⟩ := at?_cons (k := .bracketOpen) rfl hat hp2
            subst e1
            obtain ⟨us, e2, harg⟩ := ih.args [']'] .bracketClose _ rfl rfl _ _ _ _ hp2 h4
            exact ⟨_ :: us, by rw [e2]; rfl, .some hko harg⟩
          · cases h4
            exact ⟨[], rfl, .none⟩
        obtain ⟨vs, e4, hb⟩ := hb
        exact ⟨t :: (us ++ vs), by rw [e3, e4]; simp, .mk hk ha hb⟩
      · cases h

theorem term_sound {n : Nat} {ts : List Tok} {a : Ast} {rs : List Tok} (hp : AllProper ts) (h : parseTerm n ts = .ok (a, rs)) :
    ∃ us, ts = us ++ rs ∧ Phrase 0 us a := by
  obtain ⟨us, e, h1, -⟩ := (allSound n).term ts a rs hp h
  exact ⟨us, e, h1⟩

omit [Unicode] [Floats] in
theorem advance_sound {ts us : List Tok} (h : advance ts = .ok us) : ∃ t, ts = t :: us := by
  obtain ⟨t, u, rs, rfl, rfl⟩ := advance_ok h
  exact ⟨t, rfl⟩

omit [Unicode] [Floats] in
theorem expect_sound {w : List Char} {k : Kind} (hk : k.fixed = some w) {ts us : List Tok} (hp : AllProper ts)
    (h : expect w ts = .ok us) : ∃ t, ts = t :: us ∧ t.kind = k := by
  rw [expect] at h
  split at h
  · rename_i hat
    obtain ⟨t, rfl⟩ := advance_sound h
    obtain ⟨t', rs, e, hk'⟩ := at?_cons hk hat hp
    cases e
    exact ⟨t, rfl, hk'⟩
  · cases h

theorem head_sound {n : Nat} {ts : List Tok} {a : Ast} {rs : List Tok} (hp : AllProper ts) (h : parseHead n ts = .ok (a, rs)) :
    ∃ us, ts = us ++ rs ∧ CondPhrase us a := by
  rw [parseHead] at h
  obtain ⟨ts1, h1, hh⟩ := Ev.bind_eq_ok.1 h
  obtain ⟨⟨c, ts2⟩, h2, h3⟩ := Ev.bind_eq_ok.1 hh
  obtain ⟨ts3, h4, h5⟩ := Ev.bind_eq_ok.1 h3
  cases h5
  obtain ⟨o, rfl, ho⟩ := expect_sound (k := .parenOpen) rfl hp h1
  obtain ⟨us, rfl, hu⟩ := term_sound hp.tail h2
  obtain ⟨c, rfl, hc⟩ := expect_sound (k := .parenClose) rfl hp.tail.right h4
  exact ⟨o :: (us ++ [c]), by simp, .mk ho hu hc⟩

/-- The functions for statements are sound with this much fuel. -/
structure StmtSound (n : Nat) : Prop where
  stmt : ∀ {ts : List Tok} {a : AStmt} {rs : List Tok}, AllProper ts → parseStmt n ts = .ok (a, rs) → ∃ us, ts = us ++ rs ∧ StmtPhrase us a
  block : ∀ {ts : List Tok} {a : List AStmt} {rs : List Tok}, AllProper ts → parseBlock n ts = .ok (a, rs) → ∃ us, ts = us ++ rs ∧ BlockPhrase us a
  body : ∀ {ts : List Tok} {a : List AStmt} {rs : List Tok}, AllProper ts → parseBody n ts = .ok (a, rs) → ∃ us, ts = us ++ rs ∧ StmtsPhrase us a

omit [Unicode] [Floats] in
theorem formulaType_kind {t : Tok} {ty : FType} (h : formulaType t = some ty) : ty.kind = some t.kind := by
  unfold formulaType at h
  split at h <;> first | (cases h; done) | (rename_i hk; cases h; rw [hk]; rfl)

omit [Unicode] [Floats] in
theorem formulaType_none {t : Tok} (h : formulaType t = none) : t.kind ≠ .opPlus ∧ t.kind ≠ .opMinus := by
  constructor <;> intro hk <;> simp [formulaType, hk] at h

theorem stmtSound : ∀ n, StmtSound n
  | 0 => by
    refine ⟨?_, ?_, ?_⟩ <;> intro ts a rs _ h
    · rw [parseStmt] at h; cases h
    · rw [parseBlock] at h; cases h
    · rw [parseBody] at h; cases h
  | n + 1 => by
    have ih := stmtSound n
    refine ⟨?_, ?_, ?_⟩ <;> intro ts a rs hp h
    · rw [parseStmt.eq_def] at h
      simp only at h
      by_cases h1 : at? "while".toList ts = true
      · rw [if_pos h1] at h
        obtain ⟨t, vs, rfl, hk⟩ := at?_cons (k := .tokWhile) rfl h1 hp
        obtain ⟨ts1, ha, hh⟩ := Ev.bind_eq_ok.1 h
        obtain ⟨⟨c, ts2⟩, gc, hh1⟩ := Ev.bind_eq_ok.1 hh
        obtain ⟨⟨b, ts3⟩, gb, hh2⟩ := Ev.bind_eq_ok.1 hh1
        cases hh2
        obtain ⟨_, e⟩ := advance_sound ha
        cases e
        obtain ⟨us, rfl, hc⟩ := head_sound hp.tail gc
        obtain ⟨ws, rfl, hb⟩ := ih.block hp.tail.right gb
        exact ⟨t :: (us ++ ws), by simp, .while_ hk hc hb⟩
      rw [if_neg h1] at h
      by_cases h2 : at? "if".toList ts = true
      · rw [if_pos h2] at h
        obtain ⟨t, vs, rfl, hk⟩ := at?_cons (k := .tokIf) rfl h2 hp
        obtain ⟨ts1, ha, hh⟩ := Ev.bind_eq_ok.1 h
        obtain ⟨⟨c, ts2⟩, gc, hh1⟩ := Ev.bind_eq_ok.1 hh
        obtain ⟨⟨b, ts3⟩, gb, hh2⟩ := Ev.bind_eq_ok.1 hh1
        simp only at hh2
        obtain ⟨_, e⟩ := advance_sound ha
        cases e
        obtain ⟨us, rfl, hc⟩ := head_sound hp.tail gc
        obtain ⟨ws, rfl, hb⟩ := ih.block hp.tail.right gb
        split at hh2
        · rename_i hat
          obtain ⟨e, xs, rfl, hke⟩ := at?_cons (k := .tokElse) rfl hat hp.tail.right.right
          obtain ⟨ts4, ha2, hh3⟩ := Ev.bind_eq_ok.1 hh2
          obtain ⟨⟨b2, ts5⟩, gb2, hh4⟩ := Ev.bind_eq_ok.1 hh3
          cases hh4
          obtain ⟨_, e'⟩ := advance_sound ha2
          cases e'
          obtain ⟨ys, rfl, hb2⟩ := ih.block hp.tail.right.right.tail gb2
          exact ⟨t :: (us ++ ws ++ e :: ys), by simp, .ifElse hk hc hb hke hb2⟩
        · cases hh2
          exact ⟨t :: (us ++ ws), by simp, .if_ hk hc hb⟩
      rw [if_neg h2] at h
      by_cases h3 : at? "for".toList ts = true
      · rw [if_pos h3] at h
        obtain ⟨t, vs, rfl, hk⟩ := at?_cons (k := .tokFor) rfl h3 hp
        obtain ⟨ts1, ha, hh⟩ := Ev.bind_eq_ok.1 h
        obtain ⟨⟨c, ts2⟩, gc, hh1⟩ := Ev.bind_eq_ok.1 hh
        obtain ⟨⟨b, ts3⟩, gb, hh2⟩ := Ev.bind_eq_ok.1 hh1
        cases hh2
        obtain ⟨_, e⟩ := advance_sound ha
        cases e
        obtain ⟨us, rfl, hc⟩ := head_sound hp.tail gc
        obtain ⟨ws, rfl, hb⟩ := ih.block hp.tail.right gb
        exact ⟨t :: (us ++ ws), by simp, .for_ hk hc hb⟩
      rw [if_neg h3] at h
      cases ts with
      | nil => cases h
      | cons t ts =>
        simp only at h
        cases hf : formulaType t with
        | some ty =>
          rw [hf] at h
          obtain ⟨ts1, ha, hh⟩ := Ev.bind_eq_ok.1 h
          obtain ⟨⟨c, ts2⟩, gc, hh1⟩ := Ev.bind_eq_ok.1 hh
          cases hh1
          obtain ⟨_, e⟩ := advance_sound ha
          cases e
          obtain ⟨us, rfl, hc⟩ := term_sound hp.tail gc
          exact ⟨t :: us, by simp, .formula (formulaType_kind hf) hc⟩
        | none =>
          rw [hf] at h
          obtain ⟨⟨c, ts2⟩, gc, hh1⟩ := Ev.bind_eq_ok.1 h
          cases hh1
          obtain ⟨us, e, hc⟩ := term_sound hp gc
          obtain ⟨t', us', rfl, -⟩ := phrase_start hc
          cases e
          exact ⟨_, rfl, .term hc (formulaType_none hf).1 (formulaType_none hf).2⟩
    · rw [parseBlock] at h
      obtain ⟨ts1, h1, hh⟩ := Ev.bind_eq_ok.1 h
      obtain ⟨⟨c, ts2⟩, h2, h3⟩ := Ev.bind_eq_ok.1 hh
      obtain ⟨ts3, h4, h5⟩ := Ev.bind_eq_ok.1 h3
      cases h5
      obtain ⟨o, rfl, ho⟩ := expect_sound (k := .braceOpen) rfl hp h1
      obtain ⟨us, rfl, hu⟩ := ih.body hp.tail h2
      obtain ⟨c, rfl, hc⟩ := expect_sound (k := .braceClose) rfl hp.tail.right h4
      exact ⟨o :: (us ++ [c]), by simp, .mk ho hu hc⟩
    · rw [parseBody] at h
      split at h
      · cases h
        exact ⟨[], rfl, .nil⟩
      · obtain ⟨⟨f, ts1⟩, h1, hh⟩ := Ev.bind_eq_ok.1 h
        simp only at hh
        obtain ⟨us, rfl, hf⟩ := ih.stmt hp h1
        split at hh
        · rename_i hat
          obtain ⟨t, vs, rfl, hk⟩ := at?_cons (k := .semicolon) rfl hat hp.right
          obtain ⟨ts2, ha, hh2⟩ := Ev.bind_eq_ok.1 hh
          obtain ⟨⟨r, ts3⟩, gr, hh3⟩ := Ev.bind_eq_ok.1 hh2
          cases hh3
          obtain ⟨_, e⟩ := advance_sound ha
          cases e
          obtain ⟨ws, rfl, hb⟩ := ih.body hp.right.tail gr
          exact ⟨us ++ t :: ws, by simp, .semi hf hk hb⟩
        · split at hh
          · cases hh
            exact ⟨us, rfl, .last hf⟩
          · split at hh
            · cases hh
            · rename_i hi
              obtain ⟨⟨r, ts3⟩, gr, hh3⟩ := Ev.bind_eq_ok.1 hh
              cases hh3
              obtain ⟨ws, rfl, hb⟩ := ih.body hp.right gr
              exact ⟨us ++ ws, by simp, .block hf (by simpa using hi) hb⟩

theorem planBody_sound : ∀ {n : Nat} {ts : List Tok} {a : List AStmt} {rs : List Tok}, AllProper ts → parsePlanBody n ts = .ok (a, rs) →
    ∃ us, ts = us ++ rs ∧ PlanBodyPhrase us a
  | 0, ts, a, rs, _, h => by rw [parsePlanBody] at h; cases h
  | n + 1, ts, a, rs, hp, h => by
    rw [parsePlanBody] at h
    obtain ⟨⟨f, ts1⟩, h1, hh⟩ := Ev.bind_eq_ok.1 h
    simp only at hh
    obtain ⟨us, rfl, hf⟩ := (stmtSound n).stmt hp h1
    split at hh
    · rename_i hat
      obtain ⟨t, vs, rfl, hk⟩ := at?_cons (k := .semicolon) rfl hat hp.right
      obtain ⟨ts2, ha, hh2⟩ := Ev.bind_eq_ok.1 hh
      obtain ⟨⟨r, ts3⟩, gr, hh3⟩ := Ev.bind_eq_ok.1 hh2
      cases hh3
      obtain ⟨_, e⟩ := advance_sound ha
      cases e
      obtain ⟨ws, rfl, hb⟩ := planBody_sound hp.right.tail gr
      exact ⟨us ++ t :: ws, by simp, .semi hf hk hb⟩
    · split at hh
      · cases hh
        exact ⟨us, rfl, .last hf⟩
      · split at hh
        · cases hh
        · rename_i hi
          obtain ⟨⟨r, ts3⟩, gr, hh3⟩ := Ev.bind_eq_ok.1 hh
          cases hh3
          obtain ⟨ws, rfl, hb⟩ := planBody_sound hp.right gr
          exact ⟨us ++ ws, by simp, .block hf (by simpa using hi) hb⟩

omit [Unicode] [Floats] in
theorem trigger_kind {t : Tok} {tr : Trigger} : trigger? t = some tr ↔ t.kind = tr.kind := by
  constructor
  · intro h
    unfold trigger? at h
    split at h <;> first | (cases h; done) | (rename_i hk; cases h; rw [hk]; rfl)
  · intro h
    cases tr <;> simp only [Trigger.kind] at h <;> simp [trigger?, h]

theorem event_sound {n : Nat} {ts : List Tok} {a : AEvent} {rs : List Tok} (hp : AllProper ts) (h : parseEvent n ts = .ok (a, rs)) :
    ∃ us, ts = us ++ rs ∧ EventPhrase us a := by
  rw [parseEvent.eq_def] at h
  cases ts with
  | nil => cases h
  | cons t ts =>
    simp only at h
    split at h
    · cases h
    · rename_i tr htr
      obtain ⟨ts1, ha, hh⟩ := Ev.bind_eq_ok.1 h
      obtain ⟨_, e⟩ := advance_sound ha
      cases e
      cases ts with
      | nil => cases hh
      | cons u us =>
        simp only at hh
        cases hg : goalType? u with
        | some g =>
          rw [hg] at hh
          obtain ⟨ts2, ha2, hh2⟩ := Ev.bind_eq_ok.1 hh
          obtain ⟨⟨l, ts3⟩, gl, hh3⟩ := Ev.bind_eq_ok.1 hh2
          cases hh3
          obtain ⟨_, e⟩ := advance_sound ha2
          cases e
          obtain ⟨vs, rfl, hl⟩ := lit_sound hp.tail.tail gl
          refine ⟨t :: u :: vs, by simp, ?_⟩
          unfold goalType? at hg
          split at hg
          · rename_i hk; cases hg; exact .achievement (trigger_kind.1 htr) hk hl
          · rename_i hk; cases hg; exact .test (trigger_kind.1 htr) hk hl
          · cases hg
        | none =>
          rw [hg] at hh
          obtain ⟨⟨l, ts3⟩, gl, hh3⟩ := Ev.bind_eq_ok.1 hh
          cases hh3
          obtain ⟨vs, e, hl⟩ := lit_sound hp.tail gl
          exact ⟨t :: vs, by rw [e]; rfl, .belief (trigger_kind.1 htr) hl⟩

omit [Unicode] [Floats] in
/-- An optional part of a plan. -/
theorem opt_sound {α : Type} {w : List Char} {k : Kind} (hk : k.fixed = some w) {f : List Tok → PR α} {P : List Tok → α → Prop}
    (hf : ∀ {ts a rs}, AllProper ts → f ts = .ok (a, rs) → ∃ us, ts = us ++ rs ∧ P us a)
    {ts : List Tok} {a : Option α} {rs : List Tok} (hp : AllProper ts)
    (h : (if at? w ts then (advance ts).bind fun ts => (f ts).bind fun (l, ts) => Ev.ok (some l, ts) else .ok (none, ts)) = .ok (a, rs)) :
    ∃ us, ts = us ++ rs ∧ OptPhrase k P us a := by
  split at h
  · rename_i hat
    obtain ⟨t, vs, rfl, hk⟩ := at?_cons hk hat hp
    obtain ⟨ts2, ha, hh2⟩ := Ev.bind_eq_ok.1 h
    obtain ⟨⟨r, ts3⟩, gr, hh3⟩ := Ev.bind_eq_ok.1 hh2
    cases hh3
    obtain ⟨_, e⟩ := advance_sound ha
    cases e
    obtain ⟨ws, rfl, hb⟩ := hf hp.tail gr
    exact ⟨t :: ws, rfl, .some hk hb⟩
  · cases h
    exact ⟨[], rfl, .none⟩

theorem plan_sound {n : Nat} {ts : List Tok} {a : APlan} {rs : List Tok} (hp : AllProper ts) (h : parsePlan n ts = .ok (a, rs)) :
    ∃ us, ts = us ++ rs ∧ PlanPhrase us a := by
  rw [parsePlan] at h
  obtain ⟨⟨l, ts1⟩, h1, hh1⟩ := Ev.bind_eq_ok.1 h
  obtain ⟨⟨e, ts2⟩, h2, hh2⟩ := Ev.bind_eq_ok.1 hh1
  obtain ⟨⟨c, ts3⟩, h3, hh3⟩ := Ev.bind_eq_ok.1 hh2
  obtain ⟨⟨b, ts4⟩, h4, hh4⟩ := Ev.bind_eq_ok.1 hh3
  cases hh4
  obtain ⟨us, rfl, hl⟩ := opt_sound (k := .at_) rfl lit_sound hp h1
  obtain ⟨vs, rfl, he⟩ := event_sound hp.right h2
  obtain ⟨ws, rfl, hc⟩ := opt_sound (k := .colon) rfl term_sound hp.right.right h3
  obtain ⟨xs, rfl, hb⟩ := opt_sound (k := .arrow) rfl planBody_sound hp.right.right.right h4
  exact ⟨us ++ vs ++ ws ++ xs, by simp, .mk hl he hc hb⟩

/-- Clauses, with the full stop. -/
theorem clause_sound {n : Nat} {ts : List Tok} {a : Clause} {rs : List Tok} (hp : AllProper ts) (h : parseClause n ts = .ok (a, rs)) :
    ∃ us t vs, ts = us ++ t :: vs ∧ rs = t :: vs ∧ ClausePhrase us a ∧ t.kind = .fullstop := by
  rw [parseClause] at h
  obtain ⟨⟨c, ts1⟩, h1, hh⟩ := Ev.bind_eq_ok.1 h
  simp only at hh
  split at hh
  · rename_i hat
    cases hh
    have : ∃ us, ts = us ++ rs ∧ ClausePhrase us a := by
      rw [parsePart.eq_def] at h1
      cases ts with
      | nil => cases h1
      | cons t ts =>
        simp only at h1
        split at h1
        · rw [parseRuleOrBelief] at h1
          obtain ⟨⟨l, ts1⟩, gl, hh1⟩ := Ev.bind_eq_ok.1 h1
          simp only at hh1
          obtain ⟨us, e, hl⟩ := lit_sound hp gl
          rw [e] at hp ⊢
          split at hh1
          · rename_i hat
            obtain ⟨t, vs, rfl, hk⟩ := at?_cons (k := .define) rfl hat hp.right
            obtain ⟨ts2, ha, hh2⟩ := Ev.bind_eq_ok.1 hh1
            obtain ⟨⟨r, ts3⟩, gr, hh3⟩ := Ev.bind_eq_ok.1 hh2
            cases hh3
            obtain ⟨_, e⟩ := advance_sound ha
            cases e
            obtain ⟨ws, rfl, hb⟩ := term_sound hp.right.tail gr
            exact ⟨us ++ t :: ws, by simp, .rule hl hk hb⟩
          · cases hh1
            exact ⟨us, rfl, .belief hl⟩
        · split at h1
          · rw [parseGoal] at h1
            obtain ⟨ts2, ha, hh2⟩ := Ev.bind_eq_ok.1 h1
            obtain ⟨⟨r, ts3⟩, gr, hh3⟩ := Ev.bind_eq_ok.1 hh2
            cases hh3
            obtain ⟨t, e, hk⟩ := expect_sound (k := .exclam) rfl hp ha
            cases e
            obtain ⟨ws, rfl, hb⟩ := lit_sound hp.tail gr
            exact ⟨t :: ws, rfl, .goal hk hb⟩
          · obtain ⟨⟨p, ts3⟩, gr, hh3⟩ := Ev.bind_eq_ok.1 h1
            cases hh3
            obtain ⟨ws, e, hb⟩ := plan_sound hp gr
            exact ⟨ws, e, .plan hb⟩
    obtain ⟨us, rfl, hc⟩ := this
    obtain ⟨t, vs, rfl, hk⟩ := at?_cons (k := .fullstop) rfl hat hp.right
    exact ⟨us, t, vs, rfl, rfl, hc, hk⟩
  · cases hh

end

end Verif
