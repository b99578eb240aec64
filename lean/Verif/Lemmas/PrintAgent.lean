import Verif.Lemmas.PrintScript
import Verif.Lemmas.ScriptAgent

/-! The tokens of printed plans and agents. -/

namespace Verif

section
variable [Floats]

/-! ## Plans -/

/-- The plan can be printed and read again. -/
structure APlan.Shown (p : APlan) : Prop where
  formed : p.Formed
  label : ∀ l ∈ p.label, l.Shown
  head : p.event.head.Shown
  context : ∀ c ∈ p.context, c.Shown
  body : ∀ b ∈ p.body, AStmt.ShownL b

/-- The text of the context. -/
def contextText : Option Ast → List Char
  | some c => " : ".toList ++ c.print
  | none => []

/-- The line with the event. -/
def APlan.eventLine (p : APlan) : TextLine :=
  (0, p.event.print ++ (contextText p.context ++
    (match p.body with | some _ => " <-".toList | none => [])))

/-- The lines of a plan. -/
def APlan.lines (p : APlan) : List TextLine :=
  (match p.label with | some l => [(0, '@' :: l.print)] | none => []) ++ p.eventLine ::
    (match p.body with | some b => shift (bodyLines (AStmt.liness b)) | none => [])

theorem event_filled {p : APlan} (hs : p.Shown) : p.eventLine.Filled := by
  have h1 : PlainText p.event.head.print := print_plain _ hs.head
  have h2 : PlainText p.event.goalType.lexeme := by
    rcases hs.formed.goalType with h | h | h <;> rw [h] <;> (unfold PlainText; decide)
  have h3 : PlainText (contextText p.context) := by
    cases h : p.context with
    | none => exact .nil
    | some c => exact PlainText.append (by unfold PlainText; decide) (print_plain c (hs.context c h))
  have h4 : PlainText (match p.body with | some _ => " <-".toList | none => []) := by
    cases h : p.body with
    | none => exact .nil
    | some c => show PlainText " <-".toList; unfold PlainText; decide
  have h5 : ∃ c, p.event.trigger.lexeme = [c] ∧ Visible c := by
    cases p.event.trigger
    · exact ⟨'+', rfl, by decide, by decide, by decide, by decide, by decide⟩
    · exact ⟨'-', rfl, by decide, by decide, by decide, by decide, by decide⟩
  obtain ⟨c, e, hc⟩ := h5
  refine ⟨c, _, by rw [APlan.eventLine, AEvent.print, e]; rfl, hc, ?_⟩
  exact .append (.append h2 h1) (.append h3 h4)

theorem plan_filled {p : APlan} (hs : p.Shown) : ∀ l ∈ p.lines, l.Filled := by
  intro l hl
  simp only [APlan.lines, List.mem_append, List.mem_cons] at hl
  rcases hl with hl | rfl | hl
  · cases h : p.label with
    | none => rw [h] at hl; simp at hl
    | some a =>
      rw [h] at hl
      simp only [List.mem_singleton] at hl
      subst hl
      exact ⟨'@', a.print, rfl, ⟨by decide, by decide, by decide, by decide, by decide⟩, print_plain a (hs.label a h)⟩
  · exact event_filled hs
  · cases h : p.body with
    | none => rw [h] at hl; simp at hl
    | some b =>
      rw [h] at hl
      exact shift_filled (bodyLines_filled (liness_filled b (hs.body b h))) l hl

theorem plan_lines_ne (p : APlan) : p.lines ≠ [] := by simp [APlan.lines]

theorem plan_print {p : APlan} (hs : p.Shown) : p.print = allText p.lines := by
  have e : ∀ ls, allText ((match p.label with | some l => [((0, '@' :: l.print) : TextLine)] | none => []) ++ p.eventLine :: ls) =
      (match p.label with | some l => '@' :: l.print ++ ['\n'] | none => []) ++ allText (p.eventLine :: ls) := by
    intro ls
    cases p.label with
    | none => rfl
    | some l =>
      rw [allText_append (by simp) (by simp)]
      simp [allText, joinLines, TextLine.text]
  have el : p.eventLine.text = p.event.print ++ (contextText p.context ++
    (match p.body with | some _ => " <-".toList | none => [])) := rfl
  rw [APlan.print, APlan.lines, e]
  cases h : p.body with
  | none =>
    simp only [h] at el
    simp only [allText, List.map_cons, List.map_nil, joinLines, el]
    cases p.label <;> cases p.context <;> simp [contextText]
  | some b =>
    have hb : b ≠ [] := by rintro rfl; exact hs.formed.body h
    have hne : bodyLines (AStmt.liness b) ≠ [] := bodyLines_ne (by simpa [liness_nil] using hb) (liness_ne b)
    have hf := bodyLines_filled (liness_filled b (hs.body b h))
    have et : printBody b = allText (bodyLines (AStmt.liness b)) := by
      rw [printBody, prints_lines b (hs.body b h), joinStmts_lines (liness_ne b)]
    simp only [h] at el
    rw [allText_cons (by simpa [shift] using hne), el]
    simp only
    rw [et, indent_shift hf]
    cases p.label <;> cases p.context <;> simp [contextText]

section
variable [Unicode]

theorem lit_lexed {a : Ast} (hl : a.IsLit) (hs : a.Shown) (col : Nat) {r : List Char} (hr : Bound r) : ∃ ts, Lexed a.print col r ts ∧ LitPhrase ts a.raw := by
  obtain ⟨f, us, as, e⟩ := hl
  obtain ⟨ts, h1, -, h2⟩ := shown_lexed a hs col r hr
  exact ⟨ts, h1, h2 f us as e⟩

theorem term_lexed {a : Ast} (hs : a.Shown) (col : Nat) {r : List Char} (hr : Bound r) : ∃ ts, Lexed a.print col r ts ∧ Phrase 0 ts a.raw := by
  obtain ⟨ts, h1, h2, -⟩ := shown_lexed a hs col r hr
  have := a.top_le
  exact ⟨ts, h1, h2.lift (by omega) (by omega)⟩

omit [Floats] in
theorem trigger_next (tr : Trigger) {r : List Char} (hr : ∀ c ∈ r.head?, c ≠ '+') : NextTok tr.kind tr.lexeme r := by
  cases tr <;> refine symbol_next rfl ?_ (by decide) <;> intro d hd <;> have := hr d hd <;> simp [Kind.longer, Trigger.kind, this]

theorem event_lexed {e : AEvent} (hg : e.goalType = .belief ∨ e.goalType = .achievement ∨ e.goalType = .test) (hl : e.head.IsLit) (hs : e.head.Shown)
    (col : Nat) {r : List Char} (hr : Bound r) : ∃ ts, Lexed e.print col r ts ∧ EventPhrase ts ⟨e.trigger, e.goalType, e.head.raw⟩ := by
  obtain ⟨c, u, ec, hc⟩ := print_head hs
  have hf := print_first hs ec
  obtain ⟨tr, g, a⟩ := e
  simp only at *
  have ht : tr.lexeme.length = 1 := by cases tr <;> rfl
  rcases hg with rfl | rfl | rfl
  · obtain ⟨ts, h1, h2⟩ := lit_lexed hl hs (col + tr.lexeme.length) hr
    have l1 := Lexed.append ((trigger_next tr (r := a.print ++ r) (by rw [ec]; simpa using hf.2)).lexed col) h1
    exact ⟨_, by simpa [AEvent.print, GoalType.lexeme] using l1, .belief (t := ⟨_, tr.kind, _, _⟩) rfl h2⟩
  · obtain ⟨ts, h1, h2⟩ := lit_lexed hl hs (col + tr.lexeme.length + 1) hr
    have l2 := Lexed.append ((symbol_next (k := .exclam) (c := '!') (t := []) (r := a.print ++ r) rfl (by rw [ec]; simpa [Kind.longer] using hf.1) (by decide)).lexed
      (col + tr.lexeme.length)) h1
    have l1 := Lexed.append ((trigger_next tr (r := ['!'] ++ a.print ++ r) (by simp)).lexed col) l2
    exact ⟨_, by simpa [AEvent.print, GoalType.lexeme] using l1, .achievement (t := ⟨_, tr.kind, _, _⟩) (u := ⟨_, .exclam, _, _⟩) rfl rfl h2⟩
  · obtain ⟨ts, h1, h2⟩ := lit_lexed hl hs (col + tr.lexeme.length + 1) hr
    have l2 := Lexed.append ((symbol_next (k := .question) (c := '?') (t := []) (r := a.print ++ r) rfl (by simp [Kind.longer]) (by decide)).lexed
      (col + tr.lexeme.length)) h1
    have l1 := Lexed.append ((trigger_next tr (r := ['?'] ++ a.print ++ r) (by simp)).lexed col) l2
    exact ⟨_, by simpa [AEvent.print, GoalType.lexeme] using l1, .test (t := ⟨_, tr.kind, _, _⟩) (u := ⟨_, .question, _, _⟩) rfl rfl h2⟩

omit [Floats] in
theorem space_head {v : List Char} {c : Char} {u : List Char} (e : v = c :: u) (hc : Visible c) (r : List Char) : ∀ x ∈ (v ++ r).head?, Unicode.space x = false := by
  rw [e]; simp [hc.space]

/-- The context. -/
theorem context_lexed (o : Option Ast) (hs : ∀ c ∈ o, c.Shown) (col : Nat) {r : List Char} (hr : Bound r) :
    ∃ ts, Lexed (contextText o) col r ts ∧ OptPhrase .colon (Phrase 0) ts (o.map Ast.raw) := by
  cases o with
  | none => exact ⟨[], .nil _ _, .none⟩
  | some c =>
    have hc := hs c rfl
    obtain ⟨d, u, e, hd⟩ := print_head hc
    have colon_sp : Unicode.space ':' = false := by rw [Unicode.space_ascii _ (by decide)]; decide
    obtain ⟨ts, h1, h2⟩ := term_lexed hc (col + 1 + 1 + 1) hr
    have l3 := Lexed.append (lexed_space (space_head e hd r) (col + 1 + 1)) h1
    have l2 := Lexed.append ((symbol_next (k := .colon) (c := ':') (t := []) (r := [' '] ++ c.print ++ r) rfl (by simp [Kind.longer]) (by decide)).lexed (col + 1)) l3
    have l1 := Lexed.append (lexed_space (r := [':'] ++ ([' '] ++ c.print) ++ r) (by simp [colon_sp]) col) l2
    exact ⟨_, by simpa [contextText] using l1, .some (t := ⟨_, .colon, _, _⟩) rfl h2⟩

omit [Floats] in
theorem arrow_lexed (col : Nat) : ∃ t : Tok, Lexed " <-".toList col ['\n'] [t] ∧ t.kind = .arrow := by
  have lt_sp : Unicode.space '<' = false := by rw [Unicode.space_ascii _ (by decide)]; decide
  have l2 := (symbol_next (k := .arrow) (c := '<') (t := ['-']) (r := ['\n']) rfl (by simp [Kind.longer]) (by decide)).lexed (col + 1)
  have l1 := Lexed.append (lexed_space (r := ['<', '-'] ++ ['\n']) (by simp [lt_sp]) col) l2
  exact ⟨_, l1, rfl⟩

/-- The tokens of a plan. -/
theorem plan_lexed {p : APlan} (hs : p.Shown) {r : List Char} (hr : Bound r) : ∃ ts, LinesLexed 0 0 r p.lines ts ∧ PlanPhrase ts (p.read Ast.raw) := by
  -- event, context and body
  have main : ∃ us vs ws, LinesLexed 0 0 r (p.eventLine :: (match p.body with | some b => shift (bodyLines (AStmt.liness b)) | none => [])) (us ++ vs ++ ws) ∧
      EventPhrase us ⟨p.event.trigger, p.event.goalType, p.event.head.raw⟩ ∧ OptPhrase .colon (Phrase 0) vs (p.context.map Ast.raw) ∧
      OptPhrase .arrow PlanBodyPhrase ws (p.body.map (AStmt.reads Ast.raw)) := by
    cases h : p.body with
    | none =>
      obtain ⟨vs, h3, h4⟩ := context_lexed p.context hs.context (0 + p.event.print.length) hr
      obtain ⟨us, h1, h2⟩ := event_lexed hs.formed.goalType hs.formed.head hs.head 0
        (r := contextText p.context ++ r) (by
          cases p.context with
          | none => exact hr
          | some c => exact bound_cons (c := ' ') (by simp) _)
      refine ⟨us, vs, [], ?_, h2, h4, .none⟩
      have := Lexed.append h1 h3
      simp only [APlan.eventLine, h, List.append_nil]
      exact .last this
    | some b =>
      have hb : b ≠ [] := by rintro rfl; exact hs.formed.body h
      obtain ⟨ws, h5, h6⟩ := body_lexed b hb (hs.body b h) (0 + 2) (0 + 2) r hr
      obtain ⟨t, h7, h8⟩ := arrow_lexed (0 + p.event.print.length + (contextText p.context).length)
      obtain ⟨vs, h3, h4⟩ := context_lexed p.context hs.context (0 + p.event.print.length) (r := " <-".toList ++ ['\n']) (bound_cons (c := ' ') (by simp) _)
      obtain ⟨us, h1, h2⟩ := event_lexed hs.formed.goalType hs.formed.head hs.head 0
        (r := (contextText p.context ++ " <-".toList) ++ ['\n']) (by
          cases p.context with
          | none => exact bound_cons (c := ' ') (by simp) _
          | some c => exact bound_cons (c := ' ') (by simp) _)
      refine ⟨us, vs, t :: ws, ?_, h2, h4, .some h8 h6⟩
      have l := Lexed.append h1 (Lexed.append h3 h7)
      have := LinesLexed.cons (i := 0) (j := 0) (k := 0) l h5.shift
      simp only [APlan.eventLine, h]
      simpa using this
  obtain ⟨us, vs, ws, h1, h2, h3, h4⟩ := main
  cases h : p.label with
  | none =>
    have pp := PlanPhrase.mk (l := none) .none h2 h3 h4
    have e : (⟨none, ⟨p.event.trigger, p.event.goalType, p.event.head.raw⟩, p.context.map Ast.raw, p.body.map (AStmt.reads Ast.raw)⟩ : APlan) = p.read Ast.raw := by
      simp [APlan.read, h]
    rw [e] at pp
    refine ⟨_, ?_, pp⟩
    simp only [APlan.lines, h]
    exact h1
  | some l =>
    obtain ⟨ts, h5, h6⟩ := lit_lexed (hs.formed.label l h) (hs.label l h) (0 + 1) bound_feed
    have l1 := Lexed.append ((symbol_next (k := .at_) (c := '@') (t := []) (r := l.print ++ ['\n']) rfl (by simp [Kind.longer]) (by decide)).lexed 0) h5
    have l2 := LinesLexed.cons (i := 0) (j := 0) (k := 0) l1 h1
    have pp := PlanPhrase.mk (l := some l.raw) (.some (t := ⟨['@'], .at_, 0, 0 + 1⟩) rfl h6) h2 h3 h4
    have e : (⟨some l.raw, ⟨p.event.trigger, p.event.goalType, p.event.head.raw⟩, p.context.map Ast.raw, p.body.map (AStmt.reads Ast.raw)⟩ : APlan) = p.read Ast.raw := by
      simp [APlan.read, h]
    rw [e] at pp
    refine ⟨_, ?_, pp⟩
    simp only [APlan.lines, h]
    simpa using l2

end

/-! ## Clauses -/

/-- The lines of a clause, without the full stop. -/
def Clause.lines : Clause → List TextLine
  | .rule r => [(0, r.print)]
  | .belief b => [(0, b.print)]
  | .goal g => [(0, '!' :: g.print)]
  | .plan p => p.lines

omit [Floats] in
/-- The clause as it is read. -/
def Clause.read (f : Ast → Ast) : Clause → Clause
  | .rule r => .rule (r.read f)
  | .belief b => .belief (f b)
  | .goal g => .goal (f g)
  | .plan p => .plan (p.read f)

/-- The clause can be printed and read again. -/
def Clause.Shown : Clause → Prop
  | .rule r => r.head.IsLit ∧ r.head.Shown ∧ r.consequence.Shown
  | .belief b => b.IsLit ∧ b.Shown
  | .goal g => g.IsLit ∧ g.Shown
  | .plan p => p.Shown

theorem clause_lines_ne (c : Clause) : c.lines ≠ [] := by
  cases c with
  | plan p => exact plan_lines_ne p
  | _ => simp [Clause.lines]

theorem clause_filled {c : Clause} (hs : c.Shown) : ∀ l ∈ c.lines, l.Filled := by
  cases c with
  | plan p => exact plan_filled hs
  | rule r =>
    simp only [Clause.lines, List.mem_singleton]
    rintro l rfl
    obtain ⟨d, u, e, hd⟩ := print_head hs.2.1
    have hp := print_plain _ hs.2.1
    rw [e] at hp
    refine ⟨d, u ++ " :- ".toList ++ r.consequence.print, by simp [ARule.print, e], hd, ?_⟩
    exact .append (.append (fun x hx => hp x (List.mem_cons_of_mem _ hx)) (by unfold PlainText; decide)) (print_plain _ hs.2.2)
  | belief b =>
    simp only [Clause.lines, List.mem_singleton]
    rintro l rfl
    exact filled_append (w := []) (by simp) (print_head hs.2) (print_plain _ hs.2) 0
  | goal g =>
    simp only [Clause.lines, List.mem_singleton]
    rintro l rfl
    exact ⟨'!', g.print, rfl, ⟨by decide, by decide, by decide, by decide, by decide⟩, print_plain _ hs.2⟩

section
variable [Unicode]

/-- The tokens of a clause. -/
theorem clause_lexed {c : Clause} (hs : c.Shown) {r : List Char} (hr : Bound r) : ∃ ts, LinesLexed 0 0 r c.lines ts ∧ ClausePhrase ts (c.read Ast.raw) := by
  cases c with
  | plan p =>
    obtain ⟨ts, h1, h2⟩ := plan_lexed hs hr
    exact ⟨ts, h1, .plan h2⟩
  | belief b =>
    obtain ⟨ts, h1, h2⟩ := lit_lexed hs.1 hs.2 (0 + 0) hr
    exact ⟨ts, .last h1, .belief h2⟩
  | goal g =>
    obtain ⟨d, u, e, -⟩ := print_head hs.2
    obtain ⟨ts, h1, h2⟩ := lit_lexed hs.1 hs.2 (0 + 0 + 1) hr
    have l1 := Lexed.append ((symbol_next (k := .exclam) (c := '!') (t := []) (r := g.print ++ r) rfl
      (by rw [e]; simpa [Kind.longer] using (print_first hs.2 e).1) (by decide)).lexed (0 + 0)) h1
    exact ⟨_, .last l1, .goal (t := ⟨_, .exclam, _, _⟩) rfl h2⟩
  | rule x =>
    obtain ⟨hl, hh, hc⟩ := hs
    obtain ⟨d, u, e, hd⟩ := print_head hc
    have colon_sp : Unicode.space ':' = false := by rw [Unicode.space_ascii _ (by decide)]; decide
    obtain ⟨us, h3, h4⟩ := term_lexed hc (0 + 0 + x.head.print.length + 1 + 2 + 1) hr
    have l4 := Lexed.append (lexed_space (space_head e hd r) (0 + 0 + x.head.print.length + 1 + 2)) h3
    have l3 := Lexed.append ((symbol_next (k := .define) (c := ':') (t := ['-']) (r := [' '] ++ x.consequence.print ++ r) rfl (by simp [Kind.longer]) (by decide)).lexed
      (0 + 0 + x.head.print.length + 1)) l4
    have l2 := Lexed.append (lexed_space (r := [':', '-'] ++ ([' '] ++ x.consequence.print) ++ r) (by simp [colon_sp]) (0 + 0 + x.head.print.length)) l3
    obtain ⟨ts, h1, h2⟩ := lit_lexed hl hh (0 + 0) (r := [' '] ++ ([':', '-'] ++ ([' '] ++ x.consequence.print)) ++ r) (bound_cons (c := ' ') (by simp) _)
    have l1 := Lexed.append h1 l2
    refine ⟨_, .last (by simpa [ARule.print] using l1), .rule (t := ⟨_, .define, _, _⟩) h2 rfl h4⟩

/-- Clauses with full stops. -/
inductive Clauses : List Tok → List Clause → Prop where
  | nil : Clauses [] []
  | snoc {ts cs us c t} : Clauses ts cs → ClausePhrase us c → t.kind = .fullstop → Clauses (ts ++ (us ++ [t])) (cs ++ [c])

theorem Clauses.script {files : List Char → Option (List Tok)} {inc : List (List Char)} {file : List Char} :
    ∀ {ts : List Tok} {cs : List Clause}, Clauses ts cs → ∀ {us : List Tok} {ds : List Clause}, Script files inc file us ds → Script files inc file (ts ++ us) (cs ++ ds)
  | _, _, .nil, _, _, h => h
  | _, _, .snoc hc hp ht, _, _, h => by
    have := hc.script (Script.clause hp ht h)
    simpa using this

omit [Floats] in
theorem LinesLexed.proper : ∀ {j k : Nat} {r : List Char} {ls : List TextLine} {ts : List Tok}, LinesLexed j k r ls ts → AllProper ts
  | _, _, _, _, _, .last h => h.1
  | _, _, _, _, _, .cons h h' => by
    intro t ht
    simp only [List.mem_append] at ht
    exact ht.elim (h.1 t) (h'.proper t)

end

/-! ## Agents -/

omit [Floats] in
/-- Items with full stops, after other lines, with blank lines between them or not. -/
def addItems (blank : Bool) : List TextLine → List (List TextLine) → List TextLine
  | ks, [] => ks
  | ks, ls :: lss => addItems blank (ks ++ (if ks.isEmpty then [] else if blank then [(0, [])] else []) ++ addLast ['.'] ls) lss

omit [Floats] in
/-- A blank line before the beliefs and the goals. -/
def gapLines {α : Type} (ks : List TextLine) (xs : List α) : List TextLine :=
  if xs.isEmpty then ks else if ks.isEmpty then [] else ks ++ [(0, [])]

/-- The lines of an agent. -/
def AAgent.lines (a : AAgent) : List TextLine :=
  let ks := addItems false [] (a.rules.map fun r => (Clause.rule r).lines)
  let ks := addItems false (gapLines ks a.beliefs) (a.beliefs.map fun r => (Clause.belief r).lines)
  let ks := addItems false (gapLines ks a.goals) (a.goals.map fun r => (Clause.goal r).lines)
  addItems true ks (a.plans.map fun r => (Clause.plan r).lines)

omit [Floats] in
/-- No text, no lines. -/
def Textual (ks : List TextLine) : Prop := ks = [] ∨ allText ks ≠ []

omit [Floats] in
theorem Textual.isEmpty {ks : List TextLine} (h : Textual ks) : (allText ks).isEmpty = ks.isEmpty := by
  rcases h with rfl | h
  · rfl
  · cases ks with
    | nil => rfl
    | cons k ks => cases ht : allText (k :: ks) with
      | nil => exact absurd ht h
      | cons c u => rfl

omit [Floats] in
/-- The lines after one more item. -/
theorem item_text {blank : Bool} {ks ls : List TextLine} (hk : Textual ks) (hl : ls ≠ []) :
    allText (ks ++ (if ks.isEmpty then [] else if blank then [(0, [])] else []) ++ addLast ['.'] ls) =
      allText ks ++ (if (allText ks).isEmpty then [] else if blank then ['\n', '\n'] else ['\n']) ++ allText ls ++ ['.'] := by
  rw [hk.isEmpty]
  cases ks with
  | nil =>
    have : allText ([] : List TextLine) = [] := rfl
    simp only [List.isEmpty_nil, if_true, List.nil_append, this, allText_addLast hl]
  | cons k ks =>
    simp only [List.isEmpty_cons, Bool.false_eq_true, if_false]
    rw [allText_append (by simp) (addLast_ne hl), allText_addLast hl]
    cases blank with
    | false => simp
    | true =>
      simp only [if_true]
      rw [allText_append (by simp) (by simp)]
      simp [allText, joinLines, TextLine.text]

omit [Floats] in
theorem item_textual {blank : Bool} {ks ls : List TextLine} (hk : Textual ks) (hl : ls ≠ []) :
    Textual (ks ++ (if ks.isEmpty then [] else if blank then [(0, [])] else []) ++ addLast ['.'] ls) :=
  .inr (by rw [item_text hk hl]; simp)

omit [Floats] in
theorem printAll_lines {blank : Bool} : ∀ (lss : List (List TextLine)) {ks : List TextLine}, Textual ks → (∀ ls ∈ lss, ls ≠ []) →
    printAll (if blank then ['\n', '\n'] else ['\n']) (allText ks) (lss.map allText) = allText (addItems blank ks lss) ∧ Textual (addItems blank ks lss)
  | [], _, hk, _ => ⟨rfl, hk⟩
  | ls :: lss, ks, hk, h => by
    have hl := h ls (by simp)
    have ih := printAll_lines (blank := blank) lss (item_textual (blank := blank) hk hl) fun l hl => h l (List.mem_cons_of_mem _ hl)
    rw [item_text hk hl] at ih
    exact ih

omit [Floats] in
theorem gap_lines {α : Type} {ks : List TextLine} (hk : Textual ks) (xs : List α) : gap (allText ks) xs = allText (gapLines ks xs) ∧ Textual (gapLines ks xs) := by
  unfold gap gapLines
  split
  · exact ⟨rfl, hk⟩
  · rw [hk.isEmpty]
    split
    · next h =>
      have : ks = [] := by simpa using h
      subst this
      exact ⟨rfl, .inl rfl⟩
    · next h =>
      have hne : ks ≠ [] := by simpa using h
      have e : allText (ks ++ [(0, [])]) = allText ks ++ ['\n'] := by
        rw [allText_append hne (by simp)]
        simp [allText, joinLines, TextLine.text]
      exact ⟨e.symm, .inr (by rw [e]; simp)⟩

/-- The agent can be printed and read again. -/
structure AAgent.Shown (a : AAgent) : Prop where
  rules : ∀ r ∈ a.rules, (Clause.rule r).Shown
  beliefs : ∀ b ∈ a.beliefs, (Clause.belief b).Shown
  goals : ∀ g ∈ a.goals, (Clause.goal g).Shown
  plans : ∀ p ∈ a.plans, p.Shown

/-- The text of an agent is that of its lines. -/
theorem agent_print {a : AAgent} (hs : a.Shown) : a.print = allText a.lines := by
  have lists : ∀ {α : Type} (f : α → Clause) (xs : List α), ∀ ls ∈ xs.map (fun x => (f x).lines), ls ≠ [] := by
    intro α f xs ls hls
    obtain ⟨x, -, rfl⟩ := List.mem_map.1 hls
    exact clause_lines_ne _
  have h1 := printAll_lines (blank := false) (a.rules.map fun r => (Clause.rule r).lines) (ks := []) (.inl rfl) (lists _ _)
  have g1 := gap_lines h1.2 a.beliefs
  have h2 := printAll_lines (blank := false) (a.beliefs.map fun r => (Clause.belief r).lines) g1.2 (lists _ _)
  have g2 := gap_lines h2.2 a.goals
  have h3 := printAll_lines (blank := false) (a.goals.map fun r => (Clause.goal r).lines) g2.2 (lists _ _)
  have h4 := printAll_lines (blank := true) (a.plans.map fun r => (Clause.plan r).lines) h3.2 (lists _ _)
  have e1 : a.rules.map ARule.print = (a.rules.map fun r => (Clause.rule r).lines).map allText := by
    rw [List.map_map]; rfl
  have e2 : a.beliefs.map Ast.print = (a.beliefs.map fun r => (Clause.belief r).lines).map allText := by
    rw [List.map_map]; rfl
  have e3 : (a.goals.map fun g => '!' :: g.print) = (a.goals.map fun r => (Clause.goal r).lines).map allText := by
    rw [List.map_map]; rfl
  have e4 : a.plans.map APlan.print = (a.plans.map fun r => (Clause.plan r).lines).map allText := by
    rw [List.map_map]
    exact List.map_congr_left fun p hp => plan_print (hs.plans p hp)
  rw [AAgent.print]
  simp only [e1, e2, e3, e4]
  have z : allText [] = [] := rfl
  simp only [Bool.false_eq_true, if_false, if_true] at h1 h2 h3 h4
  rw [z] at h1
  rw [h1.1, g1.1, h2.1, g2.1, h3.1, h4.1]
  rfl

section
variable [Unicode]

/-- The lines are those of the clauses. -/
structure LinesOf (ks : List TextLine) (cs : List Clause) : Prop where
  fine : ∀ l ∈ ks, l.Fine
  lexed : (ks = [] ∧ cs = []) ∨ ∀ r, r = [] ∨ r = ['\n'] → ∃ ts, LinesLexed 0 0 r ks ts ∧ Clauses ts cs

omit [Floats] [Unicode] in
/-- The last line is not blank. -/
def LastFilled (ks : List TextLine) : Prop := ∀ l ∈ ks.getLast?, l.Filled

omit [Floats] [Unicode] in
theorem LastFilled.append {ks ls : List TextLine} (hl : ls ≠ []) (h : ∀ l ∈ ls, l.Filled) : LastFilled (ks ++ ls) := by
  intro l hm
  rw [List.getLast?_append] at hm
  cases hg : ls.getLast? with
  | none => exact absurd (List.getLast?_eq_none_iff.1 hg) hl
  | some x =>
    rw [hg] at hm
    simp at hm
    subst hm
    exact h _ (List.mem_of_getLast? hg)

theorem item_of {blank : Bool} {ks : List TextLine} {cs : List Clause} (h : LinesOf ks cs) {c : Clause} (hc : c.Shown) :
    LinesOf (ks ++ (if ks.isEmpty then [] else if blank then [(0, [])] else []) ++ addLast ['.'] c.lines) (cs ++ [c.read Ast.raw]) ∧
      LastFilled (ks ++ (if ks.isEmpty then [] else if blank then [(0, [])] else []) ++ addLast ['.'] c.lines) := by
  have hf := addLast_filled (v := ['.']) (.cons (by decide) .nil) (clause_filled hc)
  refine ⟨⟨?_, .inr fun r hr => ?_⟩, .append (addLast_ne (clause_lines_ne c)) hf⟩
  · intro l hl
    simp only [List.mem_append] at hl
    rcases hl with (hl | hl) | hl
    · exact h.fine l hl
    · right
      split at hl
      · simp at hl
      · split at hl <;> simp at hl
        exact hl
    · exact .inl (hf l hl)
  · obtain ⟨us, h1, h2⟩ := clause_lexed hc (r := '.' :: r) (bound_stop_feed hr)
    obtain ⟨vs, h3, t, rfl, ht⟩ := LinesLexed.addLast (v := ['.']) (r := r) (fun col => stop_lexed hr col) h1
    rcases h.lexed with ⟨rfl, rfl⟩ | hl
    · exact ⟨_, by simpa using h3, .snoc .nil h2 ht⟩
    · obtain ⟨ts, h4, h5⟩ := hl ['\n'] (.inr rfl)
      have hne : ks ≠ [] := by rintro rfl; cases h4
      refine ⟨_, ?_, .snoc h5 h2 ht⟩
      rw [if_neg (by simpa using hne), List.append_assoc]
      refine .append ?_ h4
      cases blank with
      | false => simpa using h3
      | true =>
        have : LinesLexed 0 0 ['\n'] [(0, [])] [] := .last (.nil _ _)
        simpa using h3.append this

theorem items_of {blank : Bool} : ∀ (ds : List Clause) {ks : List TextLine} {cs : List Clause}, LinesOf ks cs → (LastFilled ks ∨ ds ≠ []) → (∀ d ∈ ds, d.Shown) →
    LinesOf (addItems blank ks (ds.map Clause.lines)) (cs ++ ds.map (Clause.read Ast.raw)) ∧ LastFilled (addItems blank ks (ds.map Clause.lines))
  | [], ks, cs, h, hl, _ => by
    simp only [List.map_nil, addItems, List.append_nil]
    exact ⟨h, hl.elim id fun h => absurd rfl h⟩
  | d :: ds, ks, cs, h, _, hd => by
    obtain ⟨h1, h2⟩ := item_of (blank := blank) h (hd d (by simp))
    have := items_of (blank := blank) ds h1 (.inl h2) fun x hx => hd x (List.mem_cons_of_mem _ hx)
    simpa [addItems] using this

omit [Floats] [Unicode] in
theorem gapLines_last {α : Type} {ks : List TextLine} (h : LastFilled ks) (xs : List α) : LastFilled (gapLines ks xs) ∨ xs ≠ [] := by
  cases xs with
  | nil => exact .inl h
  | cons x xs => exact .inr (by simp)

theorem gapLines_of {α : Type} {ks : List TextLine} {cs : List Clause} (h : LinesOf ks cs) (xs : List α) : LinesOf (gapLines ks xs) cs := by
  unfold gapLines
  split
  · exact h
  · split
    · next he =>
      have : ks = [] := by simpa using he
      subst this
      exact h
    · refine ⟨?_, ?_⟩
      · intro l hl
        simp only [List.mem_append, List.mem_singleton] at hl
        rcases hl with hl | rfl
        · exact h.fine l hl
        · exact .inr rfl
      · rcases h.lexed with ⟨rfl, rfl⟩ | hl
        · next he => exact absurd rfl he
        · refine .inr fun r hr => ?_
          obtain ⟨ts, h4, h5⟩ := hl ['\n'] (.inr rfl)
          have : LinesLexed 0 0 r [(0, [])] [] := .last (.nil _ _)
          refine ⟨_, this.append h4, by simpa using h5⟩

omit [Floats] [Unicode] in
/-- The clauses of an agent, in the order in which they are printed. -/
def AAgent.clauses (a : AAgent) : List Clause := a.rules.map .rule ++ a.beliefs.map .belief ++ a.goals.map .goal ++ a.plans.map .plan

omit [Floats] [Unicode] in
theorem agentOf_clauses (a : AAgent) : agentOf a.clauses = a := by
  obtain ⟨rs, bs, gs, ps⟩ := a
  have none : ∀ {α β : Type} (l : List α), List.filterMap (fun _ => (none : Option β)) l = [] := by
    intro α β l
    induction l with
    | nil => rfl
    | cons x l ih => simp
  simp [AAgent.clauses, agentOf, List.filterMap_map, Function.comp_def, none]

theorem agent_lexed {a : AAgent} (hs : a.Shown) : LinesOf a.lines (a.read Ast.raw).clauses ∧ LastFilled a.lines := by
  have h1 := items_of (blank := false) (a.rules.map .rule) (ks := []) (cs := []) ⟨by simp, .inl ⟨rfl, rfl⟩⟩ (.inl (by intro l hl; cases hl)) (by
    intro d hd; obtain ⟨x, hx, rfl⟩ := List.mem_map.1 hd; exact hs.rules x hx)
  have h2 := items_of (blank := false) (a.beliefs.map .belief) (gapLines_of h1.1 a.beliefs) ((gapLines_last h1.2 a.beliefs).imp id (by simp)) (by
    intro d hd; obtain ⟨x, hx, rfl⟩ := List.mem_map.1 hd; exact hs.beliefs x hx)
  have h3 := items_of (blank := false) (a.goals.map .goal) (gapLines_of h2.1 a.goals) ((gapLines_last h2.2 a.goals).imp id (by simp)) (by
    intro d hd; obtain ⟨x, hx, rfl⟩ := List.mem_map.1 hd; exact hs.goals x hx)
  have h4 := items_of (blank := true) (a.plans.map .plan) h3.1 (.inl h3.2) (by
    intro d hd; obtain ⟨x, hx, rfl⟩ := List.mem_map.1 hd; exact hs.plans x hx)
  simp only [List.map_map] at h4
  simpa [AAgent.lines, AAgent.clauses, AAgent.read, Function.comp_def, Clause.read] using h4

end

end

end Verif
