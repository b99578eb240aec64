import Verif.Lemmas.Print

/-! The tokens of a text of several lines, and the text of a program as lines. -/

namespace Verif

/-- A line: how far it is indented, and its text. -/
abbrev TextLine := Nat × List Char

/-- The text of a line. -/
def TextLine.text (l : TextLine) : List Char := List.replicate l.1 ' ' ++ l.2

/-- Lines with line feeds between them. -/
def joinLines : List (List Char) → List Char
  | [] => []
  | [u] => u
  | u :: us => u ++ '\n' :: joinLines us

/-- More text at the end of the last line. -/
def addLast (v : List Char) : List TextLine → List TextLine
  | [] => []
  | [(i, u)] => [(i, u ++ v)]
  | l :: ls => l :: addLast v ls

/-- Two more spaces. -/
def shift (ls : List TextLine) : List TextLine := ls.map fun (i, u) => (i + 2, u)

/-- The whole text. -/
def allText (ls : List TextLine) : List Char := joinLines (ls.map TextLine.text)

theorem joinLines_append : ∀ {us vs : List (List Char)}, us ≠ [] → vs ≠ [] → joinLines (us ++ vs) = joinLines us ++ '\n' :: joinLines vs
  | [], _, h, _ => absurd rfl h
  | [u], [], _, h => absurd rfl h
  | [u], v :: vs, _, _ => rfl
  | u :: u' :: us, vs, _, h => by
    have := joinLines_append (us := u' :: us) (by simp) h
    simp only [List.cons_append, joinLines] at this ⊢
    rw [this]
    simp

theorem joinLines_cons {u : List Char} {us : List (List Char)} (h : us ≠ []) : joinLines (u :: us) = u ++ '\n' :: joinLines us := by
  cases us with
  | nil => exact absurd rfl h
  | cons v us => rfl

theorem allText_append {ks ls : List TextLine} (h1 : ks ≠ []) (h2 : ls ≠ []) : allText (ks ++ ls) = allText ks ++ '\n' :: allText ls := by
  rw [allText, List.map_append, joinLines_append (by simpa using h1) (by simpa using h2)]
  rfl

theorem allText_cons {k : TextLine} {ls : List TextLine} (h2 : ls ≠ []) : allText (k :: ls) = k.text ++ '\n' :: allText ls := by
  rw [allText, List.map_cons, joinLines_cons (by simpa using h2)]
  rfl

theorem addLast_ne {v : List Char} {ls : List TextLine} (h : ls ≠ []) : addLast v ls ≠ [] := by
  match ls, h with
  | [(i, u)], _ => simp [addLast]
  | l :: l' :: ls, _ => simp [addLast]

theorem addLast_cons {v : List Char} {l : TextLine} {ls : List TextLine} (h : ls ≠ []) : addLast v (l :: ls) = l :: addLast v ls := by
  cases ls with
  | nil => exact absurd rfl h
  | cons l' ls => simp [addLast]

theorem allText_addLast {v : List Char} : ∀ {ls : List TextLine}, ls ≠ [] → allText (addLast v ls) = allText ls ++ v
  | [], h => absurd rfl h
  | [(i, u)], _ => by simp [addLast, allText, joinLines, TextLine.text]
  | l :: l' :: ls, _ => by
    rw [addLast_cons (by simp), allText_cons (addLast_ne (by simp)), allText_addLast (ls := l' :: ls) (by simp),
      allText_cons (ls := l' :: ls) (by simp)]
    simp

theorem addLast_shift {v : List Char} : ∀ {ls : List TextLine}, shift (addLast v ls) = addLast v (shift ls)
  | [] => rfl
  | [(i, u)] => rfl
  | l :: l' :: ls => by
    rw [addLast_cons (by simp)]
    show _ :: shift (addLast v (l' :: ls)) = _
    rw [addLast_shift]
    rfl

theorem addLast_append {v : List Char} {ls : List TextLine} (h : ls ≠ []) : ∀ {ks : List TextLine}, addLast v (ks ++ ls) = ks ++ addLast v ls
  | [] => rfl
  | k :: ks => by
    rw [List.cons_append, addLast_cons (by simp [h]), addLast_append h]
    rfl

/-! ## Indentation -/

theorem indentGo_plain : ∀ {u : List Char}, (∀ c ∈ u, c ≠ '\n') → ∀ (r : List Char), indentGo false (u ++ r) = u ++ indentGo false r
  | [], _, r => rfl
  | c :: u, h, r => by
    rw [List.cons_append, indentGo, if_neg (h c (by simp))]
    simp only [Bool.false_eq_true, if_false, List.nil_append]
    rw [indentGo_plain fun d hd => h d (List.mem_cons_of_mem _ hd)]
    rfl

/-- `indent` on lines that are not empty. -/
theorem indent_lines : ∀ {us : List (List Char)}, (∀ u ∈ us, u ≠ [] ∧ ∀ c ∈ u, c ≠ '\n') →
    indent (joinLines us) = joinLines (us.map fun u => ' ' :: ' ' :: u)
  | [], _ => rfl
  | [u], h => by
    obtain ⟨h1, h2⟩ := h u (by simp)
    cases u with
    | nil => exact absurd rfl h1
    | cons c u =>
      show indent (c :: u) = ' ' :: ' ' :: c :: u
      rw [indent, indentGo, if_neg (h2 c (by simp))]
      have := indentGo_plain (u := u) (fun d hd => h2 d (List.mem_cons_of_mem _ hd)) []
      simp only [List.append_nil] at this
      simp [this, indentGo]
  | u :: v :: us, h => by
    obtain ⟨h1, h2⟩ := h u (by simp)
    have ih := indent_lines (us := v :: us) fun w hw => h w (List.mem_cons_of_mem _ hw)
    rw [joinLines_cons (us := v :: us) (by simp), List.map_cons, joinLines_cons (us := (v :: us).map _) (by simp), ← ih]
    cases u with
    | nil => exact absurd rfl h1
    | cons c u =>
      rw [indent, List.cons_append, indentGo, if_neg (h2 c (by simp)), indentGo_plain fun d hd => h2 d (List.mem_cons_of_mem _ hd)]
      have hne : (joinLines (v :: us)).isEmpty = false := by
        have := (h v (by simp)).1
        cases us with
        | nil => cases v with
          | nil => exact absurd rfl this
          | cons _ _ => rfl
        | cons w us => cases v <;> rfl
      rw [indentGo, if_pos rfl, hne]
      simp [indent]

/-- Lines of programs: not empty, without line feeds. -/
def TextLine.Filled (l : TextLine) : Prop := ∃ c u, l.2 = c :: u ∧ Visible c ∧ PlainText u

theorem TextLine.Filled.plain {l : TextLine} (h : l.Filled) : l.text ≠ [] ∧ PlainText l.text := by
  obtain ⟨i, t⟩ := l
  obtain ⟨c, u, e, hc, hu⟩ := h
  simp only at e
  subst e
  refine ⟨by simp [TextLine.text], ?_⟩
  refine .append ?_ (.cons ⟨Nat.le_of_lt hc.2.1, hc.1⟩ hu)
  intro d hd
  simp only [List.mem_replicate] at hd
  rw [hd.2]
  decide

theorem PlainText.feed {u : List Char} (h : PlainText u) : ∀ c ∈ u, c ≠ '\n' := by
  rintro c hc rfl
  have := (h _ hc).1
  revert this
  decide

theorem indent_shift {ls : List TextLine} (h : ∀ l ∈ ls, l.Filled) : indent (allText ls) = allText (shift ls) := by
  rw [allText, indent_lines]
  · simp only [allText, shift, List.map_map]
    rfl
  · simp only [List.mem_map]
    rintro u ⟨l, hl, rfl⟩
    exact ⟨(h l hl).plain.1, (h l hl).plain.2.feed⟩

theorem shift_filled {ls : List TextLine} (h : ∀ l ∈ ls, l.Filled) : ∀ l ∈ shift ls, l.Filled := by
  simp only [shift, List.mem_map]
  rintro l ⟨⟨i, u⟩, hl, rfl⟩
  exact h (i, u) hl

theorem addLast_filled {v : List Char} (hv : PlainText v) : ∀ {ls : List TextLine}, (∀ l ∈ ls, l.Filled) → ∀ l ∈ addLast v ls, l.Filled
  | [], _ => by simp [addLast]
  | [(i, u)], h => by
    obtain ⟨c, w, e, hc, hw⟩ := h (i, u) (by simp)
    simp only at e
    subst e
    simp only [addLast, List.mem_singleton]
    rintro l rfl
    exact ⟨c, w ++ v, rfl, hc, hw.append hv⟩
  | l :: l' :: ls, h => by
    rw [addLast_cons (by simp)]
    intro x hx
    simp only [List.mem_cons] at hx
    rcases hx with rfl | hx
    · exact h _ (by simp)
    · exact addLast_filled hv (fun y hy => h y (List.mem_cons_of_mem _ hy)) x hx

/-! ## Tokens of lines -/

section
variable [Unicode]

/-- The tokens of lines, the first of them indented by `j` more, the others by `k`; after the
last line there is `r`. -/
inductive LinesLexed : (j k : Nat) → (r : List Char) → List TextLine → List Tok → Prop where
  | last {j k r i u ts} : Lexed u (j + i) r ts → LinesLexed j k r [(i, u)] ts
  | cons {j k r i u ls ts us} : Lexed u (j + i) ['\n'] ts → LinesLexed k k r ls us → LinesLexed j k r ((i, u) :: ls) (ts ++ us)

theorem LinesLexed.append {j k : Nat} {r : List Char} {ls : List TextLine} {us : List Tok} (h2 : LinesLexed k k r ls us) :
    ∀ {ks : List TextLine} {ts : List Tok}, LinesLexed j k ['\n'] ks ts → LinesLexed j k r (ks ++ ls) (ts ++ us)
  | _, _, .last h => .cons h h2
  | _, _, .cons h h' => by
    rw [List.append_assoc]
    exact .cons h (h2.append h')

theorem LinesLexed.shift {j k : Nat} {r : List Char} : ∀ {ls : List TextLine} {ts : List Tok}, LinesLexed (j + 2) (k + 2) r ls ts → LinesLexed j k r (shift ls) ts
  | _, _, .last (i := i) h => .last (by rw [show j + (i + 2) = j + 2 + i by omega]; exact h)
  | _, _, .cons (i := i) h h' => .cons (by rw [show j + (i + 2) = j + 2 + i by omega]; exact h) h'.shift

/-- More text on the last line. -/
theorem LinesLexed.addLast {r v : List Char} {Q : List Tok → Prop} (hv : ∀ col, ∃ us, Lexed v col r us ∧ Q us) :
    ∀ {j k : Nat} {ls : List TextLine} {ts : List Tok}, LinesLexed j k (v ++ r) ls ts → ∃ us, LinesLexed j k r (addLast v ls) (ts ++ us) ∧ Q us
  | j, _, _, _, .last (i := i) (u := u) h => by
    obtain ⟨us, h1, h2⟩ := hv (j + i + u.length)
    exact ⟨us, .last (.append h h1), h2⟩
  | _, _, _, _, .cons (ls := ls) h h' => by
    have hne : ls ≠ [] := by rintro rfl; cases h'
    obtain ⟨us, h1, h2⟩ := h'.addLast hv
    refine ⟨us, ?_, h2⟩
    rw [addLast_cons hne, List.append_assoc]
    exact .cons h h1

/-! ## Small tokens -/

theorem bound_of {r : List Char} (h : ∀ c ∈ r.head?, c.toNat < 128 ∧ isWord c = false ∧ c ≠ '.' ∧ c.isDigit = false) : Bound r := by
  cases r with
  | nil => exact ⟨⟨by simp, by simp⟩, by simp, by simp⟩
  | cons c r =>
    have h1 := h c rfl
    refine ⟨⟨?_, ?_⟩, ?_, ?_⟩
    · simp [h1]
    · intro d r' e; cases e; exact absurd rfl h1.2.2.1
    · simp only [List.head?_cons, Option.mem_def, Option.some.injEq]
      rintro d rfl
      rw [Unicode.digit_ascii _ h1.1, h1.2.2.2]
    · intro d r' e; cases e; exact absurd rfl h1.2.2.1

theorem bound_feed : Bound ['\n'] := bound_of (by simp; decide)
theorem bound_semi (r : List Char) : Bound (';' :: r) := bound_of (by simp; decide)

/-- A full stop at the end of a line. -/
theorem bound_stop_feed {r : List Char} (hr : r = [] ∨ r = ['\n']) : Bound ('.' :: r) := by
  rcases hr with rfl | rfl
  · exact bound_stop
  · refine ⟨⟨by simp; decide, ?_⟩, ?_, ?_⟩
    · intro d r' e; cases e; decide
    · simp only [List.head?_cons, Option.mem_def, Option.some.injEq]
      rintro d rfl
      rw [Unicode.digit_ascii _ (by decide)]; decide
    · intro d r' e; cases e
      rw [Unicode.digit_ascii _ (by decide)]; decide

theorem stop_feed : NextTok .fullstop ['.'] ['\n'] := by
  have hd : Unicode.digit '.' = false := by rw [Unicode.digit_ascii _ (by decide)]; decide
  have hd' : Unicode.digit '\n' = false := by rw [Unicode.digit_ascii _ (by decide)]; decide
  refine fixed_next rfl (by simp [Kind.longer]) ?_ ?_ ?_ ?_
  · exact Re.never_of_starts (Kind.not_nullable _) (by rfl)
  · exact .text_head (by decide)
  · rw [Re.never_iff, ← Re.rest_none]; rfl
  · rw [Re.never_iff]
    rintro ⟨u, r, e, v, w, rfl, h, -⟩
    rcases h with ⟨x, y, rfl, hx, d, z, rfl, ⟨c, rfl, hc⟩, p, q, rfl, ⟨f, rfl, hf⟩, -⟩ | ⟨x, y, rfl, ⟨c, rfl, hc⟩, -⟩
    · cases x with
      | nil =>
        simp only [List.nil_append, List.cons_append, List.cons.injEq] at e
        rw [← e.2.1, hd'] at hf
        cases hf
      | cons a x =>
        have := congrArg List.length e
        simp at this
        omega
    · simp only [List.cons_append, List.cons.injEq] at e
      rw [← e.1, hd] at hc
      cases hc

theorem stop_lexed {r : List Char} (hr : r = [] ∨ r = ['\n']) (col : Nat) : ∃ us, Lexed ['.'] col r us ∧ ∃ t : Tok, us = [t] ∧ t.kind = .fullstop := by
  rcases hr with rfl | rfl
  · exact ⟨_, stop_next.lexed col, _, rfl, rfl⟩
  · exact ⟨_, stop_feed.lexed col, _, rfl, rfl⟩

theorem semi_lexed (r : List Char) (col : Nat) : ∃ us, Lexed [';'] col r us ∧ ∃ t : Tok, us = [t] ∧ t.kind = .semicolon :=
  ⟨_, (symbol_next (k := .semicolon) (r := r) rfl (by simp [Kind.longer]) (by decide)).lexed col, _, rfl, rfl⟩

/-! ## Files -/

/-- White space is skipped. -/
theorem lexed_blank {w r : List Char} (hw : ∀ c ∈ w, Unicode.space c = true ∧ c ≠ '/') (hr : ∀ c ∈ r.head?, Unicode.space c = false) (col : Nat) :
    Lexed w col r [] := by
  cases w with
  | nil => exact .nil _ _
  | cons c w =>
    have hf : Kind.space.re.First (c :: w ++ r) r := by
      refine .seq (.cls (hw c (by simp)).1) ?_
      exact Re.First.star_cls (p := Unicode.space) (u := w) (s := r) (fun d hd => (hw d (List.mem_cons_of_mem _ hd)).1) hr
    have hk : firstKind (c :: w ++ r) Kind.all = some (.space, r) := firstKind_of hf (Kind.mem_all _) (by
      have : Kind.all.takeWhile (· ≠ Kind.space) = [] := by decide
      rw [this]; simp)
    have hn : (Re.text ['/', '*']).rest (c :: w ++ r) = none := Re.Never.rest (.text_head (Ne.symm (hw c (by simp)).2))
    refine ⟨fun t ht => by (cases ht), 1, by simp, fun n => ?_⟩
    rw [scan.eq_def]
    simp only [List.cons_append, Bool.false_eq_true, if_false] at hn hk ⊢
    rw [hn, hk]
    have e : (c :: (w ++ r)).length - r.length = (c :: w).length := by simp; omega
    simp only [e]
    simp

theorem space_space : Unicode.space ' ' = true := by rw [Unicode.space_ascii _ (by decide)]; decide
theorem space_feed : Unicode.space '\n' = true := by rw [Unicode.space_ascii _ (by decide)]; decide

/-- A line is scanned. -/
theorem scanLine_of {u : List Char} {ts : List Tok} (ht : '\t' ∉ u) (h : Lexed u 0 [] ts) : scanLine false u = some (ts.map .tok, false) := by
  obtain ⟨-, m, hm, h⟩ := h
  obtain ⟨k, hk⟩ := Nat.exists_eq_add_of_le hm
  have := h (k + 1)
  rw [List.append_nil, show k + 1 + m = u.length + 1 by omega] at this
  rw [scanLine, expandTabs_id ht, this]
  simp [scan]

/-- Blank lines are empty. -/
def TextLine.Fine (l : TextLine) : Prop := l.Filled ∨ l = (0, [])

omit [Unicode] in
theorem TextLine.Fine.plain {l : TextLine} (h : l.Fine) : PlainText l.text := by
  rcases h with h | rfl
  · exact h.plain.2
  · intro c hc; cases hc

/-- The tokens of an indented line. -/
theorem line_lexed {l : TextLine} (hl : l.Fine) {r : List Char} {ts : List Tok} (h : Lexed l.2 (0 + l.1) r ts) : Lexed l.text 0 r ts := by
  rcases hl with ⟨c, u, e, hc, -⟩ | rfl
  · have := Lexed.append (u := List.replicate l.1 ' ') (lexed_blank (r := l.2 ++ r) (col := 0) (by
      intro d hd
      rw [(List.mem_replicate.1 hd).2]
      exact ⟨space_space, by decide⟩) (by rw [e]; simp [hc.space])) (by simpa using h)
    exact this
  · exact h

omit [Unicode] in
theorem fileLines_plain : ∀ {u : List Char}, (∀ c ∈ u, c ≠ '\n') → u ≠ [] → fileLines u = [u]
  | [], _, h => absurd rfl h
  | [c], h, _ => by
    rw [fileLines, if_neg (h c (by simp))]
    rfl
  | c :: d :: u, h, _ => by
    rw [fileLines, if_neg (h c (by simp)), fileLines_plain (fun x hx => h x (List.mem_cons_of_mem _ hx)) (by simp)]

omit [Unicode] in
theorem fileLines_feed : ∀ {u : List Char} (r : List Char), (∀ c ∈ u, c ≠ '\n') → fileLines (u ++ '\n' :: r) = (u ++ ['\n']) :: fileLines r
  | [], r, _ => by rw [List.nil_append, fileLines, if_pos rfl]; rfl
  | c :: u, r, h => by
    rw [List.cons_append, fileLines, if_neg (h c (by simp)), fileLines_feed r fun x hx => h x (List.mem_cons_of_mem _ hx)]
    rfl

/-- The tokens of a text of several lines. -/
theorem file_lexed : ∀ {ls : List TextLine} {ts : List Tok}, LinesLexed 0 0 [] ls ts → ∀ n : Nat, (∀ l ∈ ls, l.Fine) → (∀ l ∈ ls.getLast?, l.Filled) →
    ∃ evs, scanLines false n (fileLines (allText ls)) = some evs ∧ evs.map Prod.snd = ts.map LexEv.tok := by
  intro ls
  induction ls with
  | nil => intro ts h; cases h
  | cons l ls ih =>
  intro ts h n h1 h2
  cases h with
  | @last _ _ _ i u ts h =>
    have hf := h2 (i, u) rfl
    have hp := hf.plain
    have e : allText [(i, u)] = TextLine.text (i, u) := rfl
    rw [e, fileLines_plain hp.2.feed hp.1, scanLines, scanLine_of hp.2.tab (line_lexed (.inl hf) h)]
    exact ⟨ts.map fun t => (n, .tok t), by simp [scanLines], by simp⟩
  | @cons _ _ _ i u ls ts us h h' =>
    have hne : ls ≠ [] := by rintro rfl; cases h'
    have hf := h1 (i, u) (by simp)
    obtain ⟨evs, e1, e2⟩ := ih h' (n + 1) (fun l hl => h1 l (List.mem_cons_of_mem _ hl)) (by
      intro l hl
      refine h2 l ?_
      rw [List.getLast?_cons]
      cases hg : ls.getLast? with
      | none => exact absurd (List.getLast?_eq_none_iff.1 hg) hne
      | some x => rw [hg] at hl; simpa using hl)
    rw [allText_cons hne, fileLines_feed _ hf.plain.feed, scanLines]
    have hl := Lexed.append (v := ['\n']) (r := []) (line_lexed hf h) (lexed_blank (by simp [space_feed]) (by simp) _)
    rw [scanLine_of (by simp [hf.plain.tab]) hl]
    refine ⟨(ts.map fun t => (n, .tok t)) ++ evs, ?_, ?_⟩
    · simp only [e1]
      simp
    · simp [e2]

end

end Verif
