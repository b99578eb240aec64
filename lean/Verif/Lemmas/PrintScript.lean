import Verif.Lemmas.PrintLines
import Verif.Lemmas.Complete
import Verif.Spec.Printed

/-! The tokens of printed statements and plans. -/

namespace Verif

section
variable [Floats]

/-! ## Lines of statements -/

/-- Statements with semicolons between them. -/
def bodyLines : List (List TextLine) → List TextLine
  | [] => []
  | [ls] => ls
  | ls :: lss => addLast [';'] ls ++ bodyLines lss

/-- The statements of a block. -/
def blockLines (lss : List (List TextLine)) : List TextLine :=
  if lss.isEmpty then [] else shift (addLast [';'] (bodyLines lss))

/-- The first line of a loop or a branch. -/
def headLine (w : List Char) (c : Ast) : TextLine := (0, w ++ " (".toList ++ c.print ++ ") {".toList)

mutual
/-- The lines of a statement. -/
def AStmt.lines : AStmt → List TextLine
  | .formula ty t => [(0, ty.lexeme ++ t.print)]
  | .while_ c b => headLine "while".toList c :: (blockLines (AStmt.liness b) ++ [(0, ['}'])])
  | .for_ c b => headLine "for".toList c :: (blockLines (AStmt.liness b) ++ [(0, ['}'])])
  | .if_ c b => headLine "if".toList c :: (blockLines (AStmt.liness b) ++ [(0, ['}'])])
  | .ifElse c b [] => headLine "if".toList c :: (blockLines (AStmt.liness b) ++ [(0, ['}'])])
  | .ifElse c b (e :: es) =>
    headLine "if".toList c :: (blockLines (AStmt.liness b) ++ ((0, "} else {".toList) ::
      (blockLines (AStmt.lines e :: AStmt.liness es) ++ [(0, ['}'])])))
def AStmt.liness : List AStmt → List (List TextLine)
  | [] => []
  | s :: ss => AStmt.lines s :: AStmt.liness ss
end

mutual
/-- The terms of the statement can be printed and read again, and statements do not begin with
a sign. -/
def AStmt.Shown : AStmt → Prop
  | .formula ty t => t.Shown ∧ (ty = .term → ¬t.IsNegative)
  | .while_ c b => c.Shown ∧ AStmt.ShownL b
  | .for_ c b => c.Shown ∧ AStmt.ShownL b
  | .if_ c b => c.Shown ∧ AStmt.ShownL b
  | .ifElse c b e => c.Shown ∧ AStmt.ShownL b ∧ AStmt.ShownL e
def AStmt.ShownL : List AStmt → Prop
  | [] => True
  | s :: ss => AStmt.Shown s ∧ AStmt.ShownL ss
end

theorem lines_ne (s : AStmt) : s.lines ≠ [] := by
  cases s with
  | ifElse c b e => cases e <;> simp [AStmt.lines]
  | _ => simp [AStmt.lines]

omit [Floats] in
theorem bodyLines_ne : ∀ {lss : List (List TextLine)}, lss ≠ [] → (∀ ls ∈ lss, ls ≠ []) → bodyLines lss ≠ []
  | [], h, _ => absurd rfl h
  | [ls], _, h => h ls (by simp)
  | ls :: ls' :: lss, _, h => by
    rw [bodyLines]
    · simp [addLast_ne (h ls (by simp))]
    · simp

theorem liness_ne : ∀ (ss : List AStmt), ∀ ls ∈ AStmt.liness ss, ls ≠ []
  | [], ls, h => by simp [AStmt.liness] at h
  | s :: ss, ls, h => by
    simp only [AStmt.liness, List.mem_cons] at h
    rcases h with rfl | h
    · exact lines_ne s
    · exact liness_ne ss ls h

theorem liness_nil {ss : List AStmt} : AStmt.liness ss = [] ↔ ss = [] := by cases ss <;> simp [AStmt.liness]

/-! ### Filled lines -/

omit [Floats] in
theorem bodyLines_filled : ∀ {lss : List (List TextLine)}, (∀ ls ∈ lss, ∀ l ∈ ls, l.Filled) → ∀ l ∈ bodyLines lss, l.Filled
  | [], _ => by simp [bodyLines]
  | [ls], h => h ls (by simp)
  | ls :: ls' :: lss, h => by
    rw [bodyLines]
    · intro l hl
      simp only [List.mem_append] at hl
      rcases hl with hl | hl
      · exact addLast_filled (.cons (by decide) .nil) (h ls (by simp)) l hl
      · exact bodyLines_filled (fun ls hls => h ls (List.mem_cons_of_mem _ hls)) l hl
    · simp

omit [Floats] in
theorem blockLines_filled {lss : List (List TextLine)} (h : ∀ ls ∈ lss, ∀ l ∈ ls, l.Filled) : ∀ l ∈ blockLines lss, l.Filled := by
  unfold blockLines
  split
  · simp
  · exact shift_filled (addLast_filled (.cons (by decide) .nil) (bodyLines_filled h))

omit [Floats] in
theorem close_filled : TextLine.Filled (0, ['}']) := ⟨'}', [], rfl, ⟨by decide, by decide, by decide, by decide, by decide⟩, .nil⟩

omit [Floats] in
theorem else_filled : TextLine.Filled (0, "} else {".toList) :=
  ⟨'}', " else {".toList, rfl, ⟨by decide, by decide, by decide, by decide, by decide⟩, by unfold PlainText; decide⟩

theorem head_filled {w : List Char} {a : Char} {v : List Char} (e : w = a :: v) (ha : Visible a) (hv : PlainText v) {c : Ast} (hc : c.Shown) :
    (headLine w c).Filled := by
  subst e
  refine ⟨a, v ++ " (".toList ++ c.print ++ ") {".toList, by simp [headLine], ha, ?_⟩
  exact .append (.append (.append hv (by unfold PlainText; decide)) (print_plain c hc)) (by unfold PlainText; decide)

theorem while_filled {c : Ast} (hc : c.Shown) : (headLine "while".toList c).Filled :=
  head_filled (a := 'w') rfl (low_visible (by decide)) (by unfold PlainText; decide) hc
theorem for_filled {c : Ast} (hc : c.Shown) : (headLine "for".toList c).Filled :=
  head_filled (a := 'f') rfl (low_visible (by decide)) (by unfold PlainText; decide) hc
theorem if_filled {c : Ast} (hc : c.Shown) : (headLine "if".toList c).Filled :=
  head_filled (a := 'i') rfl (low_visible (by decide)) (by unfold PlainText; decide) hc

omit [Floats] in
/-- A printed term, after a word of printable characters. -/
theorem filled_append {w : List Char} (hw : ∀ c ∈ w, Visible c) {v : List Char} (hv : ∃ c u, v = c :: u ∧ Visible c) (hp : PlainText v) (i : Nat) :
    TextLine.Filled (i, w ++ v) := by
  cases w with
  | nil =>
    obtain ⟨c, u, rfl, hc⟩ := hv
    exact ⟨c, u, rfl, hc, fun d hd => hp d (List.mem_cons_of_mem _ hd)⟩
  | cons c w =>
    exact ⟨c, w ++ v, rfl, hw c (by simp), .append (plain_visible fun d hd => hw d (List.mem_cons_of_mem _ hd)) hp⟩

omit [Floats] in
theorem ftype_visible (ty : FType) : ∀ c ∈ ty.lexeme, Visible c := by
  have : ∀ c, c = '?' ∨ c = '!' ∨ c = '+' ∨ c = '-' → Visible c := by
    rintro c (rfl | rfl | rfl | rfl) <;> exact ⟨by decide, by decide, by decide, by decide, by decide⟩
  intro c hc
  apply this
  cases ty <;> simp [FType.lexeme] at hc <;> (try rcases hc with rfl | rfl) <;> (try subst hc) <;> simp

mutual
theorem lines_filled : ∀ (s : AStmt), s.Shown → ∀ l ∈ s.lines, l.Filled
  | .formula ty t, hs => by
    simp only [AStmt.lines, List.mem_singleton]
    rintro l rfl
    exact filled_append (ftype_visible ty) (print_head hs.1) (print_plain t hs.1) 0
  | .while_ c b, hs => by
    simp only [AStmt.lines, List.mem_cons, List.mem_append, List.not_mem_nil, or_false]
    rintro l (rfl | hl | rfl)
    · exact while_filled hs.1
    · exact blockLines_filled (liness_filled b hs.2) l hl
    · exact close_filled
  | .for_ c b, hs => by
    simp only [AStmt.lines, List.mem_cons, List.mem_append, List.not_mem_nil, or_false]
    rintro l (rfl | hl | rfl)
    · exact for_filled hs.1
    · exact blockLines_filled (liness_filled b hs.2) l hl
    · exact close_filled
  | .if_ c b, hs => by
    simp only [AStmt.lines, List.mem_cons, List.mem_append, List.not_mem_nil, or_false]
    rintro l (rfl | hl | rfl)
    · exact if_filled hs.1
    · exact blockLines_filled (liness_filled b hs.2) l hl
    · exact close_filled
  | .ifElse c b [], hs => by
    simp only [AStmt.lines, List.mem_cons, List.mem_append, List.not_mem_nil, or_false]
    rintro l (rfl | hl | rfl)
    · exact if_filled hs.1
    · exact blockLines_filled (liness_filled b hs.2.1) l hl
    · exact close_filled
  | .ifElse c b (e :: es), hs => by
    simp only [AStmt.lines, List.mem_cons, List.mem_append, List.not_mem_nil, or_false]
    rintro l (rfl | hl | rfl | hl | rfl)
    · exact if_filled hs.1
    · exact blockLines_filled (liness_filled b hs.2.1) l hl
    · exact else_filled
    · refine blockLines_filled ?_ l hl
      intro ls hls
      simp only [List.mem_cons] at hls
      rcases hls with rfl | hls
      · exact lines_filled e hs.2.2.1
      · exact liness_filled es hs.2.2.2 ls hls
    · exact close_filled

theorem liness_filled : ∀ (ss : List AStmt), AStmt.ShownL ss → ∀ ls ∈ AStmt.liness ss, ∀ l ∈ ls, l.Filled
  | [], _ => by simp [AStmt.liness]
  | s :: ss, hs => by
    intro ls hls
    simp only [AStmt.liness, List.mem_cons] at hls
    rcases hls with rfl | hls
    · exact lines_filled s hs.1
    · exact liness_filled ss hs.2 ls hls
end

/-! ### The text of the lines -/

omit [Floats] in
theorem joinStmts_lines : ∀ {lss : List (List TextLine)}, (∀ ls ∈ lss, ls ≠ []) → joinStmts (lss.map allText) = allText (bodyLines lss)
  | [], _ => rfl
  | [ls], _ => rfl
  | ls :: ls' :: lss, h => by
    have ih := joinStmts_lines (lss := ls' :: lss) fun l hl => h l (List.mem_cons_of_mem _ hl)
    have hne := h ls (by simp)
    rw [bodyLines]
    · rw [allText_append (addLast_ne hne) (bodyLines_ne (by simp) fun l hl => h l (List.mem_cons_of_mem _ hl)), allText_addLast hne, ← ih]
      simp [joinStmts]
    · simp

omit [Floats] in
theorem blockText_lines {lss : List (List TextLine)} (hne : ∀ ls ∈ lss, ls ≠ []) (hf : ∀ ls ∈ lss, ∀ l ∈ ls, l.Filled) {ls : List TextLine} (hls : ls ≠ []) :
    blockText (lss.map allText) ++ allText ls = allText (blockLines lss ++ ls) := by
  unfold blockText blockLines
  cases lss with
  | nil => rfl
  | cons l lss =>
    have h1 := bodyLines_ne (lss := l :: lss) (by simp) hne
    have h2 : shift (addLast [';'] (bodyLines (l :: lss))) ≠ [] := by
      simpa [shift] using addLast_ne h1
    rw [if_neg (by simp), if_neg (by simp), allText_append h2 hls, ← indent_shift (addLast_filled (.cons (by decide) .nil) (bodyLines_filled hf)),
      joinStmts_lines hne, indent_shift (bodyLines_filled hf), indent_shift (addLast_filled (.cons (by decide) .nil) (bodyLines_filled hf)),
      addLast_shift, allText_addLast (by simpa [shift] using h1)]
    simp

theorem headLine_text (w : List Char) (c : Ast) : (headLine w c).text = w ++ " (".toList ++ c.print ++ ") {".toList := rfl

theorem print_formula (ty : FType) (t : Ast) : AStmt.print (.formula ty t) = ty.lexeme ++ t.print := rfl
theorem print_while (c : Ast) (b : List AStmt) : AStmt.print (.while_ c b) =
    "while (".toList ++ c.print ++ ") {\n".toList ++ blockText (AStmt.prints b) ++ ['}'] := rfl
theorem print_for (c : Ast) (b : List AStmt) : AStmt.print (.for_ c b) =
    "for (".toList ++ c.print ++ ") {\n".toList ++ blockText (AStmt.prints b) ++ ['}'] := rfl
theorem print_if (c : Ast) (b : List AStmt) : AStmt.print (.if_ c b) =
    "if (".toList ++ c.print ++ ") {\n".toList ++ blockText (AStmt.prints b) ++ ['}'] := rfl
theorem print_ifElse (c : Ast) (t e : List AStmt) : AStmt.print (.ifElse c t e) =
    "if (".toList ++ c.print ++ ") {\n".toList ++ blockText (AStmt.prints t) ++
      (if e.isEmpty then [] else "} else {\n".toList ++ blockText (AStmt.prints e)) ++ ['}'] := rfl
theorem prints_cons (s : AStmt) (ss : List AStmt) : AStmt.prints (s :: ss) = s.print :: AStmt.prints ss := rfl

mutual
theorem print_lines : ∀ (s : AStmt), s.Shown → s.print = allText s.lines
  | .formula ty t, _ => rfl
  | .while_ c b, hs => by
    have h := blockText_lines (liness_ne b) (liness_filled b hs.2) (ls := [(0, ['}'])]) (by simp)
    rw [print_while, AStmt.lines, allText_cons (by simp), ← h, prints_lines b hs.2, headLine_text]
    simp [allText, joinLines, TextLine.text]
  | .for_ c b, hs => by
    have h := blockText_lines (liness_ne b) (liness_filled b hs.2) (ls := [(0, ['}'])]) (by simp)
    rw [print_for, AStmt.lines, allText_cons (by simp), ← h, prints_lines b hs.2, headLine_text]
    simp [allText, joinLines, TextLine.text]
  | .if_ c b, hs => by
    have h := blockText_lines (liness_ne b) (liness_filled b hs.2) (ls := [(0, ['}'])]) (by simp)
    rw [print_if, AStmt.lines, allText_cons (by simp), ← h, prints_lines b hs.2, headLine_text]
    simp [allText, joinLines, TextLine.text]
  | .ifElse c b [], hs => by
    have h := blockText_lines (liness_ne b) (liness_filled b hs.2.1) (ls := [(0, ['}'])]) (by simp)
    rw [print_ifElse, AStmt.lines, allText_cons (by simp), ← h, prints_lines b hs.2.1, headLine_text]
    simp [allText, joinLines, TextLine.text]
  | .ifElse c b (e :: es), hs => by
    have h1 := blockText_lines (liness_ne (e :: es)) (liness_filled (e :: es) hs.2.2) (ls := [(0, ['}'])]) (by simp)
    have h := blockText_lines (liness_ne b) (liness_filled b hs.2.1)
      (ls := (0, "} else {".toList) :: (blockLines (AStmt.liness (e :: es)) ++ [(0, ['}'])])) (by simp)
    have he : AStmt.prints (e :: es) = (AStmt.liness (e :: es)).map allText := by
      rw [prints_cons, AStmt.liness, List.map_cons, print_lines e hs.2.2.1, prints_lines es hs.2.2.2]
    rw [print_ifElse, he, AStmt.lines, allText_cons (by simp)]
    rw [show AStmt.lines e :: AStmt.liness es = AStmt.liness (e :: es) from rfl, ← h, allText_cons (by simp), ← h1, prints_lines b hs.2.1, headLine_text]
    simp [allText, joinLines, TextLine.text]

theorem prints_lines : ∀ (ss : List AStmt), AStmt.ShownL ss → AStmt.prints ss = (AStmt.liness ss).map allText
  | [], _ => rfl
  | s :: ss, hs => by rw [prints_cons, AStmt.liness, List.map_cons, print_lines s hs.1, prints_lines ss hs.2]
end

/-! ## Tokens -/

/-- A printed term does not begin with `!` or `+`. -/
theorem print_first {a : Ast} (hs : a.Shown) {c : Char} {u : List Char} (e : a.print = c :: u) : c ≠ '!' ∧ c ≠ '+' := by
  have word : ∀ {c}, isWord c = true → c ≠ '!' ∧ c ≠ '+' := by
    intro c h
    constructor <;> (rintro rfl; revert h; decide)
  have low : ∀ {c}, isLow c = true → c ≠ '!' ∧ c ≠ '+' := by
    intro c h
    constructor <;> (rintro rfl; revert h; decide)
  have dig : ∀ {c : Char}, c.isDigit = true → c ≠ '!' ∧ c ≠ '+' := by
    intro c h
    constructor <;> (rintro rfl; revert h; decide)
  match a with
  | .const (.bool true) => cases e; decide
  | .const (.bool false) => cases e; decide
  | .const (.str s) => cases e; decide
  | .const (.num .inf) => exact hs.elim
  | .const (.num (.fin q)) =>
    obtain ⟨v, hv⟩ := hs
    by_cases hq : q < 0
    · rw [if_pos hq] at hv
      rw [Ast.print, ConstV.print, print_negative hv hq] at e
      cases e; decide
    · rw [if_neg hq] at hv
      obtain ⟨d, w, e', hd⟩ := (Floats.print_text hv).digit
      rw [Ast.print, ConstV.print, e'] at e
      cases e
      exact dig hd
  | .var x =>
    have hx : VarText x := hs
    rw [Ast.print] at e
    rcases hx with ⟨v, d, w, rfl, hv, hd, hw⟩ | ⟨-, hall⟩
    · cases v with
      | nil => cases e; exact word (by simp [isWord, hd])
      | cons y v => cases e; rw [hv c (by simp)]; decide
    · rw [hall c (by simp [e])]; decide
  | .lit f ts as =>
    obtain ⟨neg, b, w, ws, rfl, ⟨d, v, rfl, hd, -⟩, -⟩ := hs.1
    rw [Ast.print] at e
    cases neg with
    | true => cases e; decide
    | false =>
      cases b with
      | true => cases e; decide
      | false => cases e; exact low hd
  | .list ts => cases e; decide
  | .linked h t => cases e; decide
  | .un op a => cases e; decide
  | .bin op l r => cases e; decide

section
variable [Unicode]

/-- The head of a loop or a branch. -/
theorem head_lexed {w : List Char} {k : Kind} (hk : k.fixed = some w) (hw : w ∈ keywords) (hl : k.longer = []) {c : Ast} (hc : c.Shown) (col : Nat) :
    ∃ t ts o, Lexed (headLine w c).2 col ['\n'] (t :: (ts ++ [o])) ∧ t.kind = k ∧ CondPhrase ts c.raw ∧ o.kind = .braceOpen := by
  obtain ⟨d, u, e, hd⟩ := print_head hc
  have hsp : ∀ (v : List Char), ∀ x ∈ (c.print ++ v).head?, Unicode.space x = false := by intro v; rw [e]; simp [hd.space]
  have open_sp : Unicode.space '(' = false := by rw [Unicode.space_ascii _ (by decide)]; decide
  have brace_sp : Unicode.space '{' = false := by rw [Unicode.space_ascii _ (by decide)]; decide
  obtain ⟨us, h1, p1, -⟩ := shown_lexed c hc (col + w.length + 1 + 1) (')' :: ' ' :: '{' :: ['\n']) (bound_cons (by simp) _)
  have l7 := (symbol_next (k := .braceOpen) (r := ['\n']) rfl (by simp [Kind.longer]) (by decide)).lexed
    (col + w.length + 1 + 1 + c.print.length + 1 + 1)
  have l6 := Lexed.append (lexed_space (r := ['{'] ++ ['\n']) (by simp [brace_sp]) (col + w.length + 1 + 1 + c.print.length + 1)) l7
  have l5 := Lexed.append ((close_next ([' '] ++ ['{'] ++ ['\n'])).lexed (col + w.length + 1 + 1 + c.print.length)) l6
  have l4 := Lexed.append (v := ')' :: ' ' :: ['{']) (by simpa using h1) l5
  have l3 := Lexed.append ((open_next (c.print ++ ')' :: ' ' :: ['{'] ++ ['\n'])).lexed (col + w.length + 1)) l4
  have l2 := Lexed.append (lexed_space (r := ['('] ++ (c.print ++ ')' :: ' ' :: ['{']) ++ ['\n']) (by simp [open_sp]) (col + w.length)) l3
  have l1 := Lexed.append ((keyword_next (k := k) (w := w) (r := [' '] ++ (['('] ++ (c.print ++ ')' :: ' ' :: ['{'])) ++ ['\n']) hk hw
    (by simp; decide) hl).lexed col) l2
  have := c.top_le
  have p : CondPhrase (⟨['('], .parenOpen, col + w.length + 1, col + w.length + 1 + 1⟩ :: (us ++
      [⟨[')'], .parenClose, col + w.length + 1 + 1 + c.print.length, col + w.length + 1 + 1 + c.print.length + 1⟩])) c.raw :=
    .mk rfl (p1.lift (by omega) (by omega)) rfl
  refine ⟨⟨w, k, col, col + w.length⟩, _, ⟨['{'], .braceOpen, col + w.length + 1 + 1 + c.print.length + 1 + 1,
    col + w.length + 1 + 1 + c.print.length + 1 + 1 + 1⟩, ?_, rfl, p, rfl⟩
  simpa [headLine] using l1

omit [Floats] in
theorem close_lexed (r : List Char) (col : Nat) : ∃ t : Tok, Lexed ['}'] col r [t] ∧ t.kind = .braceClose :=
  ⟨_, (symbol_next (k := .braceClose) (r := r) rfl (by simp [Kind.longer]) (by decide)).lexed col, rfl⟩

omit [Floats] in
/-- `} else {` -/
theorem else_lexed (col : Nat) : ∃ c e o : Tok, Lexed "} else {".toList col ['\n'] [c, e, o] ∧ c.kind = .braceClose ∧ e.kind = .tokElse ∧ o.kind = .braceOpen := by
  have low_sp : Unicode.space 'e' = false := by rw [Unicode.space_ascii _ (by decide)]; decide
  have brace_sp : Unicode.space '{' = false := by rw [Unicode.space_ascii _ (by decide)]; decide
  have l5 := (symbol_next (k := .braceOpen) (r := ['\n']) rfl (by simp [Kind.longer]) (by decide)).lexed (col + 1 + 1 + 4 + 1)
  have l4 := Lexed.append (lexed_space (r := ['{'] ++ ['\n']) (by simp [brace_sp]) (col + 1 + 1 + 4)) l5
  have l3 := Lexed.append (v := [' '] ++ ['{']) ((keyword_next (k := .tokElse) (w := "else".toList) (r := [' ', '{', '\n']) rfl (by decide) (by simp; decide) rfl).lexed (col + 1 + 1)) (by exact l4)
  have l2 := Lexed.append (lexed_space (r := "else {".toList ++ ['\n']) (by simp [low_sp]) (col + 1)) l3
  have l1 := Lexed.append ((symbol_next (k := .braceClose) (r := " else {".toList ++ ['\n']) rfl (by simp [Kind.longer]) (by decide)).lexed col) l2
  exact ⟨_, _, _, l1, rfl, rfl, rfl⟩

omit [Floats] in
/-- What is before a formula. -/
theorem ftype_next {ty : FType} {k : Kind} (hk : ty.kind = some k) {r : List Char} (hr : ∀ c ∈ r.head?, c ≠ '!' ∧ c ≠ '+') : NextTok k ty.lexeme r := by
  cases ty <;> cases hk <;> refine symbol_next rfl ?_ (by decide) <;> intro d hd <;> have := hr d hd <;> simp [Kind.longer, this]

/-- A block, before other lines. -/
theorem block_lexed {ss : List AStmt} {k : Nat}
    (ih : ss ≠ [] → ∃ ts, LinesLexed (k + 2) (k + 2) ['\n'] (addLast [';'] (bodyLines (AStmt.liness ss))) ts ∧ StmtsPhrase ts (AStmt.reads Ast.raw ss)) :
    ∃ ts, StmtsPhrase ts (AStmt.reads Ast.raw ss) ∧
      ∀ r ls us, LinesLexed k k r ls us → LinesLexed k k r (blockLines (AStmt.liness ss) ++ ls) (ts ++ us) := by
  by_cases hss : ss = []
  · subst hss
    exact ⟨[], .nil, fun r ls us h => h⟩
  · obtain ⟨ts, h1, h2⟩ := ih hss
    refine ⟨ts, h2, fun r ls us h => ?_⟩
    unfold blockLines
    rw [if_neg (by simpa [liness_nil] using hss)]
    exact h.append h1.shift

/-- A loop or a branch. -/
theorem blocks_lexed {w : List Char} {kd : Kind} (hk : kd.fixed = some w) (hw : w ∈ keywords) (hl : kd.longer = []) {c : Ast} (hc : c.Shown)
    {ss : List AStmt} (j : Nat) {k : Nat}
    (ih : ss ≠ [] → ∃ ts, LinesLexed (k + 2) (k + 2) ['\n'] (addLast [';'] (bodyLines (AStmt.liness ss))) ts ∧ StmtsPhrase ts (AStmt.reads Ast.raw ss)) (r : List Char) :
    ∃ t ts us, LinesLexed j k r (headLine w c :: (blockLines (AStmt.liness ss) ++ [(0, ['}'])])) (t :: (ts ++ us)) ∧
      t.kind = kd ∧ CondPhrase ts c.raw ∧ BlockPhrase us (AStmt.reads Ast.raw ss) := by
  obtain ⟨t, ts, o, h1, h2, h3, h4⟩ := head_lexed hk hw hl hc (j + 0)
  obtain ⟨us, h5, h6⟩ := block_lexed ih
  obtain ⟨x, h7, h8⟩ := close_lexed r (k + 0)
  refine ⟨t, ts, o :: (us ++ [x]), ?_, h2, h3, .mk h4 h5 h8⟩
  have := LinesLexed.cons (j := j) (k := k) (i := 0) (u := (headLine w c).2) h1 (h6 r _ _ (.last h7))
  simpa [headLine] using this

mutual
/-- The tokens of a printed statement. -/
theorem stmt_lexed : ∀ (s : AStmt), s.Shown → ∀ (j k : Nat) (r : List Char), Bound r →
    ∃ ts, LinesLexed j k r s.lines ts ∧ StmtPhrase ts (s.read Ast.raw)
  | .formula ty t, hs, j, k, r, hr => by
    cases hty : ty.kind with
    | none =>
      have e : ty = .term := by cases ty <;> first | rfl | cases hty
      subst e
      obtain ⟨ts, h1, h2, -⟩ := shown_lexed t hs.1 (j + 0) r hr
      rw [Ast.top_pos (hs.2 rfl)] at h2
      obtain ⟨x, rs, rfl, hx⟩ := phrase_start h2
      refine ⟨x :: rs, .last h1, .term (h2.lift (by omega) (by omega)) ?_ ?_⟩
      · intro e; rw [e] at hx; simp [Starts] at hx
      · intro e; rw [e] at hx; simp [Starts] at hx
    | some kd =>
      obtain ⟨ts, h1, h2, -⟩ := shown_lexed t hs.1 (j + 0 + ty.lexeme.length) r hr
      have hn : NextTok kd ty.lexeme (t.print ++ r) := ftype_next hty (by
        obtain ⟨c, u, e, -⟩ := print_head hs.1
        rw [e]
        simpa using print_first hs.1 e)
      have := t.top_le
      exact ⟨_, .last (Lexed.append (hn.lexed (j + 0)) h1), .formula (t := ⟨_, kd, _, _⟩) hty (h2.lift (by omega) (by omega))⟩
  | .while_ c b, hs, j, k, r, _ => by
    obtain ⟨t, ts, us, h1, h2, h3, h4⟩ := blocks_lexed (kd := .tokWhile) (w := "while".toList) rfl (by decide) rfl hs.1 j
      (fun h => stmts_lexed b h hs.2 (k + 2) (k + 2) ['\n']) r
    exact ⟨_, h1, .while_ h2 h3 h4⟩
  | .for_ c b, hs, j, k, r, _ => by
    obtain ⟨t, ts, us, h1, h2, h3, h4⟩ := blocks_lexed (kd := .tokFor) (w := "for".toList) rfl (by decide) rfl hs.1 j
      (fun h => stmts_lexed b h hs.2 (k + 2) (k + 2) ['\n']) r
    exact ⟨_, h1, .for_ h2 h3 h4⟩
  | .if_ c b, hs, j, k, r, _ => by
    obtain ⟨t, ts, us, h1, h2, h3, h4⟩ := blocks_lexed (kd := .tokIf) (w := "if".toList) rfl (by decide) rfl hs.1 j
      (fun h => stmts_lexed b h hs.2 (k + 2) (k + 2) ['\n']) r
    exact ⟨_, h1, .if_ h2 h3 h4⟩
  | .ifElse c b [], hs, j, k, r, _ => by
    obtain ⟨t, ts, us, h1, h2, h3, h4⟩ := blocks_lexed (kd := .tokIf) (w := "if".toList) rfl (by decide) rfl hs.1 j
      (fun h => stmts_lexed b h hs.2.1 (k + 2) (k + 2) ['\n']) r
    exact ⟨_, h1, .if_ h2 h3 h4⟩
  | .ifElse c b (e :: es), hs, j, k, r, _ => by
    obtain ⟨t, ts, o, h1, h2, h3, h4⟩ := head_lexed (k := .tokIf) (w := "if".toList) rfl (by decide) rfl hs.1 (j + 0)
    obtain ⟨us, h5, h6⟩ := block_lexed (ss := b) (k := k) (fun h => stmts_lexed b h hs.2.1 (k + 2) (k + 2) ['\n'])
    obtain ⟨x, y, z, h7, h8, h9, h10⟩ := else_lexed (k + 0)
    obtain ⟨vs, h11, h12⟩ := block_lexed (ss := e :: es) (k := k) (fun h => stmts_lexed (e :: es) h hs.2.2 (k + 2) (k + 2) ['\n'])
    obtain ⟨x', h13, h14⟩ := close_lexed r (k + 0)
    have l := LinesLexed.cons (j := j) (k := k) (i := 0) (u := (headLine "if".toList c).2) h1 (h6 r _ _ (.cons h7 (h12 r _ _ (.last h13))))
    have p := StmtPhrase.ifElse h2 h3 (.mk h4 h5 h8) h9 (.mk h10 h11 h14)
    refine ⟨_, l, ?_⟩
    simpa [AStmt.read, AStmt.reads] using p

/-- Statements with a semicolon at the end. -/
theorem stmts_lexed : ∀ (ss : List AStmt), ss ≠ [] → AStmt.ShownL ss → ∀ (j k : Nat) (r : List Char),
    ∃ ts, LinesLexed j k r (addLast [';'] (bodyLines (AStmt.liness ss))) ts ∧ StmtsPhrase ts (AStmt.reads Ast.raw ss)
  | [s], _, hs, j, k, r => by
    obtain ⟨ts, h1, h2⟩ := stmt_lexed s hs.1 j k (';' :: r) (bound_semi r)
    obtain ⟨us, h3, t, rfl, ht⟩ := LinesLexed.addLast (v := [';']) (r := r) (fun col => semi_lexed r col) h1
    exact ⟨_, h3, .semi h2 ht .nil⟩
  | s :: s' :: ss, _, hs, j, k, r => by
    obtain ⟨ts, h1, h2⟩ := stmt_lexed s hs.1 j k (';' :: ['\n']) (bound_semi _)
    obtain ⟨us, h3, t, rfl, ht⟩ := LinesLexed.addLast (v := [';']) (r := ['\n']) (fun col => semi_lexed _ col) h1
    obtain ⟨vs, h4, h5⟩ := stmts_lexed (s' :: ss) (by simp) hs.2 k k r
    have hne : bodyLines (AStmt.liness (s' :: ss)) ≠ [] := bodyLines_ne (by simp [AStmt.liness]) (liness_ne _)
    refine ⟨_, ?_, .semi h2 ht h5⟩
    have := h4.append h3
    rw [← addLast_append hne] at this
    simpa [AStmt.liness, bodyLines] using this
end

/-- The body of a plan. -/
theorem body_lexed : ∀ (ss : List AStmt), ss ≠ [] → AStmt.ShownL ss → ∀ (j k : Nat) (r : List Char), Bound r →
    ∃ ts, LinesLexed j k r (bodyLines (AStmt.liness ss)) ts ∧ PlanBodyPhrase ts (AStmt.reads Ast.raw ss)
  | [s], _, hs, j, k, r, hr => by
    obtain ⟨ts, h1, h2⟩ := stmt_lexed s hs.1 j k r hr
    exact ⟨_, h1, .last h2⟩
  | s :: s' :: ss, _, hs, j, k, r, hr => by
    obtain ⟨ts, h1, h2⟩ := stmt_lexed s hs.1 j k (';' :: ['\n']) (bound_semi _)
    obtain ⟨us, h3, t, rfl, ht⟩ := LinesLexed.addLast (v := [';']) (r := ['\n']) (fun col => semi_lexed _ col) h1
    obtain ⟨vs, h4, h5⟩ := body_lexed (s' :: ss) (by simp) hs.2 k k r hr
    refine ⟨_, ?_, .semi h2 ht h5⟩
    have := h4.append h3
    simpa [AStmt.liness, bodyLines] using this

end

end

end Verif
