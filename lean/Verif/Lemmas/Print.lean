import Verif.Lemmas.Lexed
import Verif.Props.Strings
import Verif.Props.Parser
import Verif.Spec.Script

/-! The printed form of a term is a phrase of the grammar, with this term as its tree. -/

namespace Verif

section
variable [Unicode]

/-- Brackets, commas, bars and spaces may follow anything. -/
theorem bound_cons {c : Char} (h : c = ')' ∨ c = ']' ∨ c = ',' ∨ c = '|' ∨ c = ' ') (r : List Char) : Bound (c :: r) := by
  have h1 : c.toNat < 128 ∧ isWord c = false ∧ c ≠ '.' ∧ c.isDigit = false := by rcases h with rfl | rfl | rfl | rfl | rfl <;> decide
  refine ⟨⟨?_, ?_⟩, ?_, ?_⟩
  · simp [h1]
  · intro d r' e; cases e; exact absurd rfl h1.2.2.1
  · simp only [List.head?_cons, Option.mem_def, Option.some.injEq]
    rintro d rfl
    rw [Unicode.digit_ascii _ h1.1, h1.2.2.2]
  · intro d r' e; cases e; exact absurd rfl h1.2.2.1

theorem bound_stop : Bound ['.'] := by
  refine ⟨⟨by simp; decide, by simp⟩, ?_, by simp⟩
  simp only [List.head?_cons, Option.mem_def, Option.some.injEq]
  rintro d rfl
  rw [Unicode.digit_ascii _ (by decide)]; decide

theorem binop_next (op : BinOp) (r : List Char) : NextTok op.kind op.lexeme (' ' :: r) := by
  cases op <;> first
    | exact slash_next r
    | exact symbol_next rfl (by simp [Kind.longer, BinOp.kind]) (by decide)
    | exact keyword_next rfl (by decide) (by simp; decide) rfl

theorem unop_next (op : UnOp) (r : List Char) : NextTok op.kind op.lexeme (' ' :: r) := by
  cases op <;> first
    | exact symbol_next rfl (by simp [Kind.longer, UnOp.kind]) (by decide)
    | exact keyword_next rfl (by decide) (by simp; decide) rfl

theorem open_next (r : List Char) : NextTok .parenOpen ['('] r := symbol_next rfl (by simp [Kind.longer]) (by decide)
theorem close_next (r : List Char) : NextTok .parenClose [')'] r := symbol_next rfl (by simp [Kind.longer]) (by decide)
theorem bracketOpen_next (r : List Char) : NextTok .bracketOpen ['['] r := symbol_next rfl (by simp [Kind.longer]) (by decide)
theorem bracketClose_next (r : List Char) : NextTok .bracketClose [']'] r := symbol_next rfl (by simp [Kind.longer]) (by decide)
theorem comma_next (r : List Char) : NextTok .comma [','] r := symbol_next rfl (by simp [Kind.longer]) (by decide)

/-- Characters at the beginning of printed terms. -/
def Visible (c : Char) : Prop := c.toNat < 128 ∧ 32 < c.toNat ∧ c ≠ '&' ∧ c ≠ '|' ∧ c ≠ '\t'

theorem Visible.space {c : Char} (h : Visible c) : Unicode.space c = false := by
  obtain ⟨h1, h2, -⟩ := h
  rw [Unicode.space_ascii _ h1]
  simp
  omega

omit [Unicode] in
theorem low_visible {c : Char} (h : isLow c = true) : Visible c := by
  obtain ⟨h1, -, -, -, -, -, -, -, -, -, h2⟩ := low_ascii h
  refine ⟨h1, by omega, ?_, ?_, ?_⟩ <;> (rintro rfl; revert h; decide)

omit [Unicode] in
theorem word_visible {c : Char} (h : isWord c = true) : Visible c := by
  simp only [isWord, Bool.or_eq_true, decide_eq_true_eq] at h
  rcases h with ((h | h) | h) | rfl
  · exact low_visible h
  · obtain ⟨h1, h2, -⟩ := up_facts (.inl h)
    refine ⟨h1, by omega, ?_, ?_, ?_⟩ <;> (rintro rfl; revert h; decide)
  · have h1 : 48 ≤ c.toNat := h.1
    have h2 : c.toNat ≤ 57 := h.2
    refine ⟨by omega, by omega, ?_, ?_, ?_⟩ <;> (rintro rfl; revert h1 h2; decide)
  · exact ⟨by decide, by decide, by decide, by decide, by decide⟩

omit [Unicode] in
theorem digit_visible {c : Char} (h : c.isDigit = true) : Visible c := by
  obtain ⟨h1, h2, h3⟩ := digit_facts h
  refine ⟨by omega, by omega, ?_, ?_, ?_⟩ <;> (rintro rfl; revert h2 h3; decide)

omit [Unicode] in
theorem LowWord.visible {w : List Char} (h : LowWord w) : ∀ c ∈ w, Visible c := fun c hc => word_visible (h.words c hc)

omit [Unicode] in
/-- All characters of names are visible. -/
theorem FunctorText.visible {u : List Char} (h : FunctorText u) : u ≠ [] ∧ ∀ c ∈ u, Visible c := by
  obtain ⟨neg, b, w, ws, rfl, hw, hws, -⟩ := h
  have hdot : Visible '.' := ⟨by decide, by decide, by decide, by decide, by decide⟩
  refine ⟨?_, fun c hc => ?_⟩
  · obtain ⟨d, v, rfl, -⟩ := hw
    simp [dotted]
  · simp only [dotted, List.mem_append, List.mem_flatMap, List.mem_cons] at hc
    rcases hc with hc | (hc | hc) | ⟨w', hw', rfl | hc⟩
    · cases neg
      · cases hc
      · simp at hc; subst hc; exact ⟨by decide, by decide, by decide, by decide, by decide⟩
    · cases b
      · cases hc
      · simp at hc; subst hc; exact hdot
    · exact hw.visible c hc
    · exact hdot
    · exact (hws w' hw').visible c hc

omit [Unicode] in
theorem VarText.visible {u : List Char} (h : VarText u) : u ≠ [] ∧ ∀ c ∈ u, Visible c := by
  have hund : Visible '_' := word_visible (by decide)
  rcases h with ⟨v, c, w, rfl, hv, hc, hw⟩ | ⟨hne, hall⟩
  · refine ⟨by simp, fun x hx => ?_⟩
    simp only [List.mem_append, List.mem_cons] at hx
    rcases hx with hx | rfl | hx
    · rw [hv x hx]; exact hund
    · exact word_visible (by simp [isWord, hc])
    · exact word_visible (hw x hx)
  · exact ⟨hne, fun x hx => by rw [hall x hx]; exact hund⟩

omit [Unicode] in
theorem NumText.visible {u : List Char} (h : NumText u) : u ≠ [] ∧ ∀ c ∈ u, Visible c := by
  obtain ⟨int, frac, exp, rfl, ⟨hne, hint⟩, hfrac, hexp⟩ := h.form
  refine ⟨by simp [hne], fun c hc => ?_⟩
  simp only [List.mem_append] at hc
  rcases hc with (hc | hc) | hc
  · exact digit_visible (hint c hc)
  · rcases hfrac with rfl | ⟨ds, rfl, -, hd⟩
    · cases hc
    · simp only [List.mem_cons] at hc
      rcases hc with rfl | hc
      · exact ⟨by decide, by decide, by decide, by decide, by decide⟩
      · exact digit_visible (hd c hc)
  · rcases hexp with rfl | ⟨sign, ds, rfl, hs, -, hd⟩
    · cases hc
    · simp only [List.cons_append, List.mem_cons, List.mem_append] at hc
      rcases hc with rfl | hc | hc
      · exact ⟨by decide, by decide, by decide, by decide, by decide⟩
      · rcases hs with rfl | rfl | rfl
        · cases hc
        · simp at hc; subst hc; exact ⟨by decide, by decide, by decide, by decide, by decide⟩
        · simp at hc; subst hc; exact ⟨by decide, by decide, by decide, by decide, by decide⟩
      · exact digit_visible (hd c hc)

end

section
variable [Unicode] [Floats]

omit [Unicode] [Floats] in
theorem NumText.digit {u : List Char} (h : NumText u) : ∃ c v, u = c :: v ∧ c.isDigit = true := by
  obtain ⟨int, frac, exp, rfl, ⟨hne, hint⟩, -⟩ := h.form
  cases int with
  | nil => exact absurd rfl hne
  | cons c int => exact ⟨c, _, rfl, hint c (by simp)⟩

omit [Unicode] in
theorem print_negative {u : List Char} {q : Rat} (hu : Floats.read u = .fin (-q)) (hq : q < 0) : Floats.print q = '-' :: Floats.print (-q) := by
  have := Floats.print_neg hu (by rw [Rat.lt_neg_iff]; simpa using hq)
  simpa using this

omit [Unicode] in
/-- Printed terms begin with visible characters. -/
theorem print_head {a : Ast} (hs : a.Shown) : ∃ c u, a.print = c :: u ∧ Visible c := by
  have sym : ∀ c, c = '(' ∨ c = '[' ∨ c = '"' → Visible c := by
    rintro c (rfl | rfl | rfl) <;> exact ⟨by decide, by decide, by decide, by decide, by decide⟩
  have nonempty : ∀ {u v : List Char}, (u ≠ [] ∧ ∀ c ∈ u, Visible c) → ∃ c w, u ++ v = c :: w ∧ Visible c := by
    intro u v h
    cases u with
    | nil => exact absurd rfl h.1
    | cons c u => exact ⟨c, _, rfl, h.2 c (by simp)⟩
  match a with
  | .const (.bool true) => exact ⟨'t', _, rfl, low_visible (by decide)⟩
  | .const (.bool false) => exact ⟨'f', _, rfl, low_visible (by decide)⟩
  | .const (.str s) => exact ⟨'"', _, rfl, sym _ (by simp)⟩
  | .const (.num .inf) => exact hs.elim
  | .const (.num (.fin q)) =>
    obtain ⟨u, hu⟩ := hs
    by_cases hq : q < 0
    · rw [if_pos hq] at hu
      rw [Ast.print, ConstV.print, print_negative hu hq]
      exact ⟨'-', _, rfl, by decide, by decide, by decide, by decide, by decide⟩
    · rw [if_neg hq] at hu
      have := nonempty (v := []) (Floats.print_text hu).visible
      simpa [Ast.print, ConstV.print] using this
  | .var x =>
    have := nonempty (v := []) hs.visible
    simpa [Ast.print] using this
  | .lit f ts as =>
    rw [Ast.print, List.append_assoc]
    exact nonempty hs.1.visible
  | .list ts => exact ⟨'[', _, rfl, sym _ (by simp)⟩
  | .linked h t => exact ⟨'[', _, rfl, sym _ (by simp)⟩
  | .un op a => exact ⟨'(', _, rfl, sym _ (by simp)⟩
  | .bin op l r => exact ⟨'(', _, rfl, sym _ (by simp)⟩

open Classical in
/-- The level of precedence of a printed term. -/
noncomputable def Ast.top (a : Ast) : Nat := if a.IsNegative then 6 else 8

omit [Unicode] [Floats] in
theorem Ast.top_le (a : Ast) : 6 ≤ a.top ∧ a.top ≤ 8 := by unfold Ast.top; split <;> omega

omit [Unicode] [Floats] in
theorem Ast.top_pos {a : Ast} (h : ¬a.IsNegative) : a.top = 8 := if_neg h

/-- Terms that are printed as atoms. -/
theorem shown_atom {a : Ast} {col : Nat} {r : List Char} {ts : List Tok} (hn : ¬a.IsNegative) (hl : Lexed a.print col r ts) (hp : Phrase 8 ts a.raw)
    (ha : ∀ f us as, a ≠ .lit f us as) :
    ∃ ts, Lexed a.print col r ts ∧ Phrase a.top ts a.raw ∧ ∀ f us as, a = .lit f us as → LitPhrase ts a.raw :=
  ⟨ts, hl, (Ast.top_pos hn).symm ▸ hp, fun f us as e => absurd e (ha f us as)⟩

mutual

/-- The tokens of a printed term. -/
theorem shown_lexed : ∀ (a : Ast), a.Shown → ∀ (col : Nat) (r : List Char), Bound r →
    ∃ ts, Lexed a.print col r ts ∧ Phrase a.top ts a.raw ∧ ∀ f us as, a = .lit f us as → LitPhrase ts a.raw
  | .const (.bool true), _, col, r, hr => 
    shown_atom id ((keyword_next (k := .litTrue) (r := r) rfl (by decide) hr.ends.1 rfl).lexed col) (.true_ rfl) (by intro _ _ _ h; cases h)
  | .const (.bool false), _, col, r, hr => 
    shown_atom id ((keyword_next (k := .litFalse) (r := r) rfl (by decide) hr.ends.1 rfl).lexed col) (.false_ rfl) (by intro _ _ _ h; cases h)
  | .const (.num .inf), hs, _, _, _ => hs.elim
  | .const (.num (.fin q)), hs, col, r, hr => by
    obtain ⟨u, hu⟩ := hs
    by_cases hq : q < 0
    · rw [if_pos hq] at hu
      have l1 := Lexed.append (u := ['-']) ((symbol_next (k := .opMinus) (r := Floats.print (-q) ++ r) rfl (by
          intro d hd
          obtain ⟨c, v, e, hc⟩ := (Floats.print_text hu).digit
          rw [e] at hd
          cases hd
          rintro h
          simp only [Kind.longer, List.mem_singleton] at h
          subst h
          revert hc; decide) (by decide)).lexed col)
        ((numeric_next (Floats.print_text hu) hr).lexed (col + 1))
      have := Phrase.num (t := ⟨Floats.print (-q), .numeric, col + 1, col + 1 + (Floats.print (-q)).length⟩) rfl
      rw [show Floats.read (Floats.print (-q)) = _ from Floats.read_print hu] at this
      have e : (Ast.const (.num (.fin q))).top = 6 := if_pos hq
      refine ⟨_, by rw [Ast.print, ConstV.print, print_negative hu hq]; exact l1, ?_, by intro f us as h; cases h⟩
      rw [e, Ast.raw, if_pos hq]
      exact .sign (t := ⟨['-'], .opMinus, _, _⟩) (by decide) rfl (this.lift (by decide) (by decide))
    · rw [if_neg hq] at hu
      refine ⟨_, (numeric_next (Floats.print_text hu) hr).lexed col, ?_, by intro f us as h; cases h⟩
      have := Phrase.num (t := ⟨Floats.print q, .numeric, col, col + (Floats.print q).length⟩) rfl
      rw [show Floats.read (Floats.print q) = _ from Floats.read_print hu] at this
      rw [Ast.top_pos (by exact hq), Ast.raw, if_neg hq]
      exact this
  | .const (.str s), hs, col, r, _ => by
    have h := (encs_body hs).next r
    have e : '"' :: (s.flatMap enc ++ ['"']) = reprString s := by rw [reprString_eq]; rfl
    rw [e] at h
    exact shown_atom id (h.lexed col) (.str rfl (C42_round_trip hs)) (by intro _ _ _ h; cases h)
  | .var x, hs, col, r, hr => shown_atom id ((var_next hs hr.ends.1).lexed col) (.var rfl) (by intro _ _ _ h; cases h)
  | .lit f ts as, hs, col, r, hr => by
    obtain ⟨hfun, hts, has⟩ := hs
    have hfun' := hfun
    obtain ⟨neg, b, w, ws, hfe, hw, hws, hk⟩ := hfun
    have hne : ∀ {s}, Ends s → NextTok .functor f s := by
      intro s h
      rw [hfe]
      exact functor_next hw hws hk h
    -- annotations
    have h2 : ∀ col, ∃ us, Lexed (if as.isEmpty then [] else '[' :: joinComma (Ast.prints as) ++ [']']) col r us ∧
        OptArgs .bracketOpen .bracketClose us (Ast.raws as) := by
      intro col
      match as, has with
      | [], _ => exact ⟨[], .nil _ _, .none⟩
      | a :: as, has =>
        obtain ⟨us, h1, h2, -⟩ := shownL_lexed (a :: as) (by simp) has .bracketClose ']' (.inr ⟨rfl, rfl⟩) (col + 1) r
        have := Lexed.append ((bracketOpen_next (joinComma (Ast.prints (a :: as)) ++ [']'] ++ r)).lexed col) h1
        exact ⟨_, by simpa using this, .some rfl h2⟩
    have h1 : ∀ col, ∃ us, Lexed (if ts.isEmpty then [] else '(' :: joinComma (Ast.prints ts) ++ [')']) col
        ((if as.isEmpty then [] else '[' :: joinComma (Ast.prints as) ++ [']']) ++ r) us ∧
        OptArgs .parenOpen .parenClose us (Ast.raws ts) := by
      intro col
      match ts, hts with
      | [], _ => exact ⟨[], .nil _ _, .none⟩
      | a :: ts, hts =>
        obtain ⟨us, h1, h2, -⟩ := shownL_lexed (a :: ts) (by simp) hts .parenClose ')' (.inl ⟨rfl, rfl⟩) (col + 1)
          ((if as.isEmpty then [] else '[' :: joinComma (Ast.prints as) ++ [']']) ++ r)
        have := Lexed.append ((open_next (joinComma (Ast.prints (a :: ts)) ++ [')'] ++
          ((if as.isEmpty then [] else '[' :: joinComma (Ast.prints as) ++ [']']) ++ r))).lexed col) h1
        exact ⟨_, by simpa using this, .some rfl h2⟩
    have hend : Ends ((if ts.isEmpty then [] else '(' :: joinComma (Ast.prints ts) ++ [')']) ++
        ((if as.isEmpty then [] else '[' :: joinComma (Ast.prints as) ++ [']']) ++ r)) := by
      cases ts with
      | cons t ts => exact ⟨by simp; decide, by simp⟩
      | nil =>
        cases as with
        | cons a as => exact ⟨by simp; decide, by simp⟩
        | nil => exact hr.ends
    obtain ⟨us1, l1, p1⟩ := h1 (col + f.length)
    obtain ⟨us2, l2, p2⟩ := h2 (col + f.length + (if ts.isEmpty then [] else '(' :: joinComma (Ast.prints ts) ++ [')']).length)
    have l12 := Lexed.append l1 l2
    have hn := hne hend
    rw [← List.append_assoc] at hn
    have := Lexed.append (hn.lexed col) l12
    have e : (Ast.lit f ts as).top = 8 := Ast.top_pos id
    refine ⟨_, ?_, e ▸ .lit (t := ⟨f, .functor, col, col + f.length⟩) rfl p1 p2,
      fun _ _ _ _ => .mk (t := ⟨f, .functor, col, col + f.length⟩) rfl p1 p2⟩
    rw [Ast.print, List.append_assoc]
    exact this
  | .list [], _, col, r, _ => by
    have := Lexed.append ((bracketOpen_next ([']'] ++ r)).lexed col) ((bracketClose_next r).lexed (col + 1))
    exact shown_atom id this (.list rfl (.nil rfl)) (by intro _ _ _ h; cases h)
  | .list (a :: as), hs, col, r, _ => by
    obtain ⟨us, h1, -, h2⟩ := shownL_lexed (a :: as) (by simp) hs .bracketClose ']' (.inr ⟨rfl, rfl⟩) (col + 1) r
    have := Lexed.append ((bracketOpen_next (joinComma (Ast.prints (a :: as)) ++ [']'] ++ r)).lexed col) h1
    exact shown_atom id (by rw [Ast.print]; exact this) (.list rfl (h2 rfl)) (by intro _ _ _ h; cases h)
  | .linked h t, hs, col, r, _ => by
    have hv : ∀ d ∈ (t.print ++ ([']'] ++ r)).head?, d ∉ Kind.opOr.longer := by
      obtain ⟨c, u, e, hc⟩ := print_head hs.2
      rw [e]
      simp [Kind.longer, hc.2.2.1, hc.2.2.2.1]
    obtain ⟨us, h1, p1, -⟩ := shown_lexed h hs.1 (col + 1) ('|' :: (t.print ++ ([']'] ++ r))) (bound_cons (by simp) _)
    obtain ⟨vs, h2, p2, -⟩ := shown_lexed t hs.2 (col + 1 + h.print.length + 1) (']' :: r) (bound_cons (by simp) _)
    have l4 := Lexed.append h2 ((bracketClose_next r).lexed _)
    have l3 := Lexed.append ((symbol_next (k := .opOr) (r := t.print ++ [']'] ++ r) rfl (by simpa using hv) (by decide)).lexed (col + 1 + h.print.length)) l4
    have l2 := Lexed.append (v := '|' :: (t.print ++ [']'])) (by simpa using h1) l3
    have l1 := Lexed.append ((bracketOpen_next (h.print ++ '|' :: (t.print ++ [']']) ++ r)).lexed col) l2
    have e : '[' :: h.print ++ '|' :: t.print ++ [']'] = ['['] ++ (h.print ++ '|' :: (t.print ++ [']'])) := by simp
    have := h.top_le
    have := t.top_le
    refine shown_atom id (by rw [Ast.print, e]; exact l1) ?_ (by intro _ _ _ h; cases h)
    exact .linked (ts := us) (o := ⟨['['], .bracketOpen, _, _⟩) rfl (p1.lift (by omega) (by omega))
      (.last (t := ⟨['|'], .opOr, _, _⟩) (c := ⟨[']'], .bracketClose, _, _⟩) rfl (p2.lift (by omega) (by omega)) rfl)
  | .un op a, hs, col, r, _ => by
    obtain ⟨c, u, e, hc⟩ := print_head (a := a) hs
    obtain ⟨us, h1, p1, -⟩ := shown_lexed a hs (col + 1 + op.lexeme.length + 1) (')' :: r) (bound_cons (by simp) _)
    have l4 := Lexed.append h1 ((close_next r).lexed _)
    have l3 := Lexed.append (lexed_space (r := a.print ++ [')'] ++ r) (by rw [e]; simp [hc.space]) (col + 1 + op.lexeme.length)) l4
    have l2 := Lexed.append ((unop_next op (a.print ++ [')'] ++ r)).lexed (col + 1)) l3
    have l1 := Lexed.append ((open_next (op.lexeme ++ ' ' :: (a.print ++ [')']) ++ r)).lexed col) l2
    have e : '(' :: op.lexeme ++ ' ' :: a.print ++ [')'] = ['('] ++ (op.lexeme ++ ' ' :: (a.print ++ [')'])) := by simp
    have hl : op.level ≤ 6 := by cases op <;> simp [UnOp.level]
    have := a.top_le
    refine shown_atom id (by rw [Ast.print, e]; exact l1) ?_ (by intro _ _ _ h; cases h)
    exact .paren (o := ⟨['('], .parenOpen, _, _⟩) (c := ⟨[')'], .parenClose, _, _⟩) rfl
      ((Phrase.un (u := op) (t := ⟨op.lexeme, op.kind, _, _⟩) rfl (p1.lift (by omega) (by omega))).lift (Nat.zero_le _) (by omega)) rfl
  | .bin op x y, hs, col, r, _ => by
    obtain ⟨c, u, e, hc⟩ := print_head hs.2.1
    obtain ⟨us, h1, p1, -⟩ := shown_lexed x hs.1 (col + 1) (' ' :: (op.lexeme ++ ' ' :: (y.print ++ ([')'] ++ r)))) (bound_cons (by simp) _)
    obtain ⟨vs, h2, p2, -⟩ := shown_lexed y hs.2.1 (col + 1 + x.print.length + 1 + op.lexeme.length + 1) (')' :: r) (bound_cons (by simp) _)
    have l6 := Lexed.append h2 ((close_next r).lexed _)
    have l5 := Lexed.append (lexed_space (r := y.print ++ [')'] ++ r) (by rw [e]; simp [hc.space]) (col + 1 + x.print.length + 1 + op.lexeme.length)) l6
    have l4 := Lexed.append ((binop_next op (y.print ++ [')'] ++ r)).lexed (col + 1 + x.print.length + 1)) l5
    have hop : ∀ s, ∀ d ∈ (op.lexeme ++ s).head?, Unicode.space d = false := by
      intro s d hd
      have : d.toNat < 128 ∧ 32 < d.toNat := by
        cases op <;> simp only [BinOp.lexeme, List.cons_append, List.head?_cons, Option.mem_def, Option.some.injEq] at hd <;> subst hd <;>
          decide
      rw [Unicode.space_ascii _ this.1]
      simp
      omega
    have l3 := Lexed.append (lexed_space (r := op.lexeme ++ ' ' :: (y.print ++ [')']) ++ r) (by rw [List.append_assoc]; exact hop _) (col + 1 + x.print.length)) l4
    have l2 := Lexed.append (v := ' ' :: (op.lexeme ++ ' ' :: (y.print ++ [')']))) (by simpa using h1) l3
    have l1 := Lexed.append ((open_next (x.print ++ ' ' :: (op.lexeme ++ ' ' :: (y.print ++ [')'])) ++ r)).lexed col) l2
    have := op.level_le
    have e : '(' :: x.print ++ ' ' :: op.lexeme ++ ' ' :: y.print ++ [')'] =
      ['('] ++ (x.print ++ ' ' :: (op.lexeme ++ ' ' :: (y.print ++ [')']))) := by simp
    refine shown_atom id (by rw [Ast.print, e]; exact l1) ?_ (by intro _ _ _ h; cases h)
    have tx := x.top_le
    have ty := y.top_le
    have left : Phrase (op.level + 1) us x.raw := by
      by_cases hop : op = .pow
      · have h8 := Ast.top_pos (hs.2.2 hop)
        subst hop
        exact p1.lift (by rw [h8]; simp [BinOp.level]) (by omega)
      · have : op.level ≤ 5 := by cases op <;> first | exact absurd rfl hop | simp [BinOp.level]
        exact p1.lift (by omega) (by omega)
    have right : Phrase (op.level + 1) vs y.raw ∨ (op = .pow ∧ Phrase 6 vs y.raw) := by
      by_cases hop : op = .pow
      · exact .inr ⟨hop, p2.lift (by omega) (by omega)⟩
      · have : op.level ≤ 5 := by cases op <;> first | exact absurd rfl hop | simp [BinOp.level]
        exact .inl (p2.lift (by omega) (by omega))
    have p := Phrase.paren (o := ⟨['('], .parenOpen, col, col + 1⟩) (c := ⟨[')'], .parenClose, col + 1 + x.print.length + 1 + op.lexeme.length + 1 + y.print.length,
        col + 1 + x.print.length + 1 + op.lexeme.length + 1 + y.print.length + 1⟩) rfl
      ((Phrase.bin (op := op) (t := ⟨op.lexeme, op.kind, col + 1 + x.print.length + 1, col + 1 + x.print.length + 1 + op.lexeme.length⟩) rfl left right).lift (Nat.zero_le _) (by omega)) rfl
    rw [Ast.raw]
    simpa using p

theorem shownL_lexed : ∀ (as : List Ast), as ≠ [] → Ast.ShownL as → ∀ (k : Kind) (c : Char),
    (k = .parenClose ∧ c = ')') ∨ (k = .bracketClose ∧ c = ']') → ∀ (col : Nat) (r : List Char),
    ∃ ts, Lexed (joinComma (Ast.prints as) ++ [c]) col r ts ∧ Args k ts (Ast.raws as) ∧ (k = .bracketClose → Items ts (Ast.raws as))
  | [a], _, hs, k, c, hk, col, r => by
    have hc : NextTok k [c] r := by
      rcases hk with ⟨rfl, rfl⟩ | ⟨rfl, rfl⟩
      · exact close_next r
      · exact bracketClose_next r
    have := a.top_le
    obtain ⟨us, h1, p1, -⟩ := shown_lexed a hs.1 col (c :: r) (bound_cons (by rcases hk with ⟨-, rfl⟩ | ⟨-, rfl⟩ <;> simp) _)
    refine ⟨_, Lexed.append h1 (hc.lexed _), .last rfl (p1.lift (by omega) (by omega)), ?_⟩
    rintro rfl
    exact .last rfl (p1.lift (by omega) (by omega))
  | a :: b :: as, _, hs, k, c, hk, col, r => by
    obtain ⟨d, u, e, hd⟩ := print_head hs.2.1
    have := a.top_le
    obtain ⟨us, h1, p1, -⟩ := shown_lexed a hs.1 col (',' :: ' ' :: (joinComma (Ast.prints (b :: as)) ++ ([c] ++ r))) (bound_cons (by simp) _)
    obtain ⟨vs, h2, p2, p3⟩ := shownL_lexed (b :: as) (by simp) hs.2 k c hk (col + a.print.length + 1 + 1) r
    have hsp : ∀ x ∈ (joinComma (Ast.prints (b :: as)) ++ [c] ++ r).head?, Unicode.space x = false := by
      have : ∃ w, joinComma (Ast.prints (b :: as)) = d :: w := by
        cases as with
        | nil => exact ⟨u, by simp [Ast.prints, joinComma, e]⟩
        | cons x as => exact ⟨_, by simp [Ast.prints, joinComma, e]; rfl⟩
      obtain ⟨w, hw⟩ := this
      rw [hw]
      simp [hd.space]
    have l3 := Lexed.append (lexed_space hsp (col + a.print.length + 1)) h2
    have l2 := Lexed.append ((comma_next (' ' :: (joinComma (Ast.prints (b :: as)) ++ [c]) ++ r)).lexed (col + a.print.length)) l3
    have l1 := Lexed.append (v := ',' :: ' ' :: (joinComma (Ast.prints (b :: as)) ++ [c])) (by simpa using h1) l2
    have e : joinComma (Ast.prints (a :: b :: as)) ++ [c] = a.print ++ ',' :: ' ' :: (joinComma (Ast.prints (b :: as)) ++ [c]) := by
      simp [Ast.prints, joinComma]
    refine ⟨_, by rw [e]; exact l1, ?_, ?_⟩
    · exact .more (t := ⟨[','], .comma, _, _⟩) rfl (p1.lift (by omega) (by omega)) p2
    · exact fun h => .more (t := ⟨[','], .comma, _, _⟩) rfl (p1.lift (by omega) (by omega)) (p3 h)

end

end

section
variable [Floats]

/-! ## No tabs or line breaks are printed -/

/-- Printable ASCII characters (and DEL). -/
def PlainText (u : List Char) : Prop := ∀ c ∈ u, 32 ≤ c.toNat ∧ c.toNat < 128

omit [Floats] in
theorem plain_visible {u : List Char} (h : ∀ c ∈ u, Visible c) : PlainText u := fun c hc => ⟨Nat.le_of_lt (h c hc).2.1, (h c hc).1⟩

omit [Floats] in
theorem PlainText.append {u v : List Char} (hu : PlainText u) (hv : PlainText v) : PlainText (u ++ v) := by
  intro c hc
  simp only [List.mem_append] at hc
  exact hc.elim (hu c) (hv c)

omit [Floats] in
theorem PlainText.cons {c : Char} {v : List Char} (hc : 32 ≤ c.toNat ∧ c.toNat < 128) (hv : PlainText v) : PlainText (c :: v) := by
  intro d hd
  simp only [List.mem_cons] at hd
  rcases hd with rfl | hd
  · exact hc
  · exact hv d hd

omit [Floats] in
theorem PlainText.nil : PlainText [] := by intro c hc; cases hc

omit [Floats] in
theorem plain_join : ∀ {us : List (List Char)}, (∀ u ∈ us, PlainText u) → PlainText (joinComma us)
  | [], _ => .nil
  | [u], h => by simpa [joinComma] using h
  | u :: v :: us, h => by
    have := plain_join (us := v :: us) fun u hu => h u (List.mem_cons_of_mem _ hu)
    rw [joinComma]
    · exact (h u (by simp)).append (.cons (by decide) (.cons (by decide) this))
    · simp

omit [Floats] in
theorem plain_un (op : UnOp) : PlainText op.lexeme := by cases op <;> (unfold PlainText; decide)

omit [Floats] in
theorem plain_bin (op : BinOp) : PlainText op.lexeme := by cases op <;> (unfold PlainText; decide)

omit [Floats] in
theorem plain_string {s : List Nat} (h : ∀ c ∈ s, c < 0x110000) : PlainText (reprString s) := by
  rw [reprString_eq]
  refine .append (.cons (by decide) ?_) (.cons (by decide) .nil)
  intro x hx
  simp only [List.mem_flatMap] at hx
  obtain ⟨c, hc, hx⟩ := hx
  rcases enc_cases (h c hc) with ⟨ch, he, ht, h1, h2, -⟩ | ⟨y, he, hy⟩ | ⟨y, w, he, -, hy⟩
  · rw [he] at hx
    simp at hx
    subst hx
    omega
  · rw [he] at hx
    simp at hx hy
    rcases hx with rfl | rfl
    · decide
    · rcases hy with ⟨-, rfl⟩ | ⟨-, rfl⟩ | ⟨-, rfl⟩ | ⟨-, rfl⟩ | ⟨-, rfl⟩ <;> decide
  · rw [he] at hx
    simp only [List.mem_cons] at hx
    rcases hx with rfl | rfl | hx
    · decide
    · simp at hy; rcases hy with ⟨rfl, -⟩ | ⟨rfl, -⟩ | ⟨rfl, -⟩ <;> decide
    · obtain ⟨d, hd, rfl⟩ := hex_mem hx
      have : ∀ d < 16, 32 ≤ (hexDigit d).toNat ∧ (hexDigit d).toNat < 128 := by decide
      exact this d hd

mutual
theorem print_plain : ∀ (a : Ast), a.Shown → PlainText a.print
  | .const (.bool true), _ => by simp only [Ast.print, ConstV.print]; unfold PlainText; decide
  | .const (.bool false), _ => by simp only [Ast.print, ConstV.print]; unfold PlainText; decide
  | .const (.num .inf), hs => hs.elim
  | .const (.num (.fin q)), hs => by
    obtain ⟨u, hu⟩ := hs
    by_cases hq : q < 0
    · rw [if_pos hq] at hu
      rw [Ast.print, ConstV.print, print_negative hu hq]
      exact .cons (by decide) (plain_visible (Floats.print_text hu).visible.2)
    · rw [if_neg hq] at hu
      exact plain_visible (Floats.print_text hu).visible.2
  | .const (.str s), hs => plain_string hs
  | .var x, hs => plain_visible hs.visible.2
  | .lit f ts as, hs => by
    have h1 := plain_visible hs.1.visible.2
    have h2 := plain_join (prints_plain ts hs.2.1)
    have h3 := plain_join (prints_plain as hs.2.2)
    have b : ∀ (o c : Char) {v : List Char}, 32 ≤ o.toNat ∧ o.toNat < 128 → 32 ≤ c.toNat ∧ c.toNat < 128 → PlainText v → ∀ e : Bool,
        PlainText (if e then [] else o :: v ++ [c]) := by
      intro o c v ho hc hv e
      cases e
      · exact .append (.cons ho hv) (.cons hc .nil)
      · exact .nil
    rw [Ast.print]
    exact .append (.append h1 (b _ _ (by decide) (by decide) h2 _)) (b _ _ (by decide) (by decide) h3 _)
  | .list ts, hs => by
    rw [Ast.print]
    exact .append (.cons (by decide) (plain_join (prints_plain ts hs))) (.cons (by decide) .nil)
  | .linked h t, hs => by
    rw [Ast.print]
    exact .append (.append (.cons (by decide) (print_plain h hs.1)) (.cons (by decide) (print_plain t hs.2))) (.cons (by decide) .nil)
  | .un op a, hs => by
    rw [Ast.print]
    exact .append (.append (.cons (by decide) (plain_un op)) (.cons (by decide) (print_plain a hs))) (.cons (by decide) .nil)
  | .bin op x y, hs => by
    rw [Ast.print]
    exact .append (.append (.append (.cons (by decide) (print_plain x hs.1)) (.cons (by decide) (plain_bin op)))
      (.cons (by decide) (print_plain y hs.2.1))) (.cons (by decide) .nil)

theorem prints_plain : ∀ (as : List Ast), Ast.ShownL as → ∀ u ∈ Ast.prints as, PlainText u
  | [], _ => by simp [Ast.prints]
  | a :: as, hs => by
    intro u hu
    simp only [Ast.prints, List.mem_cons] at hu
    rcases hu with rfl | hu
    · exact print_plain a hs.1
    · exact prints_plain as hs.2 u hu
end

/-! ## Terms of a source text -/

mutual
theorem source_shown : ∀ (a : Ast), a.Source → a.Finite → a.Shown ∧ a.raw = a ∧ ¬a.IsNegative
  | .const (.bool _), _, _ => ⟨trivial, rfl, id⟩
  | .const (.num .inf), _, hf => absurd rfl hf
  | .const (.num (.fin q)), hs, _ => by
    obtain ⟨u, hu⟩ := hs
    have hq : ¬q < 0 := Rat.not_lt.2 (Floats.read_nonneg hu)
    exact ⟨⟨u, by rw [if_neg hq]; exact hu⟩, by rw [Ast.raw, if_neg hq], hq⟩
  | .const (.str s), hs, _ => ⟨hs, rfl, id⟩
  | .var x, hs, _ => ⟨hs, rfl, id⟩
  | .lit f ts as, hs, hf => by
    obtain ⟨h1, e1⟩ := source_shownL ts hs.2.1 hf.1
    obtain ⟨h2, e2⟩ := source_shownL as hs.2.2 hf.2
    exact ⟨⟨hs.1, h1, h2⟩, by rw [Ast.raw, e1, e2], id⟩
  | .list ts, hs, hf => by
    obtain ⟨h1, e1⟩ := source_shownL ts hs hf
    exact ⟨h1, by rw [Ast.raw, e1], id⟩
  | .linked h t, hs, hf => by
    obtain ⟨h1, e1, -⟩ := source_shown h hs.1 hf.1
    obtain ⟨h2, e2, -⟩ := source_shown t hs.2 hf.2
    exact ⟨⟨h1, h2⟩, by rw [Ast.raw, e1, e2], id⟩
  | .un op a, hs, hf => by
    obtain ⟨h1, e1, -⟩ := source_shown a hs hf
    exact ⟨h1, by rw [Ast.raw, e1], id⟩
  | .bin op x y, hs, hf => by
    obtain ⟨h1, e1, n1⟩ := source_shown x hs.1 hf.1
    obtain ⟨h2, e2, -⟩ := source_shown y hs.2 hf.2
    exact ⟨⟨h1, h2, fun _ => n1⟩, by rw [Ast.raw, e1, e2], id⟩

theorem source_shownL : ∀ (as : List Ast), Ast.Sources as → Ast.Finites as → Ast.ShownL as ∧ Ast.raws as = as
  | [], _, _ => ⟨trivial, rfl⟩
  | a :: as, hs, hf => by
    obtain ⟨h1, e1, -⟩ := source_shown a hs.1 hf.1
    obtain ⟨h2, e2⟩ := source_shownL as hs.2 hf.2
    exact ⟨⟨h1, h2⟩, by rw [Ast.raws, e1, e2]⟩
end

/-- The tokens of a printed term of a source text. -/
theorem print_lexed [Unicode] (a : Ast) (hs : a.Source) (hf : a.Finite) (col : Nat) (r : List Char) (hr : Bound r) :
    ∃ ts, Lexed a.print col r ts ∧ Phrase 8 ts a := by
  obtain ⟨h1, e, hn⟩ := source_shown a hs hf
  obtain ⟨ts, hl, hp, -⟩ := shown_lexed a h1 col r hr
  rw [Ast.top_pos hn, e] at hp
  exact ⟨ts, hl, hp⟩

omit [Floats] in
theorem PlainText.tab {u : List Char} (h : PlainText u) : '\t' ∉ u := fun hm => absurd (h _ hm).1 (by decide)

theorem print_tab (a : Ast) (hs : a.Source) (hf : a.Finite) : '\t' ∉ a.print := (print_plain a (source_shown a hs hf).1).tab

end

end Verif
