import Verif.Lemmas.Scan
import Verif.Spec.AsciiText

/-!
# C43: the lexer is lossless and always makes progress
-/

namespace Verif

section
variable [Unicode]

/-- Scanning a line comes to an end, and divides all of it into tokens, white space, comments
and illegal characters. -/
theorem C43_lossless (inComment : Bool) (line : List Char) :
    ∃ evs b, scanLine inComment line = some (evs, b) ∧ Lexes inComment 0 (expandTabs line) evs b :=
  scan_covers _ _ _ _ (Nat.lt_succ_self _)

/-- What is yielded or reported is a non-empty slice of the line, at the columns given. -/
theorem Lexes.slice {b : Bool} {s : List Char} {evs : List LexEv} {b' : Bool} {col : Nat}
    (h : Lexes b col s evs b') : ∀ pre : List Char, pre.length = col → ∀ ev ∈ evs,
      col ≤ ev.span.1 ∧ ev.span.1 < ev.span.2 ∧ ev.span.2 ≤ col + s.length ∧
      ((pre ++ s).drop ev.span.1).take (ev.span.2 - ev.span.1) = ev.text := by
  induction h with
  | done => simp
  | inside => simp
  | @close col u r evs b _ _ _ ih =>
    intro pre hp ev hev
    have := ih (pre ++ (u ++ ['*', '/'])) (by simp; omega) ev hev
    simp only [List.append_assoc, List.cons_append, List.nil_append] at this
    refine ⟨by omega, this.2.1, ?_, this.2.2.2⟩
    have := this.2.2.1
    simp; omega
  | @opened col r evs b _ ih =>
    intro pre hp ev hev
    have := ih (pre ++ ['/', '*']) (by simp; omega) ev hev
    simp only [List.append_assoc, List.cons_append, List.nil_append] at this
    refine ⟨by omega, this.2.1, ?_, this.2.2.2⟩
    have := this.2.2.1
    simp; omega
  | @blank col u r evs b _ _ _ ih =>
    intro pre hp ev hev
    have := ih (pre ++ u) (by simp; omega) ev hev
    simp only [List.append_assoc] at this
    refine ⟨by omega, this.2.1, ?_, this.2.2.2⟩
    have := this.2.2.1
    simp; omega
  | @comment col u v r evs b _ _ _ ih =>
    intro pre hp ev hev
    have := ih (pre ++ (u ++ v)) (by simp at hp ⊢; omega) ev hev
    simp only [List.append_assoc] at this ⊢
    refine ⟨by omega, this.2.1, ?_, this.2.2.2⟩
    have := this.2.2.1
    simp at this ⊢; omega
  | @token col u r evs b k hne _ _ _ _ _ _ ih =>
    intro pre hp ev hev
    have hpos : 0 < u.length := List.length_pos_iff.2 hne
    simp only [List.mem_cons] at hev
    rcases hev with rfl | hev
    · simp only [LexEv.span, LexEv.text]
      refine ⟨Nat.le_refl _, by omega, by simp, ?_⟩
      rw [← hp, Nat.add_sub_cancel_left, List.drop_left]
      simp
    · have := ih (pre ++ u) (by simp; omega) ev hev
      simp only [List.append_assoc] at this
      refine ⟨by omega, this.2.1, ?_, this.2.2.2⟩
      have := this.2.2.1
      simp; omega
  | @illegal col c r evs b _ _ ih =>
    intro pre hp ev hev
    simp only [List.mem_cons] at hev
    rcases hev with rfl | hev
    · simp only [LexEv.span, LexEv.text]
      refine ⟨Nat.le_refl _, by omega, by simp, ?_⟩
      rw [← hp, Nat.add_sub_cancel_left, List.drop_left]
      simp
    · have := ih (pre ++ [c]) (by simp; omega) ev hev
      simp only [List.append_assoc, List.cons_append, List.nil_append] at this
      refine ⟨by omega, this.2.1, ?_, this.2.2.2⟩
      have := this.2.2.1
      simp; omega

theorem Lexes.ordered {b : Bool} {s : List Char} {evs : List LexEv} {b' : Bool} {col : Nat}
    (h : Lexes b col s evs b') : evs.Pairwise (fun x y => x.span.2 ≤ y.span.1) := by
  induction h with
  | done => exact .nil
  | inside => exact .nil
  | close _ _ _ ih => exact ih
  | opened _ ih => exact ih
  | blank _ _ _ ih => exact ih
  | comment _ _ _ ih => exact ih
  | @token col u r evs b k hne _ _ _ _ _ h ih =>
    exact .cons (fun ev hev => (h.slice (List.replicate (col + u.length) ' ') (by simp) ev hev).1) ih
  | @illegal col c r evs b _ h ih =>
    exact .cons (fun ev hev => (h.slice (List.replicate (col + 1) ' ') (by simp) ev hev).1) ih

/-- The tokens and illegal characters of a line are non-empty slices of it, in order, that do
not overlap. -/
theorem C43_slices {inComment b : Bool} {line : List Char} {evs : List LexEv}
    (h : scanLine inComment line = some (evs, b)) :
    (∀ ev ∈ evs, ev.span.1 < ev.span.2 ∧ ev.span.2 ≤ (expandTabs line).length ∧
      ((expandTabs line).drop ev.span.1).take (ev.span.2 - ev.span.1) = ev.text) ∧
    evs.Pairwise (fun x y => x.span.2 ≤ y.span.1) := by
  obtain ⟨evs', b', h', hc⟩ := C43_lossless inComment line
  rw [h'] at h
  cases h
  refine ⟨fun ev hev => ?_, hc.ordered⟩
  have := hc.slice [] rfl ev hev
  exact ⟨this.2.1, by simpa using this.2.2.1, by simpa using this.2.2.2⟩

/-- Every token is of a kind whose expression matches its text, and of the first kind with a
match at this place. -/
theorem Lexes.kinds {b : Bool} {s : List Char} {evs : List LexEv} {b' : Bool} {col : Nat}
    (h : Lexes b col s evs b') : ∀ t, LexEv.tok t ∈ evs →
      ∃ r, t.kind.re.Accepts t.lexeme r ∧ t.kind ≠ .space ∧ t.kind ≠ .comment ∧
        ∀ k ∈ Kind.all.takeWhile (· ≠ t.kind), ¬k.re.Possible (t.lexeme ++ r) := by
  induction h with
  | done => simp
  | inside => simp
  | close _ _ _ ih => exact ih
  | opened _ ih => exact ih
  | blank _ _ _ ih => exact ih
  | comment _ _ _ ih => exact ih
  | token _ h1 h2 h3 h4 _ _ ih =>
    intro t ht
    simp only [List.mem_cons] at ht
    rcases ht with ht | ht
    · cases ht; exact ⟨_, h3, h1, h2, h4⟩
    · exact ih t ht
  | illegal _ _ ih =>
    intro t ht
    simp only [List.mem_cons] at ht
    rcases ht with ht | ht
    · cases ht
    · exact ih t ht

theorem C43_kinds {inComment b : Bool} {line : List Char} {evs : List LexEv}
    (h : scanLine inComment line = some (evs, b)) (t : Tok) (ht : LexEv.tok t ∈ evs) :
      ∃ r, t.kind.re.Accepts t.lexeme r ∧ t.kind ≠ .space ∧ t.kind ≠ .comment ∧
        ∀ k ∈ Kind.all.takeWhile (· ≠ t.kind), ¬k.re.Possible (t.lexeme ++ r) := by
  obtain ⟨evs', b', h', hc⟩ := C43_lossless inComment line
  rw [h'] at h
  cases h
  exact hc.kinds t ht

theorem scanLines_covers (ls : List (List Char)) : ∀ (b : Bool) (n : Nat),
    ∃ evs, scanLines b n ls = some evs ∧ LexesLines b n ls evs := by
  induction ls with
  | nil => intro b n; exact ⟨[], rfl, .nil⟩
  | cons l ls ih =>
    intro b n
    obtain ⟨evs, b', h1, h2⟩ := C43_lossless b l
    obtain ⟨rest, h3, h4⟩ := ih b' (n + 1)
    exact ⟨_, by rw [scanLines, h1]; simp only [h3]; rfl, .cons h2 h4⟩

/-- Tokenizing a file comes to an end. -/
theorem C43_file (firstline : Nat) (lines : List (List Char)) :
    ∃ evs, tokenize firstline lines = some evs ∧ LexesLines false firstline lines evs :=
  scanLines_covers _ _ _

end

section examples
attribute [local instance] asciiText

/-- `+!go(X) /* a */ ?` with an illegal `^`. -/
example : scanLine false "+!go(X) /* a */\t^.".toList = some (
    [.tok ⟨['+'], .opPlus, 0, 1⟩, .tok ⟨['!'], .exclam, 1, 2⟩, .tok ⟨['g', 'o'], .functor, 2, 4⟩,
     .tok ⟨['('], .parenOpen, 4, 5⟩, .tok ⟨['X'], .var, 5, 6⟩, .tok ⟨[')'], .parenClose, 6, 7⟩,
     .illegal '^' 19, .tok ⟨['.'], .fullstop, 20, 21⟩], false) := by decide

/-- A comment over two lines. -/
example : tokenize 1 ["a /* b".toList, "c */ \"d\"".toList] = some (
    [(1, .tok ⟨['a'], .functor, 0, 1⟩), (2, .tok ⟨['"', 'd', '"'], .string, 5, 8⟩)]) := by decide

/-- A keyword is a functor if more letters follow. -/
example : scanLine false "not note".toList = some (
    [.tok ⟨['n', 'o', 't'], .opNot, 0, 3⟩, .tok ⟨['n', 'o', 't', 'e'], .functor, 4, 8⟩], false) := by decide

end examples

end Verif
