import Verif.Lemmas.Print
import Verif.Lemmas.Sourced
import Verif.Props.Parser

/-!
# C41: printing and parsing terms

`str(term)` of a term without infinite numbers is parsed to the same term.  An infinite
number, which is what `1e999` is read as, is printed as `inf`, and parsed as a literal.
-/

namespace Verif

section
variable [Unicode] [Floats]

/-- A text is read as a term: there are no illegal characters, all tokens of the text are
used, and the parser does not fail. -/
def ReadAs (u : List Char) (a : Ast) : Prop :=
  ∃ ts stop, stop.kind = Kind.fullstop ∧ tokenize 1 [u ++ ['.']] = some ((ts ++ [stop]).map fun t => (1, .tok t)) ∧
    ∃ N, ∀ n, N ≤ n → parseTerm n (ts ++ [stop]) = .ok (a, [stop])

omit [Unicode] [Floats] in
theorem ends_fullstop (i j : Nat) : EndsPhrase 0 ⟨['.'], .fullstop, i, j⟩ := by
  refine ⟨⟨?_, ?_⟩, ?_, by simp, by simp⟩
  · intro w hw; cases hw; rfl
  · intro k hk; cases k <;> first | rfl | cases hk
  · intro op _; cases op <;> simp [BinOp.kind]

/-- A text that has the tokens of a term is read as that term. -/
theorem readAs_of_lexed {u : List Char} {ts : List Tok} {a : Ast} (ht : '\t' ∉ u) (hl : Lexed u 0 ['.'] ts) (hp : Phrase 0 ts a) :
    ReadAs u a := by
  have hl' := Lexed.append (v := ['.']) (r := []) hl (stop_next.lexed (0 + u.length))
  refine ⟨ts, ⟨['.'], .fullstop, 0 + u.length, 0 + u.length + 1⟩, rfl, ?_, ?_⟩
  · obtain ⟨-, m, hm, h⟩ := hl'
    have e : expandTabs (u ++ ['.']) = u ++ ['.'] := expandTabs_id (by simp [ht])
    obtain ⟨k, hk⟩ := Nat.exists_eq_add_of_le hm
    have := h (k + 1)
    rw [List.append_nil, show k + 1 + m = (u ++ ['.']).length + 1 by omega] at this
    rw [tokenize, scanLines, scanLine, e, this]
    simp [scan, scanLines]
  · obtain ⟨N, h⟩ := C44_complete hp hl.1
    exact ⟨N, fun n hn => h n hn _ [] (ends_fullstop _ _)⟩

/-- Printed terms are read as the same term. -/
theorem print_readAs {a : Ast} (hs : a.Source) (hf : a.Finite) : ReadAs a.print a := by
  obtain ⟨ts, h1, h2⟩ := print_lexed a hs hf 0 ['.'] bound_stop
  exact readAs_of_lexed (print_tab a hs hf) h1 (h2.lift (by omega) (by omega))

/-- Terms that have been parsed consist of names, numbers and strings of the source. -/
theorem C41_source {l : Nat} {lines : List (List Char)} {evs : List (Nat × LexEv)} (h : tokenize l lines = some evs)
    {pre ts rest : List Tok} (ht : toksOf (evs.map Prod.snd) = pre ++ ts) {n : Nat} {a : Ast}
    (hp : parseTerm n ts = .ok (a, rest)) : a.Source := by
  have good : AllGood ts := by
    intro t hm
    have : t ∈ toksOf (evs.map Prod.snd) := by rw [ht]; simp [hm]
    simp only [toksOf, List.mem_filterMap, List.mem_map] at this
    obtain ⟨e, ⟨⟨i, e'⟩, he, rfl⟩, h2⟩ := this
    cases e' with
    | tok t' => cases h2; exact tokenize_good h i _ he
    | illegal => cases h2
  obtain ⟨us, rfl, h1, -⟩ := C44_sound (fun t hm => (good t hm).proper) hp
  exact phrase_source h1 good.left

/-- A term that has been parsed anywhere in a file, and has no infinite number in it, is
printed in such a way that it is read as the same term.  Missing: terms with infinite
numbers, for which this is false, see `C41_infinity`. -/
theorem C41_partial {l : Nat} {lines : List (List Char)} {evs : List (Nat × LexEv)} (h : tokenize l lines = some evs)
    {pre ts rest : List Tok} (ht : toksOf (evs.map Prod.snd) = pre ++ ts) {n : Nat} {a : Ast}
    (hp : parseTerm n ts = .ok (a, rest)) (hf : a.Finite) : ReadAs a.print a := print_readAs (C41_source h ht hp) hf

/-- A text is not read as two terms. -/
theorem readAs_unique {u : List Char} {a b : Ast} (ha : ReadAs u a) (hb : ReadAs u b) : a = b := by
  obtain ⟨ts, s, -, h1, N, h2⟩ := ha
  obtain ⟨ts', s', -, h3, M, h4⟩ := hb
  rw [h1] at h3
  have e := List.map_inj_right (f := fun t => ((1 : Nat), LexEv.tok t)) (by intro x y h; cases h; rfl) |>.1 (Option.some.inj h3)
  have e1 := h2 (max N M) (by omega)
  rw [e, h4 (max N M) (by omega)] at e1
  cases e1
  rfl

/-- Different terms are printed differently. -/
theorem C41_injective {a b : Ast} (ha : a.Source) (hfa : a.Finite) (hb : b.Source) (hfb : b.Finite) (h : a.print = b.print) : a = b :=
  readAs_unique (print_readAs ha hfa) (h ▸ print_readAs hb hfb)

/-- Where `1e999` is read as an infinite number, the text `1e999` is read as a term that is
printed as a text that is read as another term. -/
theorem C41_infinity (h : Floats.read "1e999".toList = .inf) :
    ∃ a, ReadAs "1e999".toList a ∧ ¬ ReadAs a.print a ∧ ReadAs a.print (.lit "inf".toList [] []) := by
  have e : ReadAs "inf".toList (.lit "inf".toList [] []) := by
    have : (Ast.lit "inf".toList [] []).print = "inf".toList := by simp [Ast.print]
    rw [← this]
    refine print_readAs ⟨?_, trivial, trivial⟩ ⟨trivial, trivial⟩
    exact ⟨false, false, "inf".toList, [], by simp [dotted], ⟨'i', ['n', 'f'], rfl, by decide, by decide⟩, by simp, fun _ => by decide⟩
  refine ⟨.const (.num .inf), ?_, fun h => ?_, e⟩
  · have l := (numeric_next (u := "1e999".toList) (r := ['.'])
      ⟨['1'], [], ['e', '9', '9', '9'], by decide, by decide, .inl rfl, .inr ⟨[], ['9', '9', '9'], rfl, .inl rfl, by decide, by decide⟩⟩ bound_stop).lexed 0
    have := readAs_of_lexed (by decide) l (Phrase.lift (l := 0) (l' := 8) (by omega) (by omega) (.num rfl))
    rw [h] at this
    exact this
  · cases readAs_unique h e

end

section examples
attribute [local instance] asciiText toyFloats

/-- `p(-A + 12, "a\nb")[q].` -/
private def line : List Char :=
  ['p', '(', '-', 'A', ' ', '+', ' ', '1', '2', ',', ' ', '"', 'a', '\\', 'n', 'b', '"', ')', '[', 'q', ']', '.']
private def toks : List Tok :=
  [⟨['p'], .functor, 0, 1⟩, ⟨['('], .parenOpen, 1, 2⟩, ⟨['-'], .opMinus, 2, 3⟩, ⟨['A'], .var, 3, 4⟩, ⟨['+'], .opPlus, 5, 6⟩,
   ⟨['1', '2'], .numeric, 7, 9⟩, ⟨[','], .comma, 9, 10⟩, ⟨['"', 'a', '\\', 'n', 'b', '"'], .string, 11, 17⟩,
   ⟨[')'], .parenClose, 17, 18⟩, ⟨['['], .bracketOpen, 18, 19⟩, ⟨['q'], .functor, 19, 20⟩, ⟨[']'], .bracketClose, 20, 21⟩,
   ⟨['.'], .fullstop, 21, 22⟩]
private def tree : Ast :=
  .lit ['p'] [.bin .add (.un .neg (.var ['A'])) (.const (.num (.fin 12))), .const (.str [97, 10, 98])] [.lit ['q'] [] []]

private theorem line_toks : tokenize 1 [line] = some (toks.map fun t => (1, .tok t)) := by rfl
private theorem toks_tree : parseTerm 60 toks = .ok (tree, [⟨['.'], .fullstop, 21, 22⟩]) := by rfl

example : tree.print = "p(((- A) + 12), \"a\\nb\")[q]".toList := by rfl
example : ReadAs tree.print tree :=
  C41_partial (pre := []) line_toks rfl toks_tree ⟨⟨⟨trivial, by simp [Ast.Finite]⟩, trivial, trivial⟩, ⟨trivial, trivial⟩, trivial⟩
example : ∃ a, ReadAs "1e999".toList a ∧ ¬ ReadAs a.print a ∧ ReadAs a.print (.lit "inf".toList [] []) := C41_infinity rfl

/-- The left operand of `-` may be a difference, the right operand only in parentheses:
these are printed differently. -/
example : (Ast.bin .sub (.bin .sub (.var ['A']) (.var ['B'])) (.var ['C'])).print = "((A - B) - C)".toList ∧
    (Ast.bin .sub (.var ['A']) (.bin .sub (.var ['B']) (.var ['C']))).print = "(A - (B - C))".toList := by decide

end examples

end Verif
