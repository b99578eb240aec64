import Verif.Lemmas.PrintValid
import Verif.Props.Script
import Verif.Props.Print
import Verif.Spec.Printed
import Verif.Spec.ToyFloats

/-!
# Printing agents (C61)

`AstAgent.__str__` gives a text for every agent that has been parsed.  The text is read again
by the lexer (by lines), the parser and the folding of constants, and the result is the agent
that has been printed, if

- no number is infinite, and every number is one that `float` gives for some text, up to its sign,
- no negative number is the left operand of `**`,
- and no `else` branch is empty; otherwise it is the agent without these branches.
-/

namespace Verif

section
variable [Unicode] [Floats] [Arith]

omit [Floats] [Arith] in
theorem FromText.good {ts : List Tok} (h : FromText ts) : AllGood ts := by
  obtain ⟨l, lines, evs, h, rfl⟩ := h
  intro t hm
  simp only [toksOf, List.mem_filterMap, List.mem_map] at hm
  obtain ⟨e, ⟨⟨i, e'⟩, he, rfl⟩, h2⟩ := hm
  cases e' with
  | tok t' => cases h2; exact tokenize_good h i _ he
  | illegal => cases h2

omit [Floats] [Arith] in
theorem FromText.proper {ts : List Tok} (h : FromText ts) : AllProper ts := fun t hm => (h.good t hm).proper

/-- What can be printed and read is read. -/
theorem shown_readsAs {b : AAgent} (hs : b.Shown) (hv : ValidAgent b b) : ReadsAs b.print b.tidy := by
  have hl := agent_lexed hs
  have key : ∃ ts evs, tokenize 1 (fileLines b.print) = some evs ∧ evs.map Prod.snd = ts.map LexEv.tok ∧ Clauses ts (b.read Ast.raw).clauses := by
    rw [agent_print hs]
    rcases hl.1.lexed with ⟨e, e'⟩ | h
    · rw [e, e']
      exact ⟨[], [], rfl, rfl, .nil⟩
    · obtain ⟨ts, h1, h2⟩ := h [] (.inl rfl)
      obtain ⟨evs, h3, h4⟩ := file_lexed h1 1 hl.1.fine hl.2
      exact ⟨ts, evs, h3, h4, h2⟩
  obtain ⟨ts, evs, h1, h2, h3⟩ := key
  have et : toksOf (evs.map Prod.snd) = ts := by
    rw [h2, toksOf, List.filterMap_map]
    simp [Function.comp_def]
  refine ⟨evs, h1, fun e he => ?_, fun files hf file => ?_⟩
  · have : e.2 ∈ evs.map Prod.snd := List.mem_map_of_mem he
    rw [h2] at this
    obtain ⟨t, -, ht⟩ := List.mem_map.1 this
    exact ⟨t, ht.symm⟩
  · have hp : AllProper (toksOf (evs.map Prod.snd)) := FromText.proper ⟨_, _, _, h1, rfl⟩
    rw [et] at hp ⊢
    have hsc : Script files [normpath file] file ts (b.read Ast.raw).clauses := by
      have := h3.script (Script.nil (files := files) (inc := [normpath file]) (file := file))
      simpa using this
    refine C55_complete (fun p ts h => (hf p ts h).proper) hp hsc ?_
    rw [agentOf_clauses]
    exact agent_raw hv

/-- A text is read as one agent at most. -/
theorem readsAs_unique {u : List Char} {a b : AAgent} (ha : ReadsAs u a) (hb : ReadsAs u b) : a = b := by
  obtain ⟨evs, h1, -, h2⟩ := ha
  obtain ⟨evs', h3, -, h4⟩ := hb
  rw [h1] at h3
  cases h3
  obtain ⟨N, h5⟩ := h2 (fun _ => none) (by simp) []
  obtain ⟨M, h6⟩ := h4 (fun _ => none) (by simp) []
  have e := h5 (max N M) (by omega)
  rw [h6 (max N M) (by omega)] at e
  cases e
  rfl

omit [Arith] in
/-- Without other files, the name of the file plays no role. -/
theorem script_alone {inc : List (List Char)} {file : List Char} {ts : List Tok} {cs : List Clause}
    (h : Script (fun _ => none) inc file ts cs) : ∀ files inc' file', Script files inc' file' ts cs := by
  induction h with
  | nil => intro files inc' file'; exact .nil
  | clause h1 h2 _ ih => intro files inc' file'; exact .clause h1 h2 (ih files inc' file')
  | incl _ _ _ _ _ _ _ _ h => cases h
  | directive h1 h2 h3 h4 _ h5 h6 h7 _ ih1 ih2 => intro files inc' file'; exact .directive h1 h2 h3 h4 (ih1 files inc' file') h5 h6 h7 (ih2 files inc' file')

/-- A text that is accepted without other files is accepted. -/
theorem readsAs_of {u : List Char} {evs : List (Nat × LexEv)} (h : tokenize 1 (fileLines u) = some evs) (ht : ∀ e ∈ evs, ∃ t, e.2 = .tok t)
    {n : Nat} {file : List Char} {b : AAgent} (hp : parseFile (fun _ => none) n file (toksOf (evs.map Prod.snd)) = .ok (some b) 0) : ReadsAs u b := by
  have pr : AllProper (toksOf (evs.map Prod.snd)) := FromText.proper ⟨_, _, _, h, rfl⟩
  obtain ⟨cs, hs, hv⟩ := C55_sound (by simp) pr hp
  exact ⟨evs, h, ht, fun files hf file' => C55_complete (fun p ts h => (hf p ts h).proper) pr (script_alone hs files _ _) hv⟩

/-- A file that has been accepted, perhaps with other files, is printed in such a way that the
text is read as the same agent, without the empty `else` branches.  Missing: infinite numbers,
and negative numbers before `**`, for which this is false, see `C61_power`. -/
theorem C61_partial {ts : List Tok} (ht : FromText ts) {files : List Char → Option (List Tok)} (hf : ∀ p us, files p = some us → FromText us)
    {n : Nat} {file : List Char} {b : AAgent} (h : parseFile files n file ts = .ok (some b) 0) (hc : b.AllTerms Ast.Clear) :
    ReadsAs b.print b.tidy := by
  obtain ⟨cs, hs, hv⟩ := C55_sound (fun p us h => (hf p us h).proper) ht.proper h
  obtain ⟨w1, w2⟩ := agentOf_written (script_written (fun p us h => (hf p us h).good) hs ht.good)
  obtain ⟨w3, w4⟩ := validAgent_formed hv w1 w2
  have hb := C55_stable hv
  exact shown_readsAs (agent_shown hb w3 w4 hc) hb

/-- Without empty `else` branches it is the agent itself. -/
theorem C61_same {ts : List Tok} (ht : FromText ts) {files : List Char → Option (List Tok)} (hf : ∀ p us, files p = some us → FromText us)
    {n : Nat} {file : List Char} {b : AAgent} (h : parseFile files n file ts = .ok (some b) 0) (hc : b.AllTerms Ast.Clear)
    (hb : b.Branches) : ReadsAs b.print b := by
  have := C61_partial ht hf h hc
  rwa [agent_tidy hb] at this

/-- Different agents are printed differently. -/
theorem C61_injective {ts us : List Tok} (ht : FromText ts) (hu : FromText us) {files : List Char → Option (List Tok)}
    (hf : ∀ p us, files p = some us → FromText us) {n m : Nat} {file file' : List Char} {a b : AAgent}
    (ha : parseFile files n file ts = .ok (some a) 0) (hb : parseFile files m file' us = .ok (some b) 0)
    (ca : a.AllTerms Ast.Clear) (cb : b.AllTerms Ast.Clear) (ba : a.Branches) (bb : b.Branches) (h : a.print = b.print) : a = b :=
  readsAs_unique (C61_same ht hf ha ca ba) (h ▸ C61_same hu hf hb cb bb)

end

section
variable [Floats]

mutual
private theorem stmt_again : ∀ s : AStmt, (s.read id).print = s.print ∧ (s.read id).Branches
  | .formula ty t => ⟨rfl, trivial⟩
  | .while_ c b => by
    obtain ⟨h1, h2⟩ := stmts_again b
    rw [AStmt.read, print_while, print_while, h1]
    exact ⟨rfl, h2⟩
  | .for_ c b => by
    obtain ⟨h1, h2⟩ := stmts_again b
    rw [AStmt.read, print_for, print_for, h1]
    exact ⟨rfl, h2⟩
  | .if_ c b => by
    obtain ⟨h1, h2⟩ := stmts_again b
    rw [AStmt.read, print_if, print_if, h1]
    exact ⟨rfl, h2⟩
  | .ifElse c b [] => by
    obtain ⟨h1, h2⟩ := stmts_again b
    rw [AStmt.read, print_if, print_ifElse, h1]
    exact ⟨by simp, h2⟩
  | .ifElse c b (e :: es) => by
    obtain ⟨h1, h2⟩ := stmts_again b
    obtain ⟨h3, h4⟩ := stmt_again e
    obtain ⟨h5, h6⟩ := stmts_again es
    rw [AStmt.read, print_ifElse, print_ifElse, h1, prints_cons, prints_cons, h3, h5]
    exact ⟨by simp, h2, ⟨h4, h6⟩, by simp⟩
private theorem stmts_again : ∀ s : List AStmt, AStmt.prints (AStmt.reads id s) = AStmt.prints s ∧ AStmt.BranchesL (AStmt.reads id s)
  | [] => ⟨rfl, trivial⟩
  | s :: ss => by
    obtain ⟨h1, h2⟩ := stmt_again s
    obtain ⟨h3, h4⟩ := stmts_again ss
    rw [AStmt.reads, prints_cons, prints_cons, h1, h3]
    exact ⟨rfl, h2, h4⟩
end

/-- Empty `else` branches leave no trace in the text. -/
theorem C61_tidy (a : AAgent) : a.tidy.print = a.print ∧ a.tidy.Branches := by
  constructor
  · have e : a.tidy.plans.map APlan.print = a.plans.map APlan.print := by
      simp only [AAgent.tidy, AAgent.read, List.map_map]
      refine List.map_congr_left fun p _ => ?_
      rcases p with ⟨l, ⟨t, g, hd⟩, c, bd⟩
      cases l <;> cases c <;> cases bd <;> simp [APlan.read, APlan.print, printBody, stmts_again, AEvent.print]
    have e1 : a.tidy.rules = a.rules := map_same fun _ _ => rfl
    have e2 : a.tidy.beliefs = a.beliefs := map_same fun _ _ => rfl
    have e3 : a.tidy.goals = a.goals := map_same fun _ _ => rfl
    simp only [AAgent.print, e, e1, e2, e3]
  · intro p hp b hb
    obtain ⟨q, -, rfl⟩ := List.mem_map.1 hp
    simp only [APlan.read, Option.mem_def, Option.map_eq_some_iff] at hb
    obtain ⟨c, -, rfl⟩ := hb
    exact (stmts_again c).2

end

/-! ## Examples -/

section examples
attribute [local instance] asciiText toyFloats exactArith

private def lexed (s : String) : List Tok := ((tokenize 1 [s.toList]).map fun evs => toksOf (evs.map Prod.snd)).getD []

private theorem lexed_from (s : String) : FromText (lexed s) := by
  unfold lexed
  cases h : tokenize 1 [s.toList] with
  | none => exact ⟨1, [], [], rfl, rfl⟩
  | some evs => exact ⟨_, _, _, h, rfl⟩

private abbrev l (f : Char) : Ast := .lit [f] [] []
private abbrev v (x : Char) : Ast := .var [x]
private abbrev num (q : Rat) : Ast := .const (.num (.fin q))

/-- No files to include. -/
private def noFiles : List Char → Option (List Tok) := fun _ => none
private theorem noneFrom : ∀ p ts, noFiles p = some ts → FromText ts := fun _ _ h => by cases h

/-- `!g. v(-3). q(X) :- X == -1 * 4 + Y & not p. @l +!g : q(Z) <- -b(Z); while (c) { !!d; }; if (c) { for (e(X)) { .print("a") } } else { f }.` -/
private def toksX : List Tok :=
  [⟨['!'], .exclam, 0, 1⟩, ⟨['g'], .functor, 1, 2⟩, ⟨['.'], .fullstop, 2, 3⟩, ⟨['v'], .functor, 4, 5⟩,
   ⟨['('], .parenOpen, 5, 6⟩, ⟨['-'], .opMinus, 6, 7⟩, ⟨['3'], .numeric, 7, 8⟩, ⟨[')'], .parenClose, 8, 9⟩,
   ⟨['.'], .fullstop, 9, 10⟩, ⟨['q'], .functor, 11, 12⟩, ⟨['('], .parenOpen, 12, 13⟩, ⟨['X'], .var, 13, 14⟩,
   ⟨[')'], .parenClose, 14, 15⟩, ⟨[':', '-'], .define, 16, 18⟩, ⟨['X'], .var, 19, 20⟩, ⟨['=', '='], .opEq, 21, 23⟩,
   ⟨['-'], .opMinus, 24, 25⟩, ⟨['1'], .numeric, 25, 26⟩, ⟨['*'], .opMult, 27, 28⟩, ⟨['4'], .numeric, 29, 30⟩,
   ⟨['+'], .opPlus, 31, 32⟩, ⟨['Y'], .var, 33, 34⟩, ⟨['&'], .opAnd, 35, 36⟩, ⟨['n', 'o', 't'], .opNot, 37, 40⟩,
   ⟨['p'], .functor, 41, 42⟩, ⟨['.'], .fullstop, 42, 43⟩, ⟨['@'], .at_, 44, 45⟩, ⟨['l'], .functor, 45, 46⟩,
   ⟨['+'], .opPlus, 47, 48⟩, ⟨['!'], .exclam, 48, 49⟩, ⟨['g'], .functor, 49, 50⟩, ⟨[':'], .colon, 51, 52⟩,
   ⟨['q'], .functor, 53, 54⟩, ⟨['('], .parenOpen, 54, 55⟩, ⟨['Z'], .var, 55, 56⟩, ⟨[')'], .parenClose, 56, 57⟩,
   ⟨['<', '-'], .arrow, 58, 60⟩, ⟨['-'], .opMinus, 61, 62⟩, ⟨['b'], .functor, 62, 63⟩, ⟨['('], .parenOpen, 63, 64⟩,
   ⟨['Z'], .var, 64, 65⟩, ⟨[')'], .parenClose, 65, 66⟩, ⟨[';'], .semicolon, 66, 67⟩,
   ⟨['w', 'h', 'i', 'l', 'e'], .tokWhile, 68, 73⟩, ⟨['('], .parenOpen, 74, 75⟩, ⟨['c'], .functor, 75, 76⟩,
   ⟨[')'], .parenClose, 76, 77⟩, ⟨['{'], .braceOpen, 78, 79⟩, ⟨['!', '!'], .doubleExclam, 80, 82⟩,
   ⟨['d'], .functor, 82, 83⟩, ⟨[';'], .semicolon, 83, 84⟩, ⟨['}'], .braceClose, 85, 86⟩, ⟨[';'], .semicolon, 86, 87⟩,
   ⟨['i', 'f'], .tokIf, 88, 90⟩, ⟨['('], .parenOpen, 91, 92⟩, ⟨['c'], .functor, 92, 93⟩, ⟨[')'], .parenClose, 93, 94⟩,
   ⟨['{'], .braceOpen, 95, 96⟩, ⟨['f', 'o', 'r'], .tokFor, 97, 100⟩, ⟨['('], .parenOpen, 101, 102⟩,
   ⟨['e'], .functor, 102, 103⟩, ⟨['('], .parenOpen, 103, 104⟩, ⟨['X'], .var, 104, 105⟩, ⟨[')'], .parenClose, 105, 106⟩,
   ⟨[')'], .parenClose, 106, 107⟩, ⟨['{'], .braceOpen, 108, 109⟩, ⟨['.', 'p', 'r', 'i', 'n', 't'], .functor, 110, 116⟩,
   ⟨['('], .parenOpen, 116, 117⟩, ⟨['\"', 'a', '\"'], .string, 117, 120⟩, ⟨[')'], .parenClose, 120, 121⟩,
   ⟨['}'], .braceClose, 122, 123⟩, ⟨['}'], .braceClose, 124, 125⟩, ⟨['e', 'l', 's', 'e'], .tokElse, 126, 130⟩,
   ⟨['{'], .braceOpen, 131, 132⟩, ⟨['f'], .functor, 133, 134⟩, ⟨['}'], .braceClose, 135, 136⟩, ⟨['.'], .fullstop, 136, 137⟩]
set_option maxRecDepth 4000 in
private theorem toksX_lex : lexed "!g. v(-3). q(X) :- X == -1 * 4 + Y & not p. @l +!g : q(Z) <- -b(Z); while (c) { !!d; }; if (c) { for (e(X)) { .print(\"a\") } } else { f }." = toksX := by rfl

private def agentX : AAgent where
  rules := [⟨.lit ['q'] [v 'X'] [], .bin .and (.bin .eq (v 'X') (.bin .add (num (-4)) (v 'Y'))) (.un .not (l 'p'))⟩]
  beliefs := [.lit ['v'] [num (-3)] []]
  goals := [l 'g']
  plans := [⟨some (l 'l'), ⟨.addition, .achievement, l 'g'⟩, some (.lit ['q'] [v 'Z'] []),
    some [.formula .remove (.lit ['b'] [v 'Z'] []), .while_ (l 'c') [.formula .achieveLater (l 'd')],
      .ifElse (l 'c') [.for_ (.lit ['e'] [v 'X'] []) [.formula .term (.lit ".print".toList [.const (.str [97])] [])]] [.formula .term (l 'f')]]⟩]

private theorem parseX : parseFile noFiles 90 ['a'] toksX = .ok (some agentX) 0 := by with_unfolding_all rfl

private def printedX : List Char :=
  "q(X) :- ((X == (-4 + Y)) & (not p)).\n\nv(-3).\n\n!g.\n\n@l\n+!g : q(Z) <-\n  -b(Z);\n  while (c) {\n    !!d;\n  };\n  if (c) {\n    for (e(X)) {\n      .print(\"a\");\n    };\n  } else {\n    f;\n  }.".toList

set_option maxRecDepth 4000 in
example : agentX.print = printedX := by with_unfolding_all rfl

private theorem clearX : agentX.AllTerms Ast.Clear := by
  have h3 : (num (-3)).Clear := ⟨['3'], by with_unfolding_all rfl⟩
  have h4 : (num (-4)).Clear := ⟨['4'], by with_unfolding_all rfl⟩
  refine ⟨?_, ?_, ?_, ?_⟩
  · intro r hr
    rcases List.mem_singleton.1 hr with rfl
    exact ⟨⟨⟨trivial, trivial⟩, trivial⟩, ⟨trivial, ⟨h4, trivial, nofun⟩, nofun⟩, ⟨trivial, trivial⟩, nofun⟩
  · intro r hr
    rcases List.mem_singleton.1 hr with rfl
    exact ⟨⟨h3, trivial⟩, trivial⟩
  · intro r hr
    rcases List.mem_singleton.1 hr with rfl
    exact ⟨trivial, trivial⟩
  · intro r hr
    rcases List.mem_singleton.1 hr with rfl
    refine ⟨?_, ⟨trivial, trivial⟩, ?_, ?_⟩ <;> intro x hx <;> cases hx <;>
      simp [Ast.Clear, Ast.ClearL, AStmt.AllTerms, AStmt.AllTermsL]

private theorem branchesX : agentX.Branches := by
  intro p hp b hb
  rcases List.mem_singleton.1 hp with rfl
  cases hb
  simp [AStmt.Branches, AStmt.BranchesL]

example : ReadsAs agentX.print agentX := C61_same (toksX_lex ▸ lexed_from _) noneFrom parseX clearX branchesX

/-- `+!g <- if (a) { b } else { }.` -/
private def toksB : List Tok :=
  [⟨['+'], .opPlus, 0, 1⟩, ⟨['!'], .exclam, 1, 2⟩, ⟨['g'], .functor, 2, 3⟩, ⟨['<', '-'], .arrow, 4, 6⟩,
   ⟨['i', 'f'], .tokIf, 7, 9⟩, ⟨['('], .parenOpen, 10, 11⟩, ⟨['a'], .functor, 11, 12⟩, ⟨[')'], .parenClose, 12, 13⟩,
   ⟨['{'], .braceOpen, 14, 15⟩, ⟨['b'], .functor, 16, 17⟩, ⟨['}'], .braceClose, 18, 19⟩,
   ⟨['e', 'l', 's', 'e'], .tokElse, 20, 24⟩, ⟨['{'], .braceOpen, 25, 26⟩, ⟨['}'], .braceClose, 27, 28⟩,
   ⟨['.'], .fullstop, 28, 29⟩]
private theorem toksB_lex : lexed "+!g <- if (a) { b } else { }." = toksB := by rfl

private def agentB : AAgent where
  plans := [⟨none, ⟨.addition, .achievement, l 'g'⟩, none, some [.ifElse (l 'a') [.formula .term (l 'b')] []]⟩]

private theorem parseB : parseFile noFiles 60 ['a'] toksB = .ok (some agentB) 0 := by with_unfolding_all rfl

/-- An empty `else` branch is lost. -/
theorem C61_branch : ∃ ts b, FromText ts ∧ parseFile (fun _ => none) 60 ['a'] ts = .ok (some b) 0 ∧ b.AllTerms Ast.Clear ∧
    ReadsAs b.print b.tidy ∧ ¬ReadsAs b.print b := by
  have hc : agentB.AllTerms Ast.Clear := by
    refine ⟨fun r hr => (by cases hr), fun r hr => (by cases hr), fun r hr => (by cases hr), fun r hr => ?_⟩
    rcases List.mem_singleton.1 hr with rfl
    refine ⟨?_, ⟨trivial, trivial⟩, ?_, ?_⟩ <;> intro x hx <;> cases hx
    simp [Ast.Clear, Ast.ClearL, AStmt.AllTerms, AStmt.AllTermsL]
  have h := C61_partial (toksB_lex ▸ lexed_from _) noneFrom parseB hc
  refine ⟨toksB, agentB, toksB_lex ▸ lexed_from _, parseB, hc, h, fun h' => ?_⟩
  have e := congrArg AAgent.plans (readsAs_unique h h')
  injection e with e
  injection e with _ _ _ e
  injection e with e
  injection e with e
  cases e

/-- `v(X, Y) :- X == (-2) ** Y.` -/
private def toksP : List Tok :=
  [⟨['v'], .functor, 0, 1⟩, ⟨['('], .parenOpen, 1, 2⟩, ⟨['X'], .var, 2, 3⟩, ⟨[','], .comma, 3, 4⟩, ⟨['Y'], .var, 5, 6⟩,
   ⟨[')'], .parenClose, 6, 7⟩, ⟨[':', '-'], .define, 8, 10⟩, ⟨['X'], .var, 11, 12⟩, ⟨['=', '='], .opEq, 13, 15⟩,
   ⟨['('], .parenOpen, 16, 17⟩, ⟨['-'], .opMinus, 17, 18⟩, ⟨['2'], .numeric, 18, 19⟩, ⟨[')'], .parenClose, 19, 20⟩,
   ⟨['*', '*'], .opPower, 21, 23⟩, ⟨['Y'], .var, 24, 25⟩, ⟨['.'], .fullstop, 25, 26⟩]
private theorem toksP_lex : lexed "v(X, Y) :- X == (-2) ** Y." = toksP := by rfl

/-- What is printed, and what is read then. -/
private def agentP : AAgent where
  rules := [⟨.lit ['v'] [v 'X', v 'Y'] [], .bin .eq (v 'X') (.bin .pow (num (-2)) (v 'Y'))⟩]
private def agentQ : AAgent where
  rules := [⟨.lit ['v'] [v 'X', v 'Y'] [], .bin .eq (v 'X') (.un .neg (.bin .pow (num 2) (v 'Y')))⟩]
private def toksQ : List Tok :=
  [⟨['v'], .functor, 0, 1⟩, ⟨['('], .parenOpen, 1, 2⟩, ⟨['X'], .var, 2, 3⟩, ⟨[','], .comma, 3, 4⟩, ⟨['Y'], .var, 5, 6⟩,
   ⟨[')'], .parenClose, 6, 7⟩, ⟨[':', '-'], .define, 8, 10⟩, ⟨['('], .parenOpen, 11, 12⟩, ⟨['X'], .var, 12, 13⟩,
   ⟨['=', '='], .opEq, 14, 16⟩, ⟨['('], .parenOpen, 17, 18⟩, ⟨['-'], .opMinus, 18, 19⟩, ⟨['2'], .numeric, 19, 20⟩,
   ⟨['*', '*'], .opPower, 21, 23⟩, ⟨['Y'], .var, 24, 25⟩, ⟨[')'], .parenClose, 25, 26⟩, ⟨[')'], .parenClose, 26, 27⟩,
   ⟨['.'], .fullstop, 27, 28⟩]
private theorem toksQ_lex : lexed "v(X, Y) :- (X == (-2 ** Y))." = toksQ := by rfl

private theorem parseP : parseFile noFiles 60 ['a'] toksP = .ok (some agentP) 0 := by with_unfolding_all rfl
private theorem parseQ : parseFile noFiles 60 ['a'] toksQ = .ok (some agentQ) 0 := by with_unfolding_all rfl
private theorem printP : agentP.print = "v(X, Y) :- (X == (-2 ** Y)).".toList := by with_unfolding_all rfl

/-- A negative number before `**` is printed without parentheses, and the text is read as
something else. -/
theorem C61_power : ∃ ts b c, FromText ts ∧ parseFile (fun _ => none) 60 ['a'] ts = .ok (some b) 0 ∧ b.Branches ∧
    ReadsAs b.print c ∧ ¬ReadsAs b.print b := by
  have h : ReadsAs agentP.print agentQ := by
    rw [printP]
    exact readsAs_of (evs := toksQ.map fun t => (1, .tok t)) (by rfl) (by simp) (n := 60) (file := ['a']) parseQ
  refine ⟨toksP, agentP, agentQ, toksP_lex ▸ lexed_from _, parseP, (by intro p hp; cases hp), h, fun h' => ?_⟩
  have e := congrArg AAgent.rules (readsAs_unique h h')
  injection e with e
  injection e with _ e
  injection e with _ _ e
  cases e

end examples

end Verif
