import Verif.Lemmas.ScriptAgent
import Verif.Lemmas.ValidAgent
import Verif.Props.Parser
import Verif.Spec.ExactArith

/-!
# C55: the parser accepts exactly the files of the grammar

The grammar of files is `Script` in `Spec/Script.lean`: beliefs, rules, initial goals and
plans, each with a full stop, and directives.  The result is the agent with these clauses, in
the order of the text, and with its constants folded.
-/

namespace Verif

section
variable [Unicode] [Floats] [Arith]

/-- Everything that is accepted without errors is a file of the grammar. -/
theorem C55_sound {files : List Char → Option (List Tok)} (hf : ∀ p ts, files p = some ts → AllProper ts) {n : Nat} {file : List Char}
    {ts : List Tok} (hp : AllProper ts) {a : AAgent} (h : parseFile files n file ts = .ok (some a) 0) :
    ∃ cs, Script files [normpath file] file ts cs ∧ ValidAgent (agentOf cs) a := by
  rw [parseFile] at h
  obtain ⟨⟨o, rest⟩, s, h1, h2⟩ := Res.bind_eq_ok.1 h
  have e : o = some a ∧ s = 0 := by injection h2 with e1 e2; exact ⟨e1, e2⟩
  obtain ⟨rfl, rfl⟩ := e
  obtain ⟨us, cs, a0, e0, hs, hv, hc⟩ := (agent_sound hf _ _ _ _ _ _ _ _ _ _ hp h1).2 rfl a rfl
  cases e0
  rw [AAgent.empty_append] at hv
  unfold Closed at hc
  rw [if_neg (by simp)] at hc
  obtain ⟨rfl, -⟩ := hc
  exact ⟨cs, hs, validated_valid.1 hv⟩

/-- Every file of the grammar is accepted without errors, if the agent is valid. -/
theorem C55_complete {files : List Char → Option (List Tok)} (hf : ∀ p ts, files p = some ts → AllProper ts) {file : List Char}
    {ts : List Tok} (hp : AllProper ts) {cs : List Clause} (hs : Script files [normpath file] file ts cs) {a : AAgent}
    (hv : ValidAgent (agentOf cs) a) : ∃ N, ∀ n, N ≤ n → parseFile files n file ts = .ok (some a) 0 := by
  obtain ⟨N, h⟩ := agent_complete hf hs
  refine ⟨N, fun n hn => ?_⟩
  rw [parseFile, h n hn {} a false ts [] hp (by unfold Closed; simp) (by rw [AAgent.empty_append]; exact validated_valid.2 hv)]
  rfl

/-- A file is accepted without errors, with a certain result, if and only if it is of the
grammar and its clauses are valid, with this result. -/
theorem C55_exact {files : List Char → Option (List Tok)} (hf : ∀ p ts, files p = some ts → AllProper ts) {file : List Char}
    {ts : List Tok} (hp : AllProper ts) {a : AAgent} :
    (∃ n, parseFile files n file ts = .ok (some a) 0) ↔ ∃ cs, Script files [normpath file] file ts cs ∧ ValidAgent (agentOf cs) a := by
  constructor
  · rintro ⟨n, h⟩; exact C55_sound hf hp h
  · rintro ⟨cs, hs, hv⟩
    obtain ⟨N, h⟩ := C55_complete hf hp hs hv
    exact ⟨N, h N (Nat.le_refl _)⟩

/-- The result is the same however much time there is, and validating it again has no effect. -/
theorem C55_unique {files : List Char → Option (List Tok)} (hf : ∀ p ts, files p = some ts → AllProper ts) {file : List Char}
    {ts : List Tok} (hp : AllProper ts) {n m : Nat} {a b : AAgent} (ha : parseFile files n file ts = .ok (some a) 0)
    (hb : parseFile files m file ts = .ok (some b) 0) : a = b ∧ ValidAgent a a := by
  obtain ⟨cs, hs, hv⟩ := C55_sound hf hp ha
  obtain ⟨cs', hs', hv'⟩ := C55_sound hf hp hb
  obtain ⟨N, h⟩ := C55_complete hf hp hs hv
  obtain ⟨N', h'⟩ := C55_complete hf hp hs' hv'
  have e := h (max N N') (by omega)
  rw [h' (max N N') (by omega)] at e
  cases e
  exact ⟨rfl, validated_valid.1 (validated_valid.2 hv).stable⟩

omit [Unicode] [Floats] in
/-- Validation has no effect a second time. -/
theorem C55_stable {a b : AAgent} (h : ValidAgent a b) : ValidAgent b b := validated_valid.1 (validated_valid.2 h).stable

omit [Unicode] [Floats] in
/-- The order of the text: clauses of a kind stay in order, whether they come from the file
itself, from included files or from directives. -/
theorem C55_order {cs ds : List Clause} {a : AAgent} (h : ValidAgent (agentOf (cs ++ ds)) a) :
    ∃ b c, ValidAgent (agentOf cs) b ∧ ValidAgent (agentOf ds) c ∧ a.rules = b.rules ++ c.rules ∧ a.beliefs = b.beliefs ++ c.beliefs ∧
      a.goals = b.goals ++ c.goals ∧ a.plans = b.plans ++ c.plans := by
  rw [agentOf_append] at h
  obtain ⟨b, c, rfl, hb, hc⟩ := validated_append.1 (validated_valid.2 h)
  exact ⟨b, c, validated_valid.1 hb, validated_valid.1 hc, rfl, rfl, rfl, rfl⟩

end

/-! ## Examples -/

section examples
attribute [local instance] asciiText toyFloats exactArith

private def lexed (s : String) : List Tok := ((tokenize 1 [s.toList]).map fun evs => toksOf (evs.map Prod.snd)).getD []

private theorem lexed_proper (s : String) : AllProper (lexed s) := by
  unfold lexed
  cases h : tokenize 1 [s.toList] with
  | none => intro t ht; cases ht
  | some evs => exact C44_tokens h

private abbrev l (f : Char) : Ast := .lit [f] [] []

/-- `p(a). q :- p(X). !g. @l +!g : q <- -b; if (c) {!!d} else {?e;}; f.` -/
private def toksA : List Tok :=
  [⟨['p'], .functor, 0, 1⟩, ⟨['('], .parenOpen, 1, 2⟩, ⟨['a'], .functor, 2, 3⟩, ⟨[')'], .parenClose, 3, 4⟩,
   ⟨['.'], .fullstop, 4, 5⟩, ⟨['q'], .functor, 6, 7⟩, ⟨[':', '-'], .define, 8, 10⟩, ⟨['p'], .functor, 11, 12⟩,
   ⟨['('], .parenOpen, 12, 13⟩, ⟨['X'], .var, 13, 14⟩, ⟨[')'], .parenClose, 14, 15⟩, ⟨['.'], .fullstop, 15, 16⟩,
   ⟨['!'], .exclam, 17, 18⟩, ⟨['g'], .functor, 18, 19⟩, ⟨['.'], .fullstop, 19, 20⟩, ⟨['@'], .at_, 21, 22⟩,
   ⟨['l'], .functor, 22, 23⟩, ⟨['+'], .opPlus, 24, 25⟩, ⟨['!'], .exclam, 25, 26⟩, ⟨['g'], .functor, 26, 27⟩,
   ⟨[':'], .colon, 28, 29⟩, ⟨['q'], .functor, 30, 31⟩, ⟨['<', '-'], .arrow, 32, 34⟩, ⟨['-'], .opMinus, 35, 36⟩,
   ⟨['b'], .functor, 36, 37⟩, ⟨[';'], .semicolon, 37, 38⟩, ⟨['i', 'f'], .tokIf, 39, 41⟩, ⟨['('], .parenOpen, 42, 43⟩,
   ⟨['c'], .functor, 43, 44⟩, ⟨[')'], .parenClose, 44, 45⟩, ⟨['{'], .braceOpen, 46, 47⟩,
   ⟨['!', '!'], .doubleExclam, 47, 49⟩, ⟨['d'], .functor, 49, 50⟩, ⟨['}'], .braceClose, 50, 51⟩,
   ⟨['e', 'l', 's', 'e'], .tokElse, 52, 56⟩, ⟨['{'], .braceOpen, 57, 58⟩, ⟨['?'], .question, 58, 59⟩,
   ⟨['e'], .functor, 59, 60⟩, ⟨[';'], .semicolon, 60, 61⟩, ⟨['}'], .braceClose, 61, 62⟩, ⟨[';'], .semicolon, 62, 63⟩,
   ⟨['f'], .functor, 64, 65⟩, ⟨['.'], .fullstop, 65, 66⟩]
private theorem lexA : lexed "p(a). q :- p(X). !g. @l +!g : q <- -b; if (c) {!!d} else {?e;}; f." = toksA := by rfl

/-- What is said by the text of `toksA`. -/
private def agentA : AAgent where
  rules := [⟨l 'q', .lit ['p'] [.var ['X']] []⟩]
  beliefs := [.lit ['p'] [l 'a'] []]
  goals := [l 'g']
  plans := [⟨some (l 'l'), ⟨.addition, .achievement, l 'g'⟩, some (l 'q'),
    some [.formula .remove (l 'b'), .ifElse (l 'c') [.formula .achieveLater (l 'd')] [.formula .test (l 'e')], .formula .term (l 'f')]⟩]

/-- No files to include. -/
private def noFiles : List Char → Option (List Tok) := fun _ => none

private theorem parseA : parseFile noFiles 60 ['a'] toksA = .ok (some agentA) 0 := by with_unfolding_all rfl

private theorem properA : AllProper toksA := lexA ▸ lexed_proper _

private theorem noProper : ∀ p ts, noFiles p = some ts → AllProper ts := fun _ _ h => by cases h

/-- `C55_sound`: the text is of the grammar. -/
example : ∃ cs, Script noFiles [normpath ['a']] ['a'] toksA cs ∧ ValidAgent (agentOf cs) agentA := C55_sound noProper properA parseA

example : ValidAgent agentA agentA := (C55_unique noProper properA parseA parseA).2

/-- `p. p(a).` -/
private def toksC : List Tok :=
  [⟨['p'], .functor, 0, 1⟩, ⟨['.'], .fullstop, 1, 2⟩, ⟨['p'], .functor, 3, 4⟩, ⟨['('], .parenOpen, 4, 5⟩,
   ⟨['a'], .functor, 5, 6⟩, ⟨[')'], .parenClose, 6, 7⟩, ⟨['.'], .fullstop, 7, 8⟩]
private theorem lexC : lexed "p. p(a)." = toksC := by rfl

/-- `{ include("b.asl") } q. { begin foo } r. { end } s(1+2).` -/
private def toksB : List Tok :=
  [⟨['{'], .braceOpen, 0, 1⟩, ⟨['i', 'n', 'c', 'l', 'u', 'd', 'e'], .incl, 2, 9⟩, ⟨['('], .parenOpen, 9, 10⟩,
   ⟨['\"', 'b', '.', 'a', 's', 'l', '\"'], .string, 10, 17⟩, ⟨[')'], .parenClose, 17, 18⟩, ⟨['}'], .braceClose, 19, 20⟩,
   ⟨['q'], .functor, 21, 22⟩, ⟨['.'], .fullstop, 22, 23⟩, ⟨['{'], .braceOpen, 24, 25⟩,
   ⟨['b', 'e', 'g', 'i', 'n'], .begin, 26, 31⟩, ⟨['f', 'o', 'o'], .functor, 32, 35⟩, ⟨['}'], .braceClose, 36, 37⟩,
   ⟨['r'], .functor, 38, 39⟩, ⟨['.'], .fullstop, 39, 40⟩, ⟨['{'], .braceOpen, 41, 42⟩, ⟨['e', 'n', 'd'], .end_, 43, 46⟩,
   ⟨['}'], .braceClose, 47, 48⟩, ⟨['s'], .functor, 49, 50⟩, ⟨['('], .parenOpen, 50, 51⟩, ⟨['1'], .numeric, 51, 52⟩,
   ⟨['+'], .opPlus, 52, 53⟩, ⟨['2'], .numeric, 53, 54⟩, ⟨[')'], .parenClose, 54, 55⟩, ⟨['.'], .fullstop, 55, 56⟩]
example : lexed "{ include(\"b.asl\") } q. { begin foo } r. { end } s(1+2)." = toksB := by rfl

/-- One file to include, `d/b.asl`. -/
private def oneFile : List Char → Option (List Tok) := fun p => if p = "d/b.asl".toList then some toksC else none

/-- The included beliefs come first, those of the directive in the middle, and `1+2` is `3`. -/
example : parseFile oneFile 60 "d/a.asl".toList toksB =
    .ok (some { beliefs := [l 'p', .lit ['p'] [l 'a'] [], l 'q', l 'r', .lit ['s'] [.const (.num (.fin 3))] []] }) 0 := by
  with_unfolding_all rfl

private theorem oneProper : ∀ p ts, oneFile p = some ts → AllProper ts := by
  intro p ts h
  unfold oneFile at h
  split at h
  · cases h; exact lexC ▸ lexed_proper _
  · cases h

/-- `C55_complete`: the same text is of the grammar by its rules, and accepted therefore. -/
private theorem scriptB : Script oneFile [normpath "d/b.asl".toList] "d/b.asl".toList toksC [.belief (l 'p'), .belief (.lit ['p'] [l 'a'] [])] :=
  .clause (ts := [_]) (.belief (.mk (ts := []) (us := []) rfl .none .none)) rfl
    (.clause (ts := [_, _, _, _]) (.belief (.mk (ts := [_, _, _]) (us := []) rfl
      (.some rfl (.last (ts := [⟨['a'], .functor, 5, 6⟩]) rfl (.lift (l' := 8) (by decide) (by decide) (.lit (t := ⟨['a'], .functor, 5, 6⟩) (ts := []) (us := []) rfl .none .none)))) .none)) rfl .nil)

example : ∃ N, ∀ n, N ≤ n → parseFile oneFile n "d/b.asl".toList toksC = .ok (some { beliefs := [l 'p', .lit ['p'] [l 'a'] []] }) 0 :=
  C55_complete oneProper (oneProper "d/b.asl".toList _ rfl) scriptB (validated_valid.1 (by with_unfolding_all rfl))

/-- `C55_order`: two clauses, in order. -/
example (a : AAgent) (h : ValidAgent (agentOf ([.belief (l 'p')] ++ [.goal (l 'q'), .belief (l 'r')])) a) :
    ∃ b c, ValidAgent (agentOf [.belief (l 'p')]) b ∧ ValidAgent (agentOf [.goal (l 'q'), .belief (l 'r')]) c ∧
      a.beliefs = b.beliefs ++ c.beliefs := by
  obtain ⟨b, c, hb, hc, -, e, -⟩ := C55_order h
  exact ⟨b, c, hb, hc, e⟩
example : ∃ a, ValidAgent (agentOf ([.belief (l 'p')] ++ [.goal (l 'q'), .belief (l 'r')])) a :=
  ⟨{ beliefs := [l 'p', l 'r'], goals := [l 'q'] }, validated_valid.1 (by with_unfolding_all rfl)⟩

/-- A clause without a full stop, and a directive that is not closed, are not accepted. -/
example : parseFile noFiles 60 ['a'] toksA.dropLast = .err (.asl "end of file") 1 := by with_unfolding_all rfl
example : parseFile oneFile 60 "d/a.asl".toList (toksB.take 14) = .err (.asl "end of file") 1 := by with_unfolding_all rfl

end examples

end Verif
