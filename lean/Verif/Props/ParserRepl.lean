import Verif.Spec.ParserRepl
import Verif.Lemmas.ParserRepl
import Verif.Props.Repl
import Verif.Props.Script

/-!
# C79: agents that are typed at the prompt of the parser

How the text is divided into lines makes no difference for what is printed, as long as there are no directives other
than `include`.
-/

namespace Verif

theorem inAll_snoc (as : List AAgent) (a : AAgent) : inAll (as ++ [a]) = (inAll as).append a := by
  simp [inAll, AAgent.append]

section
variable [Unicode] [Floats] [Arith]

theorem parserLoop_waits {files : List Char → Option (List Tok)} {n : Nat} {ts : List Tok} (h : ts ≠ []) {out : List AAgent}
    (hp : parseTyped files n [normpath stdin] stdin false (some {}) ts 0 = .err (.py "StopIteration") 0) :
    parserLoop files n 0 ts out = .ok ts out := by
  unfold parserLoop
  rw [if_neg h, hp]
  rfl

theorem parserLoop_prints {files : List Char → Option (List Tok)} {n : Nat} {ts : List Tok} (h : ts ≠ []) {out : List AAgent} {a : AAgent}
    (hp : parseTyped files n [normpath stdin] stdin false (some {}) ts 0 = .ok (some a, []) 0) :
    parserLoop files n 0 ts out = .ok [] (out ++ [a]) := by
  unfold parserLoop
  rw [if_neg h, hp]
  rfl

theorem parserLine_typed {files : List Char → Option (List Tok)} {n : Nat} {l : List Char} {evs : List (Nat × LexEv)}
    (h : tokenize 1 (fileLines l) = some evs) (hi : ∀ c col n, (n, LexEv.illegal c col) ∉ evs) (pend : List Tok) (out : List AAgent) :
    parserLine files n l pend out = parserLoop files n 0 (pend ++ toksOf (evs.map Prod.snd)) out := by
  have h0 : evs.countP (·.2.isIllegal) = 0 := by
    rw [List.countP_eq_zero]
    rintro ⟨i, ev⟩ he
    cases ev with
    | tok t => exact Bool.false_ne_true
    | illegal c col => exact absurd he (hi c col i)
  unfold parserLine
  rw [h]
  simp only [h0]
  rfl

theorem parser_reads {files : List Char → Option (List Tok)} {N n : Nat} {ls : List (List Char)} {ts : List Tok} (ht : Typed ls ts)
    {more : List Tok} {a : AAgent} : ∀ {pend : List Tok} {cs : List Clause} {out : List AAgent} {ds : List Clause}, Quoted pend →
      10 * (pend ++ ts).length + 12 ≤ N → N + (pend ++ ts).length < n → (ts ++ more = [] → pend = []) →
      Typeable files N [normpath stdin] stdin (pend ++ ts ++ more) cs → Validated (agentOf ds) (inAll out) →
      Validated (agentOf cs) a →
      ∃ out' pend' cs₁ cs₂, parserSession files n ls pend out = .ok pend' out' ∧ cs = cs₁ ++ cs₂ ∧
        Validated (agentOf (ds ++ cs₁)) (inAll out') ∧ Typeable files N [normpath stdin] stdin (pend' ++ more) cs₂ ∧
        (more = [] → pend' = []) := by
  induction ht generalizing a with
  | nil =>
    intro pend cs out ds _ _ _ hm hr hd _
    rw [List.append_nil] at hr
    exact ⟨out, pend, [], cs, rfl, rfl, by rw [List.append_nil]; exact hd, hr, by simpa using hm⟩
  | @cons l ls evs ts h hi _ ih =>
    intro pend cs out ds hq hN hn hm hr hd hv
    have hT := C56_tokens h
    rw [parserSession, parserLine_typed h hi]
    clear h hi
    generalize toksOf (evs.map Prod.snd) = T at *
    simp only [List.length_append] at hN hn
    by_cases he : pend ++ T = []
    · obtain ⟨rfl, rfl⟩ := List.append_eq_nil_iff.1 he
      have : parserLoop files n 0 ([] ++ []) out = .ok [] out := rfl
      rw [this, Res.bind_ok]
      exact ih hq (by simpa using hN) (by simpa using hn) (fun _ => rfl) (by simpa using hr) hd hv
    · have hq2 : Quoted (pend ++ T) := fun x hx => (List.mem_append.1 hx).elim (hq x) (hT x)
      have hr2 : Typeable files N [normpath stdin] stdin ((pend ++ T) ++ (ts ++ more)) cs := by simpa using hr
      rcases typed_prefix _ (pend ++ T) (ts ++ more) cs {} a (Nat.le_refl _) hq2 (by simp only [List.length_append]; omega) hr2
        (by rw [AAgent.empty_append]; exact hv) n (by simp only [List.length_append]; omega) with ⟨h1, h2⟩ | ⟨cs₁, cs₂, a₁, rfl, g1, g2, g3⟩
      · rw [parserLoop_waits he h1, Res.bind_ok]
        exact ih hq2 (by simp only [List.length_append]; omega) (by simp only [List.length_append]; omega) (fun e => absurd e h2)
          (by simpa using hr) hd hv
      · rw [parserLoop_prints he g2, Res.bind_ok]
        rw [AAgent.empty_append] at g3
        rw [agentOf_append] at hv
        obtain ⟨b, c, rfl, -, hc⟩ := validated_append.1 hv
        obtain ⟨out', pend', cs₃, cs₄, k1, rfl, k2, k3, k4⟩ := ih (a := c) (pend := []) (cs := cs₂) (out := out ++ [a₁]) (ds := ds ++ cs₁)
          (fun _ h => by cases h) (by simp only [List.nil_append]; omega) (by simp only [List.nil_append]; omega) (fun _ => rfl) g1
          (by rw [inAll_snoc, agentOf_append]; exact validated_append.2 ⟨_, _, rfl, hd, g3⟩) hc
        exact ⟨out', pend', cs₁ ++ cs₃, cs₄, k1, by rw [List.append_assoc], by rw [← List.append_assoc]; exact k2, k3, k4⟩

/-- If the tokens of all the lines are the beginning of a valid file, then at the prompt, clauses from its beginning have been
printed, each of them once and in order, and all the tokens after them are kept, ready for the rest of the file; in the end,
nothing is left.  Not proved (it is false, `C79_directive_false`): the same for files with directives other than `include`. -/
theorem C79_partial {files : List Char → Option (List Tok)} (hf : ∀ p ts, files p = some ts → AllProper ts) {ls : List (List Char)}
    {ts : List Tok} (ht : Typed ls ts) {more : List Tok} (hm : AllProper more) {cs : List Clause}
    (hs : Script files [normpath stdin] stdin (ts ++ more) cs) (hb : ∀ t ∈ ts ++ more, t.kind ≠ .begin) {a : AAgent}
    (hv : ValidAgent (agentOf cs) a) : ∃ N, ∀ n, N ≤ n → ∃ out pend cs₁ cs₂, parserSession files n ls [] [] = .ok pend out ∧
      cs = cs₁ ++ cs₂ ∧ ValidAgent (agentOf cs₁) (inAll out) ∧ Script files [normpath stdin] stdin (pend ++ more) cs₂ ∧
      (more = [] → pend = []) := by
  have hp : AllProper (ts ++ more) := fun x hx => (List.mem_append.1 hx).elim (ht.good.1 x) (hm x)
  obtain ⟨N, h⟩ := hs.typeable hf hp hb
  refine ⟨max N (10 * ts.length + 12) + ts.length + 1, fun n hn => ?_⟩
  obtain ⟨out, pend, cs₁, cs₂, h1, h2, h3, h4, h5⟩ := parser_reads (N := max N (10 * ts.length + 12)) (n := n) ht (pend := []) (out := [])
    (ds := []) (fun _ h => by cases h) (by rw [List.nil_append]; omega) (by rw [List.nil_append]; omega) (fun _ => rfl)
    (h.mono (by omega)) (by rfl) (validated_valid.2 hv)
  exact ⟨out, pend, cs₁, cs₂, h1, h2, validated_valid.1 h3, h4.script, h5⟩

/-- All of a file: the clauses that are printed are those of the agent of the file. -/
theorem C79_all_partial {files : List Char → Option (List Tok)} (hf : ∀ p ts, files p = some ts → AllProper ts) {ls : List (List Char)}
    {ts : List Tok} (ht : Typed ls ts) (hb : ∀ t ∈ ts, t.kind ≠ .begin) {k : Nat} {a : AAgent}
    (h : parseFile files k stdin ts = .ok (some a) 0) :
    ∃ N, ∀ n, N ≤ n → ∃ out, parserSession files n ls [] [] = .ok [] out ∧ inAll out = a := by
  obtain ⟨cs, hs, hv⟩ := C55_sound hf ht.good.1 h
  obtain ⟨N, h⟩ := C79_partial (more := []) hf ht (fun _ h => by cases h) (by rw [List.append_nil]; exact hs)
    (by rw [List.append_nil]; exact hb) hv
  refine ⟨N, fun n hn => ?_⟩
  obtain ⟨out, pend, cs₁, cs₂, h1, rfl, h3, h4, h5⟩ := h n hn
  cases h5 rfl
  have h6 : cs₂ = [] := by
    generalize hz : ([] : List Tok) ++ [] = z at h4
    cases h4 with
    | nil => rfl
    | clause => simp at hz
    | incl => simp at hz
    | directive => simp at hz
  subst h6
  rw [List.append_nil] at hv
  exact ⟨out, h1, (validated_valid.2 h3).unique (validated_valid.2 hv)⟩

/-- What is printed after a line is the agent of a file with the tokens that were pending and those of the line. -/
theorem C79_printed {files : List Char → Option (List Tok)} {n : Nat} {l : List Char} {pend : List Tok} {out out' : List AAgent}
    {pend' : List Tok} (h : parserLine files n l pend out = .ok pend' out') :
    out' = out ∨ ∃ evs a, tokenize 1 (fileLines l) = some evs ∧ (∀ c col n, (n, LexEv.illegal c col) ∉ evs) ∧ out' = out ++ [a] ∧
      pend' = [] ∧ parseFile files n stdin (pend ++ toksOf (evs.map Prod.snd)) = .ok (some a) 0 := by
  unfold parserLine at h
  match hl : tokenize 1 (fileLines l) with
  | none => rw [hl] at h; cases h
  | some evs =>
    rw [hl] at h
    simp only at h
    split at h
    · cases h; exact .inl rfl
    · unfold parserLoop at h
      split at h
      · cases h; exact .inl rfl
      · split at h
        · cases h
        · rename_i a rest s hp
          split at h
          · rename_i hs
            subst hs
            have hp2 := (typed_alike n [normpath stdin] stdin false (some {}) _ _).ok.1 hp
            have hg := (agent_grows _ _ _ _ _ _ _ _ _ _ hp2).1
            have h0 : evs.countP (·.2.isIllegal) = 0 := by omega
            rw [h0] at hp2
            have hr := agent_rest hp2
            subst hr
            cases h
            refine .inr ⟨evs, a, rfl, fun c col i hi => ?_, rfl, rfl, ?_⟩
            · rw [List.countP_eq_zero] at h0
              exact h0 _ hi rfl
            · rw [parseFile, hp2]; rfl
          · cases h; exact .inl rfl
        · cases h; exact .inl rfl
        · cases h; exact .inl rfl
        · split at h
          · cases h; exact .inl rfl
          · cases h

/-- If anything is kept after a line, it is all the tokens that were pending and those of the line; nothing is printed then, and a
file with these tokens would end too early. -/
theorem C79_kept {files : List Char → Option (List Tok)} (hf : ∀ p ts, files p = some ts → Quoted ts) {n : Nat} {l : List Char}
    {pend : List Tok} (hq : Quoted pend) {out out' : List AAgent} {pend' : List Tok} (h : parserLine files n l pend out = .ok pend' out') (hk : pend' ≠ []) :
    out' = out ∧ ∃ evs, tokenize 1 (fileLines l) = some evs ∧ (∀ c col n, (n, LexEv.illegal c col) ∉ evs) ∧
      pend' = pend ++ toksOf (evs.map Prod.snd) ∧
      parseFile files n stdin (pend ++ toksOf (evs.map Prod.snd)) = .err (.asl "end of file") 1 := by
  unfold parserLine at h
  match hl : tokenize 1 (fileLines l) with
  | none => rw [hl] at h; cases h
  | some evs =>
    rw [hl] at h
    simp only at h
    split at h
    · cases h; exact absurd rfl hk
    · unfold parserLoop at h
      split at h
      · cases h; exact absurd rfl hk
      · split at h
        · cases h
        · rename_i a rest s hp
          split at h
          · have hp2 := (typed_alike n [normpath stdin] stdin false (some {}) _ _).ok.1 hp
            cases h
            exact absurd (agent_rest hp2) hk
          · cases h; exact absurd rfl hk
        · cases h; exact absurd rfl hk
        · cases h; exact absurd rfl hk
        · rename_i k s hp
          split at h
          · rename_i hs
            subst hs
            cases h
            split at hk
            · rename_i hs
              rw [if_pos hs]
              subst hs
              have hh := typed_stop hf hp
              have h0 : evs.countP (·.2.isIllegal) = 0 := by omega
              rw [h0] at hp
              refine ⟨rfl, evs, rfl, fun c col i hi => ?_, rfl, ?_⟩
              · rw [List.countP_eq_zero] at h0
                exact h0 _ hi rfl
              · rcases typed_alike (files := files) n [normpath stdin] stdin false (some {}) (pend ++ toksOf (evs.map Prod.snd)) 0 with e | ⟨s, k, e1, e2, -⟩
                · rw [hp] at e
                  exact absurd e.symm (agent_no_stop hf fun x hx => (List.mem_append.1 hx).elim (hq x) (C56_tokens hl x))
                · rw [hp] at e2
                  cases e2
                  rw [parseFile, e1]
                  rfl
            · exact absurd rfl hk
          · cases h

/-- The exceptions that end a session. -/
theorem C79_ends {files : List Char → Option (List Tok)} (hf : ∀ p ts, files p = some ts → Quoted ts) {n : Nat} {l : List Char}
    {pend : List Tok} (hq : Quoted pend) {out out' : List AAgent} {e : Err} (h : parserLine files n l pend out = .err e out') :
    out' = out ∧ (e = .py "AttributeError" ∨ e = .py "OverflowError" ∨ e = .py "infinite" ∨ e = .py "UnicodeDecodeError") := by
  unfold parserLine at h
  match hl : tokenize 1 (fileLines l) with
  | none => rw [hl] at h; cases h
  | some evs =>
    rw [hl] at h
    simp only at h
    split at h
    · cases h
    · unfold parserLoop at h
      split at h
      · cases h
      · have hq2 : Quoted (pend ++ toksOf (evs.map Prod.snd)) := fun x hx => (List.mem_append.1 hx).elim (hq x) (C56_tokens hl x)
        split at h
        · cases h
        · split at h <;> cases h
        · cases h
        · cases h
        · rename_i k s hp
          split at h
          · cases h
          · rename_i hne
            cases h
            refine ⟨rfl, ?_⟩
            rcases typed_alike (files := files) n [normpath stdin] stdin false (some {}) (pend ++ toksOf (evs.map Prod.snd))
              (evs.countP (·.2.isIllegal)) with e | ⟨s, k, e1, e2, e3⟩
            · rw [hp] at e
              have hh := agent_halts (z := 1) (D := []) (L := 0) (Inv := fun _ _ => True) hf (.inr rfl) n [normpath stdin] stdin false (some {})
                (pend ++ toksOf (evs.map Prod.snd)) (evs.countP (·.2.isIllegal)) hq2 (.inr rfl)
              rw [← e] at hh
              rcases hh with ⟨⟨m, h⟩, -⟩ | (h | h | h) | h
              · cases h
              · exact .inl h
              · exact .inr (.inl h)
              · exact .inr (.inr (.inl h))
              · exact .inr (.inr (.inr h))
            · rw [hp] at e2
              cases e2
              rcases e3 with rfl | rfl
              · exact absurd rfl hne
              · exact .inl rfl

end

/-! ## Witnesses and examples -/

section examples
attribute [local instance] asciiText toyFloats exactArith

/-- No files to include. -/
private def noFiles : List Char → Option (List Tok) := fun _ => none

private theorem noProper : ∀ p ts, noFiles p = some ts → AllProper ts := fun _ _ h => by cases h

private abbrev l (f : Char) : Ast := .lit [f] [] []

private def evs1 : List (Nat × LexEv) := [(1, .tok ⟨['{'], .braceOpen, 0, 1⟩), (1, .tok ⟨"begin".toList, .begin, 2, 7⟩),
  (1, .tok ⟨['x'], .functor, 8, 9⟩), (1, .tok ⟨['}'], .braceClose, 10, 11⟩), (1, .tok ⟨['p'], .functor, 12, 13⟩),
  (1, .tok ⟨['.'], .fullstop, 13, 14⟩)]

private def evs2 : List (Nat × LexEv) := [(1, .tok ⟨['{'], .braceOpen, 0, 1⟩), (1, .tok ⟨"end".toList, .end_, 2, 5⟩),
  (1, .tok ⟨['}'], .braceClose, 6, 7⟩)]

private theorem lex1 : tokenize 1 (fileLines "{ begin x } p.".toList) = some evs1 := by rfl

private theorem lex2 : tokenize 1 (fileLines "{ end }".toList) = some evs2 := by rfl

/-- In two lines, `{ begin x } p.` and `{ end }` are errors; in a file, they are the belief `p`. -/
theorem C79_directive_false : ∃ (ls : List (List Char)) (ts : List Tok) (a : AAgent), Typed ls ts ∧
    parseFile noFiles 60 stdin ts = .ok (some a) 0 ∧ a = { beliefs := [l 'p'] } ∧
    ∀ n, parserSession noFiles (n + 60) ls [] [] = .ok [] [] := by
  refine ⟨["{ begin x } p.".toList, "{ end }".toList], _, _, .cons lex1 (by simp [evs1]) (.cons lex2 (by simp [evs2]) .nil),
    by with_unfolding_all rfl, rfl, fun n => ?_⟩
  have h1 : parserLine noFiles (n + 60) "{ begin x } p.".toList [] [] = .ok [] [] := by
    rw [parserLine_typed lex1 (by simp [evs1])]
    with_unfolding_all rfl
  have h2 : parserLine noFiles (n + 60) "{ end }".toList [] [] = .ok [] [] := by
    rw [parserLine_typed lex2 (by simp [evs2])]
    with_unfolding_all rfl
  rw [parserSession, h1, Res.bind_ok, parserSession, h2, Res.bind_ok, parserSession]

/-- A clause in a directive that is not complete at the end of the line ends the session. -/
theorem C79_session_false (n : Nat) (out : List AAgent) :
    parserLine noFiles (n + 60) "{ begin x } p(".toList [] out = .err (.py "AttributeError") out := by
  have h : tokenize 1 (fileLines "{ begin x } p(".toList) = some [(1, .tok ⟨['{'], .braceOpen, 0, 1⟩),
      (1, .tok ⟨"begin".toList, .begin, 2, 7⟩), (1, .tok ⟨['x'], .functor, 8, 9⟩), (1, .tok ⟨['}'], .braceClose, 10, 11⟩),
      (1, .tok ⟨['p'], .functor, 12, 13⟩), (1, .tok ⟨['('], .parenOpen, 13, 14⟩)] := by rfl
  rw [parserLine_typed h (by simp)]
  with_unfolding_all rfl

/-- `p. q(` / `a).` / `{ include("b") } r`, and then a full stop. -/
private def lines : List (List Char) := ["p. q(".toList, "a).".toList, "{ include(\"b\") } r".toList]

private def toks1 : List Tok := [⟨['p'], .functor, 0, 1⟩, ⟨['.'], .fullstop, 1, 2⟩, ⟨['q'], .functor, 3, 4⟩, ⟨['('], .parenOpen, 4, 5⟩]
private def toks2 : List Tok := [⟨['a'], .functor, 0, 1⟩, ⟨[')'], .parenClose, 1, 2⟩, ⟨['.'], .fullstop, 2, 3⟩]
private def toks3 : List Tok := [⟨['{'], .braceOpen, 0, 1⟩, ⟨"include".toList, .incl, 2, 9⟩, ⟨['('], .parenOpen, 9, 10⟩,
  ⟨"\"b\"".toList, .string, 10, 13⟩, ⟨[')'], .parenClose, 13, 14⟩, ⟨['}'], .braceClose, 15, 16⟩, ⟨['r'], .functor, 17, 18⟩]

private def evsOf (ts : List Tok) : List (Nat × LexEv) := ts.map fun t => (1, .tok t)

private theorem lexL1 : tokenize 1 (fileLines "p. q(".toList) = some (evsOf toks1) := by rfl
private theorem lexL2 : tokenize 1 (fileLines "a).".toList) = some (evsOf toks2) := by rfl
private theorem lexL3 : tokenize 1 (fileLines "{ include(\"b\") } r".toList) = some (evsOf toks3) := by rfl

private theorem legal (ts : List Tok) (c : Char) (col n : Nat) : (n, LexEv.illegal c col) ∉ evsOf ts := by simp [evsOf]

private theorem typedL : Typed lines (toks1 ++ (toks2 ++ (toks3 ++ []))) :=
  .cons lexL1 (legal _) (.cons lexL2 (legal _) (.cons lexL3 (legal _) .nil))

/-- The file `b` is `s.` -/
private def oneFile : List Char → Option (List Tok) := fun p =>
  if p = ['b'] then some [⟨['s'], .functor, 0, 1⟩, ⟨['.'], .fullstop, 1, 2⟩] else none

private theorem oneProper : ∀ p ts, oneFile p = some ts → AllProper ts := by
  intro p ts h
  unfold oneFile at h
  split at h
  · cases h
    exact C44_tokens (l := 1) (lines := ["s.".toList]) (evs := [(1, .tok ⟨['s'], .functor, 0, 1⟩), (1, .tok ⟨['.'], .fullstop, 1, 2⟩)]) (by rfl)
  · cases h

private def dot : List Tok := [⟨['.'], .fullstop, 0, 1⟩]

private theorem dotProper : AllProper dot :=
  C44_tokens (l := 1) (lines := [".".toList]) (evs := [(1, .tok ⟨['.'], .fullstop, 0, 1⟩)]) (by rfl)

/-- `C79_partial`: the hypotheses, with the full stop still missing. -/
example : ∃ N, ∀ n, N ≤ n → ∃ out pend cs₁ cs₂, parserSession oneFile n lines [] [] = .ok pend out ∧
      ValidAgent (agentOf cs₁) (inAll out) ∧ Script oneFile [normpath stdin] stdin (pend ++ dot) cs₂ ∧
      ValidAgent (agentOf (cs₁ ++ cs₂)) { beliefs := [l 'p', .lit ['q'] [l 'a'] [], l 's', l 'r'] } := by
  have hp : AllProper (toks1 ++ (toks2 ++ (toks3 ++ [])) ++ dot) :=
    fun x hx => (List.mem_append.1 hx).elim (typedL.good.1 x) (dotProper x)
  obtain ⟨cs, hs, hv⟩ := C55_sound (n := 60) (file := stdin) (a := { beliefs := [l 'p', .lit ['q'] [l 'a'] [], l 's', l 'r'] })
    oneProper hp (by with_unfolding_all rfl)
  obtain ⟨N, h⟩ := C79_partial oneProper typedL dotProper hs (by decide) hv
  refine ⟨N, fun n hn => ?_⟩
  obtain ⟨out, pend, cs₁, cs₂, h1, rfl, h3, h4, -⟩ := h n hn
  exact ⟨out, pend, cs₁, cs₂, h1, h3, h4, hv⟩

/-- What happens: after the second line, `p` and `q(a)` are printed; the third line is kept. -/
example : parserSession oneFile 60 lines [] [] = .ok toks3 [{ beliefs := [l 'p', .lit ['q'] [l 'a'] []] }] := by
  have h1 : parserLine oneFile 60 "p. q(".toList [] [] = .ok toks1 [] := by
    rw [parserLine_typed lexL1 (legal _)]
    with_unfolding_all rfl
  have h2 : parserLine oneFile 60 "a).".toList toks1 [] = .ok [] [{ beliefs := [l 'p', .lit ['q'] [l 'a'] []] }] := by
    rw [parserLine_typed lexL2 (legal _)]
    with_unfolding_all rfl
  have h3 : ∀ out, parserLine oneFile 60 "{ include(\"b\") } r".toList [] out = .ok toks3 out := by
    intro out
    rw [parserLine_typed lexL3 (legal _)]
    with_unfolding_all rfl
  rw [lines, parserSession, h1, Res.bind_ok, parserSession, h2, Res.bind_ok, parserSession, h3, Res.bind_ok, parserSession]

/-- `C79_all_partial`: the first two lines are a file. -/
example : ∃ N, ∀ n, N ≤ n → ∃ out, parserSession oneFile n ["p. q(".toList, "a).".toList] [] [] = .ok [] out ∧
    inAll out = { beliefs := [l 'p', .lit ['q'] [l 'a'] []] } :=
  C79_all_partial (k := 60) oneProper (.cons lexL1 (legal _) (.cons lexL2 (legal _) .nil)) (by decide) (by with_unfolding_all rfl)

/-- An error: the tokens that were pending are dropped with those of the line. -/
example : parserLine oneFile 60 "a).".toList (toks1 ++ toks1) [] = .ok [] [] := by
  rw [parserLine_typed lexL2 (legal _)]
  with_unfolding_all rfl

end examples

end Verif
