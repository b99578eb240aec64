import Verif.Lemmas.FileTotal
import Verif.Lemmas.Paths
import Verif.Lemmas.Tokens
import Verif.Props.Parser
import Verif.Spec.ExactArith

/-!
# C56, C57: exceptions of the parser, and termination

`Uncaught e s` (`Lemmas/FileTotal.lean`): `e` is an error that has been logged, or one of
`AttributeError`, `OverflowError` and `UnicodeDecodeError` (or arithmetic with infinite
numbers, which is not modelled).
-/

namespace Verif

section
variable [Unicode] [Floats]

omit [Floats] in
/-- Strings of the lexer are quoted. -/
theorem C56_tokens {l : Nat} {lines : List (List Char)} {evs : List (Nat × LexEv)} (h : tokenize l lines = some evs) :
    Quoted (toksOf (evs.map Prod.snd)) := by
  intro t ht
  simp only [toksOf, List.mem_filterMap, List.mem_map] at ht
  obtain ⟨e, ⟨⟨i, e'⟩, he, rfl⟩, h2⟩ := ht
  cases e' with
  | tok t' => cases h2; exact (tokenize_good h i _ he).string
  | illegal => cases h2

/-- Terms: the exceptions are syntax errors, the end of the file, and strings with invalid
escapes. -/
theorem C56_terms {n : Nat} {ts : List Tok} (hq : Quoted ts) {e : Err} (h : parseTerm n ts = .err e) :
    (∃ m, e = .asl m) ∨ e = .py "StopIteration" ∨ e = .py "UnicodeDecodeError" := by
  have := (totalAt (z := 1) n).term ts hq (.inr rfl)
  rw [h] at this
  exact this

/-- Terms are parsed in a number of nested calls that is linear in the number of tokens. -/
theorem C57_terms {n : Nat} {ts : List Tok} (hq : Quoted ts) (hn : 10 * ts.length + 10 ≤ n) : parseTerm n ts ≠ .oof := by
  have := (totalAt (z := 0) n).term ts hq (.inl hn)
  intro h
  rw [h] at this
  cases this

/-- So are rules, beliefs, goals and plans. -/
theorem C57_clauses {n : Nat} {ts : List Tok} (hq : Quoted ts) (hn : 10 * ts.length + 12 ≤ n) : parseClause n ts ≠ .oof := by
  have := clause_done (z := 0) hq (.inl hn)
  intro h
  rw [h] at this
  cases this

variable [Arith]

omit [Unicode] [Floats] in
/-- Validation ends, and its exceptions are `AttributeError` and `OverflowError`. -/
theorem C57_validate (a : AAgent) (s : Nat) : validate a s ≠ .oof ∧
    ∀ e s', validate a s = .err e s' → e = .py "AttributeError" ∨ e = .py "OverflowError" ∨ e = .py "infinite" := by
  have := validate_folded a s
  constructor
  · intro h; rw [h] at this; cases this
  · intro e s' h; rw [h] at this; exact this

/-- Exceptions of `parse` other than those that report a logged error are `AttributeError`,
`OverflowError` and `UnicodeDecodeError`.  Not proved (it is false, `C56_false`): there are no
others. -/
theorem C56_partial {files : List Char → Option (List Tok)} (hf : ∀ p ts, files p = some ts → Quoted ts) {n : Nat} {file : List Char}
    {ts : List Tok} (hq : Quoted ts) {e : Err} {s : Nat} (h : parseFile files n file ts = .err e s) :
    ((∃ m, e = .asl m) ∧ 0 < s) ∨ e = .py "AttributeError" ∨ e = .py "OverflowError" ∨ e = .py "infinite" ∨ e = .py "UnicodeDecodeError" := by
  have hh := agent_halts (z := 1) (D := []) (L := 0) (Inv := fun _ _ => True) hf (.inr rfl) n [normpath file] file false (some {}) ts 0 hq (.inr rfl)
  rw [parseFile] at h
  match hr : parseAgent files n [normpath file] file false (some {}) ts 0, hh with
  | .ok a s', _ => rw [hr] at h; cases h
  | .oof, _ => rw [hr] at h; cases h
  | .err e' s', hh =>
    rw [hr] at h
    cases h
    rcases hh with h | (h | h | h) | h
    · exact .inl h
    · exact .inr (.inl h)
    · exact .inr (.inr (.inl h))
    · exact .inr (.inr (.inr (.inl h)))
    · exact .inr (.inr (.inr (.inr h)))

/-- Parsing ends if included files have normalised paths, given by an invariant. -/
theorem parse_ends_of {files : List Char → Option (List Tok)} (hf : ∀ p ts, files p = some ts → Quoted ts) {D : List (List Char)}
    {Inv : List Char → List Tok → Prop} (hD : ∀ L, (∀ p ∈ D, ∀ us, files p = some us → us.length ≤ L) → FewFiles files D L Inv)
    (file : List Char) {ts : List Tok} (hq : Quoted ts) (hi : Inv file ts) : ∃ N, ∀ n, N ≤ n → parseFile files n file ts ≠ .oof := by
  have hL : ∀ E : List (List Char), ∃ L, ∀ p ∈ E, ∀ us, files p = some us → us.length ≤ L := by
    intro E
    induction E with
    | nil => exact ⟨0, fun p hp => by cases hp⟩
    | cons q E ih =>
      obtain ⟨L, ih⟩ := ih
      refine ⟨max L ((files q).getD []).length, fun p hp us h => ?_⟩
      rcases List.mem_cons.1 hp with rfl | hp
      · rw [h]; simp only [Option.getD_some]; omega
      · have := ih p hp us h
        omega
  obtain ⟨L, hL⟩ := hL D
  refine ⟨10 * ts.length + 13 + pathsLeft D [normpath file] * (10 * L + 14), fun n hn h => ?_⟩
  have hh := agent_halts (z := 0) (D := D) (L := L) hf (.inl (hD L hL)) n [normpath file] file false (some {}) ts 0 hq (.inl ⟨hn, hi⟩)
  rw [parseFile] at h
  match hr : parseAgent files n [normpath file] file false (some {}) ts 0, hh with
  | .ok a s', _ => rw [hr] at h; cases h
  | .oof, hh => cases hh
  | .err e' s', hh => rw [hr] at h; cases h

/-- Parsing ends if the files that can be included are finitely many and are found under
normalised names only.  Not proved (it is false, `C57_false`): it ends if names like `./a.asl`
can be used. -/
theorem C57_partial {files : List Char → Option (List Tok)} (hf : ∀ p ts, files p = some ts → Quoted ts) {D : List (List Char)}
    (hD : ∀ p ts, files p = some ts → p ∈ D ∧ normpath p = p) (file : List Char) {ts : List Tok} (hq : Quoted ts) :
    ∃ N, ∀ n, N ≤ n → parseFile files n file ts ≠ .oof :=
  parse_ends_of (Inv := fun _ _ => True) hf (fun _ hL => ⟨fun p us h _ => (hD p us h).1, fun p us h _ => hL p (hD p us h).1 us h,
    fun _ _ _ _ _ => trivial, fun _ _ _ _ _ _ _ _ h => ⟨(hD _ _ h).2, trivial⟩⟩) file hq trivial

/-- The names of the files that are included have no `.`, `..` or empty components. -/
def SimpleIncludes (ts : List Tok) : Prop :=
  ∀ k p t us, k :: p :: t :: us <:+ ts → k.lexeme = "include".toList → p.lexeme = ['('] → t.kind = .string →
    ∀ name, parseString t.lexeme = .ok name → SimplePath (name.map Char.ofNat)

omit [Floats] [Arith] in
theorem SimpleIncludes.name {us rest : List Tok} {name : List Char} (h : SimpleIncludes us) (hi : at? "include".toList us = true)
    (hp : parseInclude us = .ok (name, rest)) : SimplePath name := by
  rw [parseInclude] at hp
  obtain ⟨ts1, h1, g1⟩ := Ev.bind_eq_ok.1 hp
  obtain ⟨ts2, h2, g2⟩ := Ev.bind_eq_ok.1 g1
  obtain ⟨k, rfl⟩ := advance_sound h1
  rw [expect] at h2
  split at h2
  · rename_i hpar
    cases ts1 with
    | nil => cases hpar
    | cons p ts1 =>
      obtain ⟨p', e⟩ := advance_sound h2
      cases e
      cases ts2 with
      | nil => cases g2
      | cons t ts =>
        simp only at g2
        split at g2
        · rename_i ht
          obtain ⟨nm, h3, g3⟩ := Ev.bind_eq_ok.1 g2
          obtain ⟨ts3, h4, g4⟩ := Ev.bind_eq_ok.1 g3
          obtain ⟨ts4, h5, g5⟩ := Ev.bind_eq_ok.1 g4
          split at g5
          · cases g5
            exact h k p t ts (List.suffix_refl _) (by simpa [at?] using hi) (by simpa [at?] using hpar) ht nm h3
          · cases g5
        · cases g2
  · cases h2

/-- **C57** (part): parsing ends, whatever includes what, if there are finitely many files (up to the ways to write their paths),
all included files have names without `.`, `..` or empty components, and the path of the main file is
normalised. -/
theorem C57_names {files : List Char → Option (List Tok)} (hf : ∀ p ts, files p = some ts → Quoted ts ∧ SimpleIncludes ts)
    {D : List (List Char)} (hD : ∀ p ts, files p = some ts → normpath p = p → p ∈ D) {file : List Char} (hn : normpath file = file)
    {ts : List Tok} (hq : Quoted ts) (hs : SimpleIncludes ts) : ∃ N, ∀ n, N ≤ n → parseFile files n file ts ≠ .oof :=
  parse_ends_of (Inv := fun file ts => normpath file = file ∧ SimpleIncludes ts) (fun p us h => (hf p us h).1) (fun _ hL =>
    ⟨hD, fun p us h hp => hL p (hD p us h hp) us h, fun _ _ _ h hs => ⟨h.1, fun k p t us h' => h.2 k p t us (h'.trans hs)⟩,
     fun _ _ _ _ _ h hi hp hfile =>
      have := norm_include h.1 (h.2.name hi hp)
      ⟨this, this, (hf _ _ hfile).2⟩⟩) file hq ⟨hn, hs⟩

end

/-! ## Witnesses and examples -/

section examples
attribute [local instance] asciiText toyFloats exactArith

private def lexed (s : String) : List Tok := ((tokenize 1 [s.toList]).map fun evs => toksOf (evs.map Prod.snd)).getD []

private theorem lexed_quoted (s : String) : Quoted (lexed s) := by
  unfold lexed
  cases h : tokenize 1 [s.toList] with
  | none => intro t ht; cases ht
  | some evs => exact C56_tokens h

/-- No files to include. -/
private def noFiles : List Char → Option (List Tok) := fun _ => none

/-- `p([a|[b]]).` -/
private def toksL : List Tok :=
  [⟨['p'], .functor, 0, 1⟩, ⟨['('], .parenOpen, 1, 2⟩, ⟨['['], .bracketOpen, 2, 3⟩, ⟨['a'], .functor, 3, 4⟩,
   ⟨['|'], .opOr, 4, 5⟩, ⟨['['], .bracketOpen, 5, 6⟩, ⟨['b'], .functor, 6, 7⟩, ⟨[']'], .bracketClose, 7, 8⟩,
   ⟨[']'], .bracketClose, 8, 9⟩, ⟨[')'], .parenClose, 9, 10⟩, ⟨['.'], .fullstop, 10, 11⟩]
private theorem lexL : lexed "p([a|[b]])." = toksL := by rfl

/-- `p(X+1).` -/
private def toksX : List Tok :=
  [⟨['p'], .functor, 0, 1⟩, ⟨['('], .parenOpen, 1, 2⟩, ⟨['X'], .var, 2, 3⟩, ⟨['+'], .opPlus, 3, 4⟩, ⟨['1'], .numeric, 4, 5⟩,
   ⟨[')'], .parenClose, 5, 6⟩, ⟨['.'], .fullstop, 6, 7⟩]
private theorem lexX : lexed "p(X+1)." = toksX := by rfl

/-- `p("\x").` -/
private def toksE : List Tok :=
  [⟨['p'], .functor, 0, 1⟩, ⟨['('], .parenOpen, 1, 2⟩, ⟨['\"', '\\', 'x', '\"'], .string, 2, 6⟩, ⟨[')'], .parenClose, 6, 7⟩,
   ⟨['.'], .fullstop, 7, 8⟩]
private theorem lexE : lexed "p(\"\\x\")." = toksE := by rfl

/-- A linked list or an operation with a variable in a belief, or an invalid escape in a
string: nothing is logged, and an exception that is not about the source leaves `parse`. -/
theorem C56_false :
    parseFile noFiles 60 ['a'] (lexed "p([a|[b]]).") = .err (.py "AttributeError") 0 ∧
    parseFile noFiles 60 ['a'] (lexed "p(X+1).") = .err (.py "AttributeError") 0 ∧
    parseFile noFiles 60 ['a'] (lexed "p(\"\\x\").") = .err (.py "UnicodeDecodeError") 0 := by
  rw [lexL, lexX, lexE]
  exact ⟨by with_unfolding_all rfl, by with_unfolding_all rfl, by with_unfolding_all rfl⟩

/-- `C56_partial`: it applies. -/
example (n : Nat) (e : Err) (s : Nat) (h : parseFile noFiles n ['a'] toksX = .err e s) :
    ((∃ m, e = .asl m) ∧ 0 < s) ∨ e = .py "AttributeError" ∨ e = .py "OverflowError" ∨ e = .py "infinite" ∨ e = .py "UnicodeDecodeError" :=
  C56_partial (fun _ _ h => by cases h) (lexX ▸ lexed_quoted _) h
/-- A syntax error has been logged. -/
example : parseFile noFiles 60 ['a'] (toksX.take 4) = .err (.asl "end of file") 1 := by with_unfolding_all rfl

/-- `{ include("./a.asl") } q.` -/
private def toksI : List Tok :=
  [⟨['{'], .braceOpen, 0, 1⟩, ⟨['i', 'n', 'c', 'l', 'u', 'd', 'e'], .incl, 2, 9⟩, ⟨['('], .parenOpen, 9, 10⟩,
   ⟨['\"', '.', '/', 'a', '.', 'a', 's', 'l', '\"'], .string, 10, 19⟩, ⟨[')'], .parenClose, 19, 20⟩,
   ⟨['}'], .braceClose, 21, 22⟩, ⟨['q'], .functor, 23, 24⟩, ⟨['.'], .fullstop, 24, 25⟩]
private theorem lexI : lexed "{ include(\"./a.asl\") } q." = toksI := by rfl

/-- A file system: every path to `a.asl` is a path to this text. -/
private def selfFiles : List Char → Option (List Tok) := fun p => if normpath p = "a.asl".toList then some toksI else none

/-- `././…a.asl` -/
private def dots : Nat → List Char
  | 0 => "a.asl".toList
  | k + 1 => '.' :: '/' :: dots k

private theorem splitSlash_dots (k : Nat) : splitSlash (dots k) = List.replicate k ['.'] ++ ["a.asl".toList] := by
  induction k with
  | zero => rfl
  | succ k ih =>
    show splitSlash ('.' :: '/' :: dots k) = _
    rw [splitSlash, if_neg (by decide), splitSlash, if_pos rfl, ih]
    rfl

private theorem norm_skip (k : Nat) (ws : List (List Char)) : normComps false [] (List.replicate k ['.'] ++ ws) = normComps false [] ws := by
  induction k with
  | zero => rfl
  | succ k ih =>
    rw [List.replicate_succ, List.cons_append, normComps, if_pos (.inr rfl), ih]

private theorem norm_dots (k : Nat) : normpath (dots k) = "a.asl".toList := by
  have h : (dots k).takeWhile (· = '/') = [] := by cases k <;> rfl
  unfold normpath
  simp only [h, if_true, List.isEmpty_nil, Bool.not_true, List.nil_append]
  rw [splitSlash_dots, norm_skip]
  rfl

private theorem dots_ne (k : Nat) : dots (k + 1) ≠ "a.asl".toList := by
  intro h
  have := congrArg List.head? h
  revert this
  show some '.' = some 'a' → False
  decide

/-- `././…` -/
private def dotPrefix : Nat → List Char
  | 0 => []
  | k + 1 => '.' :: '/' :: dotPrefix k

private theorem dotPrefix_snoc (k : Nat) : dotPrefix k ++ ['.', '/'] = dotPrefix (k + 1) := by
  induction k with
  | zero => rfl
  | succ k ih => show '.' :: '/' :: (dotPrefix k ++ ['.', '/']) = _; rw [ih]; rfl

private theorem dots_prefix (k : Nat) : dots k = dotPrefix k ++ "a.asl".toList := by
  induction k with
  | zero => rfl
  | succ k ih => show '.' :: '/' :: dots k = _; rw [ih]; rfl

private theorem join_dots (k : Nat) : joinPath (dirname (dots k)) "./a.asl".toList = dots (k + 1) := by
  cases k with
  | zero => rfl
  | succ k =>
    have h1 : dirname (dots (k + 1)) = dotPrefix k ++ ['.'] := by
      rw [dots_prefix, ← dotPrefix_snoc]
      have e : (dotPrefix k ++ ['.', '/'] ++ "a.asl".toList).reverse = 'l' :: 's' :: 'a' :: '.' :: 'a' :: '/' :: '.' :: (dotPrefix k).reverse := by
        simp
      unfold dirname
      simp only [e]
      simp [List.dropWhile]
    rw [h1, joinPath, if_neg (by decide), if_neg (by simp), dots_prefix (k + 1 + 1), ← dotPrefix_snoc, ← dotPrefix_snoc]
    simp

private theorem include_loops : ∀ (n k : Nat) (acc : Option AAgent) (s : Nat),
    parseAgent selfFiles n (List.replicate (k + 1) "a.asl".toList) (dots k) false acc toksI s = .oof
  | 0, _, _, _ => rfl
  | n + 1, k, acc, s => by
    have h : parseInclude toksI.tail = .ok ("./a.asl".toList, toksI.drop 5) := by rfl
    have hd : selfFiles (dots (k + 1)) = some toksI := by unfold selfFiles; rw [norm_dots, if_pos rfl]
    have hni : dots (k + 1) ∉ List.replicate (k + 1) "a.asl".toList := fun hm => dots_ne k (List.eq_of_mem_replicate hm)
    rw [parseAgent.eq_def]
    simp only [toksI, List.tail_cons] at h ⊢
    rw [if_pos trivial, if_pos (by rfl), h]
    simp only [parsing, Res.bind]
    rw [join_dots, if_neg hni, hd, norm_dots]
    have ih := include_loops n (k + 1) (some {}) s
    rw [List.replicate_succ] at ih
    simp only
    rw [ih]

/-- A file that includes itself as `./a.asl` is included without end: the paths get longer and
are compared with normalised paths.  (In Python, the recursion limit is reached.) -/
theorem C57_false (n : Nat) : parseFile selfFiles n "a.asl".toList (lexed "{ include(\"./a.asl\") } q.") = .oof := by
  rw [lexI, parseFile]
  have h := include_loops n 0 (some {}) 0
  have e : normpath "a.asl".toList = "a.asl".toList := by rfl
  rw [e]
  show Res.bind (parseAgent selfFiles n (List.replicate (0 + 1) "a.asl".toList) (dots 0) false (some {}) toksI 0) _ = .oof
  rw [h]
  rfl

/-- The same file, if only `a.asl` can be opened: the error is noticed. -/
private def plainFiles : List Char → Option (List Tok) := fun p => if p = "a.asl".toList then some toksX else none
example : ∃ N, ∀ n, N ≤ n → parseFile plainFiles n "a.asl".toList toksI ≠ .oof := by
  refine C57_partial (D := ["a.asl".toList]) (fun p ts h => ?_) (fun p ts h => ?_) _ (lexI ▸ lexed_quoted _)
  · unfold plainFiles at h
    split at h
    · cases h; exact lexX ▸ lexed_quoted _
    · cases h
  · unfold plainFiles at h
    split at h
    · rename_i hp; subst hp; exact ⟨by simp, by rfl⟩
    · cases h

/-- `{ include("b.asl") } q.` -/
private def toksB : List Tok :=
  [⟨['{'], .braceOpen, 0, 1⟩, ⟨['i', 'n', 'c', 'l', 'u', 'd', 'e'], .incl, 2, 9⟩, ⟨['('], .parenOpen, 9, 10⟩,
   ⟨['\"', 'b', '.', 'a', 's', 'l', '\"'], .string, 10, 17⟩, ⟨[')'], .parenClose, 17, 18⟩,
   ⟨['}'], .braceClose, 19, 20⟩, ⟨['q'], .functor, 21, 22⟩, ⟨['.'], .fullstop, 22, 23⟩]
private theorem lexB : lexed "{ include(\"b.asl\") } q." = toksB := by rfl

/-- Every path to a file named `b.asl` in the current directory is a path to this text. -/
private def bFiles : List Char → Option (List Tok) := fun p => if normpath p = "b.asl".toList then some toksB else none

private theorem simpleB : SimpleIncludes toksB := by
  intro k p t us h hk hp ht name hn
  simp only [toksB, List.suffix_cons_iff, List.cons.injEq] at h
  rcases h with ⟨rfl, _⟩ | ⟨_, _, rfl, _⟩ | ⟨rfl, _⟩ | ⟨rfl, _⟩ | ⟨rfl, _⟩ | ⟨rfl, _⟩ | h
  · cases hk
  · have e : parseString ['\"', 'b', '.', 'a', 's', 'l', '\"'] = .ok ("b.asl".toList.map Char.toNat) := by rfl
    rw [e] at hn
    cases hn
    exact .word (by decide) (by decide)
  · cases hk
  · cases hk
  · cases hk
  · cases hk
  · simp at h

/-- C57_names: a file that includes itself as `b.asl`. -/
example : ∃ N, ∀ n, N ≤ n → parseFile bFiles n "b.asl".toList toksB ≠ .oof := by
  refine C57_names (D := ["b.asl".toList]) (fun p ts h => ?_) (fun p ts h hn => ?_) (by rfl) (lexB ▸ lexed_quoted _) simpleB
  · unfold bFiles at h
    split at h
    · cases h; exact ⟨lexB ▸ lexed_quoted _, simpleB⟩
    · cases h
  · unfold bFiles at h
    split at h
    · rename_i hp; rw [← hn, hp]; simp
    · cases h
example : parseTerm 20 [] ≠ .oof := C57_terms (fun t ht => by cases ht) (by decide)
example : parseClause 120 toksX ≠ .oof := C57_clauses (lexX ▸ lexed_quoted _) (by decide)
example : validate { beliefs := [.lit ['p'] [.bin .add (.var ['X']) (.const (.num (.fin 1)))] []] } 0 = .err (.py "AttributeError") 0 := by
  with_unfolding_all rfl
example : parseTerm 120 (toksE.drop 2) = .err (.py "UnicodeDecodeError") := by with_unfolding_all rfl

end examples

end Verif
