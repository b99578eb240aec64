/-!
# The lexer (`agentspeak/lexer.py`)

Source text is a list of lines, a line is a list of characters.
-/

namespace Verif

/-- The character classes that Python takes from the Unicode tables, as far as they are
needed.  Only their values on ASCII characters are fixed. -/
class Unicode where
  /-- `\s` in regular expressions -/
  space : Char → Bool
  /-- `\d` in regular expressions -/
  digit : Char → Bool
  /-- `str.isalnum` of one character -/
  alnum : Char → Bool
  /-- `str.lower` of one character (more than one character in some cases) -/
  lower : Char → List Char
  /-- the character with a name, for `\N{…}` -/
  named : List Nat → Option Nat
  space_ascii : ∀ c, c.toNat < 128 → space c = (decide (9 ≤ c.toNat ∧ c.toNat ≤ 13) || decide (28 ≤ c.toNat ∧ c.toNat ≤ 32))
  digit_ascii : ∀ c, c.toNat < 128 → digit c = c.isDigit
  alnum_ascii : ∀ c, c.toNat < 128 → alnum c = c.isAlphanum
  lower_ascii : ∀ c, c.toNat < 128 → lower c = [c.toLower]
  named_lt : ∀ s n, named s = some n → n < 0x110000

/-- Regular expressions, as far as they are used in `lexer.py`. -/
inductive Re where
  /-- one character of a class -/
  | cls (p : Char → Bool)
  | eps
  | seq (a b : Re)
  | alt (a b : Re)
  /-- greedy `*` -/
  | star (a : Re)
  /-- negative lookahead `(?!…)` -/
  | neg (a : Re)
  /-- `$`: the end, or before a line feed at the end -/
  | eos

namespace Re

/-- The greedy loop: one more round if possible, otherwise go on.  A round that does not
consume anything is not tried (that does not happen with the expressions below). -/
def loop {α : Type} (f : List Char → (List Char → Option α) → Option α) :
    Nat → List Char → (List Char → Option α) → Option α
  | 0, s, k => k s
  | n + 1, s, k =>
    match f s (fun s' => if s'.length < s.length then loop f n s' k else none) with
    | some x => some x
    | none => k s

/-- Match at the beginning of `s`; `k` is called with the rest, and if it fails, other
possibilities are tried: Python's backtracking matcher, leftmost alternative first. -/
def run {α : Type} : Re → List Char → (List Char → Option α) → Option α
  | cls _, [], _ => none
  | cls p, c :: s, k => if p c then k s else none
  | eps, s, k => k s
  | seq a b, s, k => a.run s fun s' => b.run s' k
  | alt a b, s, k =>
    match a.run s k with
    | some x => some x
    | none => b.run s k
  | star a, s, k => loop a.run s.length s k
  | neg a, s, k =>
    match a.run s fun _ => some () with
    | some _ => none
    | none => k s
  | eos, s, k => if s = [] ∨ s = ['\n'] then k s else none

/-- `re.match(line, startcol)`, where `s` are the characters from `startcol`: the
characters after the match. -/
def rest (r : Re) (s : List Char) : Option (List Char) := r.run s some

/-! ## Abbreviations -/

/-- `.`: everything but the line feed -/
def dot : Re := cls (· ≠ '\n')
/-- one character -/
def chr (c : Char) : Re := cls (· = c)
/-- a sequence of characters -/
def text : List Char → Re
  | [] => eps
  | c :: cs => seq (chr c) (text cs)
/-- `a+` -/
def plus (a : Re) : Re := seq a (star a)
/-- `a?` -/
def opt (a : Re) : Re := alt a eps
/-- one of the texts, `a|b|…` -/
def oneOf : List (List Char) → Re
  | [] => neg eps
  | [t] => text t
  | t :: ts => alt (text t) (oneOf ts)

end Re

/-- `KEYWORDS`, `agentspeak/__init__.py` 293-306; the same list is in the expression for
functors, `lexer.py` 95. -/
def keywords : List (List Char) :=
  ["true".toList, "false".toList, "not".toList, "div".toList, "mod".toList, "if".toList, "else".toList,
   "while".toList, "for".toList, "include".toList, "begin".toList, "end".toList]

/-- `TokenType`, `lexer.py` 65-147. -/
inductive Kind where
  | space | comment
  | parenOpen | parenClose | bracketOpen | bracketClose | braceOpen | braceClose
  | functor | numeric | var | string
  | litTrue | litFalse
  | tokIf | tokElse | tokWhile | tokFor
  | incl | begin | end_
  | arrow | define | colon
  | forkJoinAnd | forkJoinXor
  | doubleExclam | exclam | question | minusPlus
  | opNot | opPlus | opMinus | opPower | opMult | opFdiv | opDiv | opMod | opAnd | opOr
  | opLe | opGe | opNe | opEq | opDecompose | opUnify | opLt | opGt
  | fullstop | comma | semicolon | at_
  deriving DecidableEq, Repr

namespace Kind

/-- `__order__`, `lexer.py` 66-83. -/
def all : List Kind :=
  [space, comment,
   parenOpen, parenClose, bracketOpen, bracketClose, braceOpen, braceClose,
   functor, numeric, var, string,
   litTrue, litFalse,
   tokIf, tokElse, tokWhile, tokFor,
   incl, begin, end_,
   arrow, define, colon,
   forkJoinAnd, forkJoinXor,
   doubleExclam, exclam, question, minusPlus,
   opNot, opPlus, opMinus, opPower, opMult, opFdiv, opDiv, opMod, opAnd, opOr,
   opLe, opGe, opNe, opEq, opDecompose, opUnify, opLt, opGt,
   fullstop, comma, semicolon, at_]

/-- The tokens that are one fixed text, `lexer.py` 88-147. -/
def fixed : Kind → Option (List Char)
  | parenOpen => some ['('] | parenClose => some [')']
  | bracketOpen => some ['['] | bracketClose => some [']']
  | braceOpen => some ['{'] | braceClose => some ['}']
  | litTrue => some "true".toList | litFalse => some "false".toList
  | tokIf => some "if".toList | tokElse => some "else".toList
  | tokWhile => some "while".toList | tokFor => some "for".toList
  | incl => some "include".toList | begin => some "begin".toList | end_ => some "end".toList
  | arrow => some ['<', '-'] | define => some [':', '-'] | colon => some [':']
  | forkJoinAnd => some ['|', '&', '|'] | forkJoinXor => some ['|', '|', '|']
  | doubleExclam => some ['!', '!'] | exclam => some ['!'] | question => some ['?'] | minusPlus => some ['-', '+']
  | opNot => some "not".toList | opPlus => some ['+'] | opMinus => some ['-']
  | opPower => some ['*', '*'] | opMult => some ['*'] | opFdiv => some ['/']
  | opDiv => some "div".toList | opMod => some "mod".toList | opAnd => some ['&'] | opOr => some ['|']
  | opLe => some ['<', '='] | opGe => some ['>', '='] | opNe => some ['\\', '=', '='] | opEq => some ['=', '=']
  | opDecompose => some ['=', '.', '.'] | opUnify => some ['='] | opLt => some ['<'] | opGt => some ['>']
  | fullstop => some ['.'] | comma => some [','] | semicolon => some [';'] | at_ => some ['@']
  | space | comment | functor | numeric | var | string => none

end Kind

/-- `[a-z]` -/
def isLow (c : Char) : Bool := decide ('a' ≤ c ∧ c ≤ 'z')
/-- `[A-Z]` -/
def isUp (c : Char) : Bool := decide ('A' ≤ c ∧ c ≤ 'Z')
/-- `[a-zA-Z0-9_]` -/
def isWord (c : Char) : Bool := isLow c || isUp c || decide ('0' ≤ c ∧ c ≤ '9') || decide (c = '_')

section
variable [Unicode]

open Re in
/-- The regular expressions, `lexer.py` 85-147. -/
def Kind.re : Kind → Re
  | .space => plus (cls Unicode.space)
  | .comment => seq (alt (text ['/', '/']) (chr '#')) (star dot)
  | .functor =>
    seq (opt (chr '~')) (seq (neg (seq (oneOf keywords) (alt eos (cls fun c => !isWord c))))
      (plus (seq (opt (chr '.')) (seq (cls isLow) (star (cls isWord))))))
  | .numeric =>
    seq (alt (seq (star (cls Unicode.digit)) (seq (chr '.') (plus (cls Unicode.digit)))) (plus (cls Unicode.digit)))
      (opt (seq (cls fun c => c = 'e' || c = 'E') (seq (opt (cls fun c => c = '+' || c = '-')) (plus (cls Unicode.digit)))))
  | .var => alt (seq (star (chr '_')) (seq (cls isUp) (star (cls isWord)))) (plus (chr '_'))
  | .string => seq (chr '"') (seq (star (alt (cls fun c => c ≠ '\\' && c ≠ '"') (seq (chr '\\') dot))) (chr '"'))
  | k => text (k.fixed.getD [])

/-- `for token_type in TokenType: …`, `lexer.py` 177-181: the first kind that matches, and
the characters after the match. -/
def firstKind (s : List Char) : List Kind → Option (Kind × List Char)
  | [] => none
  | k :: ks =>
    match k.re.rest s with
    | some r => some (k, r)
    | none => firstKind s ks

/-- `TokenInfo` and `SourceLocation` (the columns only). -/
structure Tok where
  lexeme : List Char
  kind : Kind
  startCol : Nat
  endCol : Nat
  deriving Repr, DecidableEq

/-- What happens while a line is scanned: a token is yielded, or an illegal character is
reported. -/
inductive LexEv where
  | tok (t : Tok)
  | illegal (c : Char) (col : Nat)
  deriving Repr, DecidableEq

/-- `RE_END_COMMENT.match`, `lexer.py` 151: `.*?\*/`. -/
def endComment : List Char → Option (List Char)
  | '*' :: '/' :: s => some s
  | c :: s => if c = '\n' then none else endComment s
  | [] => none

/-- The loop over one line, `lexer.py` 161-195.  `col` is `startcol`, `s` are the
characters from there on.  The answer is `none` only without fuel; otherwise the events and
`in_comment`. -/
def scan : Nat → Bool → Nat → List Char → Option (List LexEv × Bool)
  | 0, _, _, _ => none
  | n + 1, inComment, col, s =>
    match s with
    | [] => some ([], inComment)
    | c :: cs =>
      if inComment then
        match endComment s with
        | none => some ([], true)
        | some r => scan n false (col + (s.length - r.length)) r
      else
        match (Re.text ['/', '*']).rest s with
        | some r => scan n true (col + (s.length - r.length)) r
        | none =>
          match firstKind s Kind.all with
          | some (k, r) =>
            let stop := col + (s.length - r.length)
            (scan n false stop r).map fun (evs, b) =>
              (if k = .space ∨ k = .comment then evs
               else .tok ⟨s.take (s.length - r.length), k, col, stop⟩ :: evs, b)
          | none => (scan n false (col + 1) cs).map fun (evs, b) => (.illegal c col :: evs, b)

/-- `line.replace("\t", "    ")`, `lexer.py` 158. -/
def expandTabs (line : List Char) : List Char :=
  line.flatMap fun c => if c = '\t' then [' ', ' ', ' ', ' '] else [c]

/-- One line, `lexer.py` 157-195. -/
def scanLine (inComment : Bool) (line : List Char) : Option (List LexEv × Bool) :=
  scan ((expandTabs line).length + 1) inComment 0 (expandTabs line)

/-- `tokenize`, `lexer.py` 154-195: the events of all lines, each line with its number. -/
def scanLines (inComment : Bool) (lineno : Nat) : List (List Char) → Option (List (Nat × LexEv))
  | [] => some []
  | l :: ls =>
    match scanLine inComment l with
    | none => none
    | some (evs, b) => (scanLines b (lineno + 1) ls).map fun rest => evs.map (lineno, ·) ++ rest

/-- `tokenize(sourcefile, log, firstline)`. -/
def tokenize (firstline : Nat) (lines : List (List Char)) : Option (List (Nat × LexEv)) := scanLines false firstline lines

end

/-- `for line in sourcefile`, `lexer.py` 157, for a file or a `StringIO` (`__init__.py` 47-57):
the lines of a text, with their line feeds.  Other line breaks, which Python reads as line
feeds, are left out. -/
def fileLines : List Char → List (List Char)
  | [] => []
  | c :: cs =>
    if c = '\n' then ['\n'] :: fileLines cs
    else
      match fileLines cs with
      | [] => [[c]]
      | l :: ls => (c :: l) :: ls

end Verif
