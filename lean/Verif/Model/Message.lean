import Verif.Model.Basic
import Verif.Model.Lexer
import Verif.Model.Log

/-!
# Messages with excerpts of the source (`agentspeak/__init__.py` 58-148, `lexer.py` 198-236)

The text of a message is given; `logging` itself (handlers, the stream, tracebacks) is not
modelled.
-/

namespace Verif

/-- `SourceLocation`, `agentspeak/__init__.py` 42-44. -/
structure SourceLoc where
  filename : List Char
  lineno : Nat
  startCol : Nat
  endCol : Nat
  line : List Char
deriving DecidableEq, Repr

/-- `colorama.Style.BRIGHT` -/
def styleBright : List Char := '\x1b' :: "[1m".toList
/-- `colorama.Style.NORMAL` -/
def styleNormal : List Char := '\x1b' :: "[22m".toList
/-- `colorama.Fore.RED` -/
def foreRed : List Char := '\x1b' :: "[31m".toList
/-- `colorama.Fore.MAGENTA` -/
def foreMagenta : List Char := '\x1b' :: "[35m".toList
/-- `colorama.Fore.BLACK` -/
def foreBlack : List Char := '\x1b' :: "[30m".toList
/-- `colorama.Fore.RESET` -/
def foreReset : List Char := '\x1b' :: "[39m".toList

/-- `%d` of a number that is not negative -/
def decimal (n : Nat) : List Char := (Nat.repr n).toList

/-- `"%s:%d:%d: " % (loc.filename, loc.lineno, loc.startcol + 1)`, `agentspeak/__init__.py` 87. -/
def SourceLoc.prefix (l : SourceLoc) : List Char :=
  l.filename ++ ':' :: decimal l.lineno ++ ':' :: decimal (l.startCol + 1) ++ [':', ' ']

/-- The level, `agentspeak/__init__.py` 90-99.  `colorama.Fore` has no attribute `Reset`. -/
def levelText (level : Nat) : Ev (List Char) :=
  if level ≥ 50 then .err (.py "AttributeError")
  else if level ≥ 40 then .ok (foreRed ++ "error: ".toList ++ foreReset)
  else if level ≥ 30 then .ok (foreMagenta ++ "warning: ".toList ++ foreReset)
  else if level ≥ 20 then .ok (foreBlack ++ "info: ".toList ++ foreReset)
  else .ok (styleBright ++ "debug: ".toList ++ styleNormal)

/-- The loops that mark a location, `agentspeak/__init__.py` 122-126 and 129-131. -/
def underline (c : Char) (l : SourceLoc) (u : List Char) : List Char :=
  (List.range' l.startCol (max l.endCol (l.startCol + 1) - l.startCol)).foldl
    (fun u col => if col < u.length then u.set col c else u) u

/-- One of the extra locations, `agentspeak/__init__.py` 114-126. -/
def underlineExtra (loc : SourceLoc) (u : List Char) : Option SourceLoc → List Char
  | none => u
  | some e => if e.filename ≠ loc.filename ∨ e.lineno ≠ loc.lineno then u else underline '~' e u

/-- `under_line`, `agentspeak/__init__.py` 111-131. -/
def underLine (loc : SourceLoc) (extra : List (Option SourceLoc)) : List Char :=
  underline '^' loc (extra.foldl (underlineExtra loc) (loc.line.map fun _ => ' '))

section
variable [Unicode]

/-- `str.rstrip()`.  What `str.isspace` accepts is what `\s` matches. -/
def rstrip (s : List Char) : List Char := (s.reverse.dropWhile Unicode.space).reverse

/-- The source annotation, `agentspeak/__init__.py` 105-135. -/
def annotation (loc : Option SourceLoc) (extra : List (Option SourceLoc)) : List Char :=
  match loc with
  | none => []
  | some l =>
    if l.line = [] then []
    else '\n' :: rstrip l.line ++ '\n' :: styleBright ++ rstrip (underLine l extra) ++ styleNormal

/-- `LogFormatter.formatMessage`, `agentspeak/__init__.py` 78-137; `msg` is the message with its
arguments. -/
def formatMessage (level : Nat) (loc : Option SourceLoc) (extra : List (Option SourceLoc)) (msg : List Char) :
    Ev (List Char) :=
  (levelText level).map fun lv =>
    (if level ≥ 20 then styleBright else []) ++ (loc.elim [] SourceLoc.prefix) ++ lv ++ msg ++ styleNormal ++
      annotation loc extra

/-- `loc` of what the lexer yields or reports, `lexer.py` 184-187 and 192: an illegal
character ends where it begins. -/
def LexEv.loc (name : List Char) (lineno : Nat) (line : List Char) : LexEv → SourceLoc
  | .tok t => ⟨name, lineno, t.startCol, t.endCol, expandTabs line⟩
  | .illegal _ col => ⟨name, lineno, col, col, expandTabs line⟩

/-- A message that is printed: level, location, text. -/
structure Message where
  level : Nat
  loc : SourceLoc
  msg : List Char
deriving DecidableEq, Repr

/-- The messages of `lexer.main`: `log.info("%s", tok.lexeme, loc=tok.loc)` for a token,
`lexer.py` 219, and the report of an illegal character, 192. -/
def LexEv.message (name : List Char) (lineno : Nat) (line : List Char) (ev : LexEv) : Message :=
  match ev with
  | .tok t => ⟨20, ev.loc name lineno line, t.lexeme⟩
  | .illegal c _ => ⟨40, ev.loc name lineno line, "illegal character '".toList ++ [c, '\'']⟩

/-- The loop of `lexer.main` over what the lexer does, `lexer.py` 216-221, with a `Log` that
gives up at the third error: what is printed, and the exception, if there is one. -/
def lexPrint (log : Log) : List (Message × Bool) → List Message × Option Aggregated
  | [] => ([], match log.throw.1 with | .raises e => some e | _ => none)
  | (m, illegal) :: rest =>
    if illegal then
      match log.error with
      | (.raises e, _) => ([m], some e)
      | (_, log) => let (ms, e) := lexPrint log rest; (m :: ms, e)
    else let (ms, e) := lexPrint log rest; (m :: ms, e)

/-- Is it the report of an illegal character? -/
def LexEv.isIllegal : LexEv → Bool
  | .tok _ => false
  | .illegal _ _ => true

/-- `lexer.main(source, lineno)`, `lexer.py` 215-221. -/
def lexMain (name : List Char) (lineno : Nat) (lines : List (List Char)) : Option (List Message × Option Aggregated) :=
  (tokenize lineno lines).map fun evs =>
    lexPrint { maxErrors := some 3 }
      (evs.map fun (n, ev) => (ev.message name n (lines.getD (n - lineno) []), ev.isIllegal))

/-- `lexer.repl`, `lexer.py` 224-236, for the lines that are typed: what is printed for each
of them.  The number of the line is not increased after an error. -/
def lexRepl (lineno : Nat) : List (List Char) → Option (List (List Message × Option Aggregated))
  | [] => some []
  | l :: ls =>
    match lexMain "<stdin>".toList lineno (fileLines l) with
    | none => none
    | some (ms, none) => (lexRepl (lineno + 1) ls).map ((ms, none) :: ·)
    | some (ms, some e) => (lexRepl lineno ls).map ((ms, some e) :: ·)

end

end Verif
