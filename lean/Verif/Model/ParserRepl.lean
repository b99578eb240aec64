import Verif.Model.Script
import Verif.Model.Message

/-!
# The prompt of the parser (`agentspeak/parser.py` 1453-1486)

It prints the agents that are typed.  The end of the input and `KeyboardInterrupt` are left out.
-/

namespace Verif

section
variable [Unicode] [Floats] [Arith]

/-- What happens to an exception of the functions for clauses and directives: at the prompt,
`parse_agent` is called without `parse` (1472), so that `StopIteration` is passed on.  In a
directive, `parse` (996) catches it and asks for `tokens.peek()` (1440), which an iterator of a
list does not have. -/
def raisedTyped {α : Type} (dir : Bool) (e : Err) (s : Nat) : Res Nat α :=
  match e with
  | .asl m => .err (.asl m) (s + 1)
  | .py k => if k = "StopIteration" then .err (.py (if dir then "AttributeError" else k)) s else .err (.py k) s

/-- Run one of these functions. -/
def parsingTyped {α : Type} (dir : Bool) (x : Ev α) (s : Nat) : Res Nat α :=
  match x with
  | .ok a => .ok a s
  | .err e => raisedTyped dir e s
  | .oof => .oof

/-- `parse_agent` (`parser.py` 938-1045) with an iterator of a list (1470).  The same as
`parseAgent`, except for `StopIteration`; the tokens of included files are a `TokenStream`
(985), for which it is `parseAgent`. -/
def parseTyped (files : List Char → Option (List Tok)) :
    Nat → List (List Char) → List Char → Bool → Option AAgent → List Tok → Nat → Res Nat (Option AAgent × List Tok)
  | 0, _, _, _, _, _, _ => .oof
  | n + 1, included, file, dir, acc, ts, s =>
    match ts with
    | [] => if dir then .err (.asl "end of file") (s + 1) else closeAgent acc [] s
    | t :: us =>
      if t.lexeme = ['{'] then
        if at? "include".toList us then
          (parsingTyped dir (parseInclude us) s).bind fun (name, rest) s =>
          let path := joinPath (dirname file) name
          if path ∈ included then parseTyped files n included file dir acc rest.tail (s + 1)
          else
            match files path with
            | none => parseTyped files n included file dir acc rest.tail (s + 1)
            | some toks =>
              (parseAgent files n (normpath path :: included) path false (some {}) toks s).bind fun (sub, _) s =>
              parseTyped files n included file dir (acc.bind fun a => sub.map a.append) rest.tail s
        else if at? "begin".toList us then
          (parsingTyped dir (parseBegin n us) s).bind fun (_, rest) s =>
          (parseTyped files n included file true (some {}) rest.tail s).bind fun (sub, rest) s =>
          parseTyped files n included file dir (acc.bind fun a => sub.map a.append) rest s
        else if at? "end".toList us then
          (parsingTyped dir (parseEnd us) s).bind fun (_, rest) s =>
          if dir then closeAgent acc rest.tail s
          else parseTyped files n included file dir acc rest.tail (s + 1)
        else if us.isEmpty then raisedTyped dir (.py "StopIteration") s
        else raisedTyped dir (.asl "syntax") s
      else if startsClause t then
        (parsingTyped dir (parseClause n (t :: us)) s).bind fun (c, rest) s =>
        parseTyped files n included file dir (acc.map (·.add c)) rest.tail s
      else parseTyped files n included file dir acc us (s + 1)

/-- `"<stdin>"` -/
def stdin : List Char := "<stdin>".toList

/-- The inner loop, `parser.py` 1469-1479.  `bad` is the number of illegal characters of the
line, which have been logged.  The state are the agents that have been given to `hook`; the
answer are the tokens that are kept.  After an error there are none (1480-1482); a tree with
`None` in it comes with an error.  Exceptions other than `AggregatedError` end the session.  The
tokens have all been used after an agent, so that there is one round. -/
def parserLoop (files : List Char → Option (List Tok)) (n bad : Nat) (ts : List Tok) (out : List AAgent) : Res (List AAgent) (List Tok) :=
  if ts = [] then .ok [] out
  else
    match parseTyped files n [normpath stdin] stdin false (some {}) ts bad with
    | .oof => .oof
    | .ok (some a, rest) s => if s = 0 then .ok rest (out ++ [a]) else .ok [] out
    | .ok (none, _) _ => .ok [] out
    | .err (.asl _) _ => .ok [] out
    | .err (.py k) s => if k = "StopIteration" then .ok (if s = 0 then ts else []) out else .err (.py k) out

/-- One line, `parser.py` 1458-1482; the third illegal character raises. -/
def parserLine (files : List Char → Option (List Tok)) (n : Nat) (line : List Char) (pend : List Tok) (out : List AAgent) :
    Res (List AAgent) (List Tok) :=
  match tokenize 1 (fileLines line) with
  | none => .oof
  | some evs =>
    let bad := evs.countP (·.2.isIllegal)
    if bad ≥ 3 then .ok [] out else parserLoop files n bad (pend ++ toksOf (evs.map Prod.snd)) out

/-- A session, `parser.py` 1453-1486: the lines that are typed. -/
def parserSession (files : List Char → Option (List Tok)) (n : Nat) : List (List Char) → List Tok → List AAgent → Res (List AAgent) (List Tok)
  | [], pend, out => .ok pend out
  | l :: ls, pend, out => (parserLine files n l pend out).bind fun pend out => parserSession files n ls pend out

end

end Verif
