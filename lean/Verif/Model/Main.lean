import Verif.Model.Build
import Verif.Model.Env

/-!
# Running a program from the command line (`agentspeak/runtime.py` 1146-1169, `agentspeak/__main__.py`)
-/

namespace Verif

/-- `os.path.basename` on POSIX systems: what follows the last slash. -/
def basename (path : List Char) : List Char := (path.reverse.takeWhile (· ≠ '/')).reverse

/-- `os.path.splitext(…)[0]` for a name without slashes: the name up to the last dot, if there is
anything but dots before it. -/
def stem (name : List Char) : List Char :=
  let dots := name.takeWhile (· = '.')
  let rest := name.dropWhile (· = '.')
  if '.' ∈ rest then dots ++ (rest.reverse.dropWhile (· ≠ '.')).tail.reverse else name

section
variable [Unicode]

/-- The argument of the loop in `Environment._make_name`, `runtime.py` 762. -/
def agentBase (path : List Char) : List Char := sanitizeFunctor (stem (basename path))

end

section
variable [Unicode] [Floats] [Host]

/-- `env.run_agent(env.build_agent(source, actions))`, `runtime.py` 1154-1155, 1163, with the tokens
of the source.  Sources with illegal characters are left out; the parser stops before anything is
built. -/
def runSource (acts : Lookup) (text : APlan → String) (files : List Char → Option (List Tok)) (n k : Nat) (file : List Char)
    (ts : List Tok) (s : QSt World) : Res (QSt World) Unit :=
  match makeSource acts text files n file ts with
  | .oof => .oof
  | .err e _ => .err e s
  | .ok src _ => (buildAgent n src (String.ofList (agentBase file)) s).bind fun a s => runAgent n a k s

/-- The body of `main(post_repl=False)`, `runtime.py` 1148-1163, for the arguments `sys.argv[1:]`
and a standard input that is not a terminal (its name is `<stdin>`).  `files` are the tokens of
the files that can be opened.  Note the `break` in line 1158.  With a terminal and no arguments,
`main` is the prompt of `Model/Repl`. -/
def mainBody (acts : Lookup) (text : APlan → String) (files : List Char → Option (List Tok)) (n k : Nat) (args : List (List Char))
    (stdin : List Tok) (s : QSt World) : Res (QSt World) Unit :=
  match args with
  | arg :: _ =>
    match files arg with
    | none => .err (.py "FileNotFoundError") s
    | some ts => runSource acts text files n k arg ts s
  | [] => runSource acts text files n k "<stdin>".toList stdin s

omit [Unicode] [Floats] [Host] in
/-- How the process ends, `runtime.py` 1164-1169: the exit status, and the exception if it is not
caught by `main` (Python's own exit status is 1, too). -/
def exitOf {σ α : Type} : Res σ α → Option (Nat × Option String)
  | .oof => none
  | .ok _ _ => some (0, none)
  | .err (.asl _) _ => some (1, none)
  | .err (.py e) _ => if e = "AggregatedError" then some (1, none) else some (1, some e)

/-- `main(post_repl=False)` in a new environment, `runtime.py` 1146-1169. -/
def mainExit (acts : Lookup) (text : APlan → String) (files : List Char → Option (List Tok)) (n k : Nat) (args : List (List Char))
    (stdin : List Tok) (clock : Nat → Rat) : Option (Nat × Option String) :=
  exitOf (mainBody acts text files n k args stdin ⟨BSt.init, 0, World.init clock⟩)

end

end Verif
