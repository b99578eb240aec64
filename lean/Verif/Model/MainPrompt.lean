import Verif.Model.Main
import Verif.Model.Repl

/-!
# Running a program and staying at the prompt (`agentspeak/runtime.py` 1146-1169, `main(post_repl=True)`)
-/

namespace Verif

section
variable [Unicode] [Floats] [Host]

/-- `repl(agent, env, actions)`, `runtime.py` 1095-1142, for the lines that are typed before `KeyboardInterrupt`
(`sys.exit(0)`, 1111-1113).  The end of the input, which raises `EOFError`, is left out. -/
def promptFor (acts : Lookup) (n k a : Nat) (lines : List (List Char)) (s : QSt World) : Res (QSt World) Unit :=
  match replSession n (replExec acts n k a) lines [] (replStart s) with
  | .ok _ s => .ok () s.st
  | .err e s => .err e s.st
  | .oof => .oof

/-- The body of `main(post_repl=True)` with a terminal as the standard input, `runtime.py` 1148-1161: the first file is built and
run, and the prompt is for its agent; without files, the prompt is for an agent `stdin` without a program, which is
not registered in the environment.  `lines` are typed at the prompt. -/
def mainPrompt (acts : Lookup) (text : APlan → String) (files : List Char → Option (List Tok)) (n k : Nat) (args : List (List Char))
    (lines : List (List Char)) (s : QSt World) : Res (QSt World) Unit :=
  match args with
  | arg :: _ =>
    match files arg with
    | none => .err (.py "FileNotFoundError") s
    | some ts =>
      match makeSource acts text files n arg ts with
      | .oof => .oof
      | .err e _ => .err e s
      | .ok src _ => (buildAgent n src (String.ofList (agentBase arg)) s).bind fun a s => (runAgent n a k s).bind fun _ s =>
        promptFor acts n k a lines s
  | [] => promptFor acts n k s.w.nag lines { s with w := newAgent { name := "stdin" } s.w }

/-- `main(post_repl=True)` in a new environment, `runtime.py` 1146-1169. -/
def promptExit (acts : Lookup) (text : APlan → String) (files : List Char → Option (List Tok)) (n k : Nat) (args : List (List Char))
    (lines : List (List Char)) (clock : Nat → Rat) : Option (Nat × Option String) :=
  exitOf (mainPrompt acts text files n k args lines ⟨BSt.init, 0, World.init clock⟩)

end

end Verif
