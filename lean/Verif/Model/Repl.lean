import Verif.Model.Build
import Verif.Model.Message

/-!
# The prompt (`agentspeak/runtime.py` 1095-1143)

Reading and executing are separate: `replLine` gets a function that executes a command.  What
is printed, the end of the input and `KeyboardInterrupt` are left out.
-/

namespace Verif

section
variable [Unicode] [Floats]

/-- The inner loop, `runtime.py` 1115-1136, for the tokens that have not been used.  `bad` says
that an illegal character has been reported in this line (`log.throw()`, 1121 and 1124); `exec`
is lines 1127-1135.  The answer are the tokens that are left; after an `AggregatedError` or an
`AslError` there are none (1137-1142), other exceptions end the session.  There is fuel for the
parser (`n`) and for the loop. -/
def replLoop {σ : Type} (n : Nat) (exec : List AStmt → σ → Res σ Unit) (bad : Bool) : Nat → List Tok → σ → Res σ (List Tok)
  | _, [], s => .ok [] s
  | 0, _ :: _, _ => .oof
  | k + 1, t :: ts, s =>
    match parsePlanBody n (t :: ts) with
    | .oof => .oof
    | .err (.asl _) => .ok [] s
    | .err (.py e) =>
      if e = "StopIteration" then .ok (if bad then [] else t :: ts) s else .err (.py e) s
    | .ok (b, rest) =>
      if bad then .ok [] s
      else
        match exec b s with
        | .oof => .oof
        | .ok () s => replLoop n exec bad k rest.tail s
        | .err (.asl _) s => .ok [] s
        | .err (.py e) s => if e = "AggregatedError" then .ok [] s else .err (.py e) s

/-- One line at the prompt, `runtime.py` 1104-1142.  Every line is a source of its own; the third
illegal character raises. -/
def replLine {σ : Type} (n : Nat) (exec : List AStmt → σ → Res σ Unit) (line : List Char) (pend : List Tok) (s : σ) :
    Res σ (List Tok) :=
  match tokenize 1 (fileLines line) with
  | none => .oof
  | some evs =>
    let toks := pend ++ toksOf (evs.map Prod.snd)
    let bad := evs.countP (·.2.isIllegal)
    if bad ≥ 3 then .ok [] s else replLoop n exec (bad ≠ 0) toks.length toks s

/-- A session, `runtime.py` 1103-1142: the lines that are typed. -/
def replSession {σ : Type} (n : Nat) (exec : List AStmt → σ → Res σ Unit) : List (List Char) → List Tok → σ → Res σ (List Tok)
  | [], pend, s => .ok pend s
  | l :: ls, pend, s => (replLine n exec l pend s).bind fun pend s => replSession n exec ls pend s

end

/-- The state of a session, `runtime.py` 1099-1101: the environment, `variables`, and the number
of `intention`. -/
structure ReplSt where
  st : QSt World
  names : List (List Char × Term) := []
  int : Nat

/-- Changes of the environment. -/
def ReplSt.world (s : ReplSt) (f : World → World) : ReplSt := { s with st := { s.st with w := f s.st.w } }

/-- After building the instructions of a command, `runtime.py` 1129-1132: the variables, the code, and
`intention.instr`. -/
def ReplSt.built (s : ReplSt) (t : Bld) (code : Code) : ReplSt where
  st := ⟨s.st.b, t.tab.next, { s.st.w with code := code }.modInt s.int fun x => { x with instr := some s.st.w.code.size }⟩
  names := t.tab.names
  int := s.int

section
variable [Host]

/-- Executing a command for agent `a`, `runtime.py` 1129-1135: build the instructions, put the
intention on a new stack, and run the agent (`k` rounds).  The instructions that have been built
before an error are left out: `intention.instr` is set again before it is used.  Errors are
counted without a limit.  The new `Environment` (1099), of which only the clock is used, is that of the
agent here. -/
def replExec (acts : Lookup) (n k a : Nat) (b : List AStmt) (s : ReplSt) : Res ReplSt Unit :=
  let c := s.st.w.code
  match makeStmts acts b { tab := ⟨s.names, s.st.nv⟩ } with
  | .oof => .oof
  | .err e t => .err e (s.built t (c.alloc .noop))
  | .ok ss t =>
    if t.errs ≠ 0 then .err (.asl "errors") (s.built t (c.alloc .noop))
    else
      let s := (s.built t (compileBody ss c)).world fun w => w.setStacks a ((w.ags a).intentions ++ [[s.int]])
      match runAgent n a k s.st with
      | .ok () st => .ok () { s with st := st }
      | .err e st => .err e { s with st := st }
      | .oof => .oof

/-- The beginning of a session, `runtime.py` 1099-1101: a new intention. -/
def replStart (s : QSt World) : ReplSt :=
  { st := { s with w := { s.w.setInt s.w.nint {} with nint := s.w.nint + 1 } }, int := s.w.nint }

end

end Verif
