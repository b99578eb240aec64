import Verif.Model.Stdlib

/-!
# `Agent.step` (`runtime.py` 661-728, 902-954)

State: `QSt World`.  Between instructions nobody looks at `s.b`, `s.w.cur` and
`s.w.curInt`; the bindings of an intention are kept in the intention.
-/

namespace Verif

/-- Change an intention. -/
def World.modInt (w : World) (i : Nat) (f : Intention → Intention) : World := w.setInt i (f (w.ints i))

/-- Change the intentions of an agent. -/
def World.setStacks (w : World) (a : Nat) (sts : List (List Nat)) : World :=
  w.setAg a { w.ags a with intentions := sts }

section
variable [Host]

/-- `instr.f(self, intention)`, `runtime.py` 902-954, for agent `a` and intention `i`;
`s.b` are scope and stack of the intention.  A generator that has raised an exception is
exhausted. -/
def runF (n a i : Nat) (f : InstrF) (s : QSt World) : Res (QSt World) Bool :=
  match f with
  | .noop => .ok true s
  | .addBelief t => call n (gnext n) a .addition .belief t i false s
  | .removeBelief t => call n (gnext n) a .removal .belief t i false s
  | .testBelief t => call n (gnext n) a .addition .test t i false s
  | .call tr gt t => call n (gnext n) a tr gt t i false s
  | .callDelayed tr gt t => call n (gnext n) a tr gt t i true s
  | .pushQuery q => .ok true { s with w := s.w.modInt i fun x => { x with queries := .start q :: x.queries } }
  | .nextOrFail =>
    match (s.w.ints i).queries with
    | [] => .err (.py "IndexError") s
    | g :: rest =>
      match gnext n g s with
      | .ok (some g) s => .ok true { s with w := s.w.modInt i fun x => { x with queries := g :: rest } }
      | .ok none s => .ok false { s with w := s.w.modInt i fun x => { x with queries := .done :: rest } }
      | .err e s => .err e { s with w := s.w.modInt i fun x => { x with queries := .done :: rest } }
      | .oof => .oof
  | .popQuery =>
    match (s.w.ints i).queries with
    | [] => .err (.py "IndexError") s
    | _ :: rest => .ok true { s with w := s.w.modInt i fun x => { x with queries := rest } }
  | .pushChoicepoint =>
    .ok true { s with b := s.b.mark, w := s.w.modInt i fun x => { x with cps := s.b.ncp :: x.cps } }
  | .popChoicepoint =>
    match (s.w.ints i).cps with
    | [] => .err (.py "IndexError") s
    | c :: rest => .ok true { s with b := reroll s.b c, w := s.w.modInt i fun x => { x with cps := rest } }

/-- Run the instruction of intention `i` of agent `a`: scope and stack of the intention
are loaded before and stored afterwards. -/
def runI (n a i : Nat) (f : InstrF) (s : QSt World) : Res (QSt World) Bool :=
  match runF n a i f { s with b := (s.w.ints i).b, w := { s.w with cur := a, curInt := i } } with
  | .ok ok s' => .ok ok { s' with b := s.b, w := s'.w.modInt i fun x => { x with b := s'.b } }
  | .err e s' => .err e { s' with b := s.b, w := s'.w.modInt i fun x => { x with b := s'.b } }
  | .oof => .oof

omit [Host] in
/-- The loop of `Agent.step`, `runtime.py` 674-692, with `Waiter.poll` 331-332: the position
of the first stack that is neither empty nor suspended, and its top. -/
def pick : Nat → List (List Nat) → World → Option (Nat × Nat) × World
  | _, [], w => (none, w)
  | k, [] :: rest, w => pick (k + 1) rest w
  | k, (i :: _) :: rest, w =>
    match (w.ints i).waiter with
    | none => (some (k, i), w)
    | some ⟨_, none⟩ => pick (k + 1) rest w
    | some ⟨_, some d⟩ =>
      let (now, w) := w.time
      if d < now then (some (k, i), w.setWaiter i none) else pick (k + 1) rest w

/-- `Agent.step`, `runtime.py` 700-709: the plan of intention `i`, the top of stack number
`k`, has no further instructions.  `self.intentions.remove(intention_stack)` removes the
first stack that is *equal*, i.e. empty. -/
def finish (n a k i : Nat) (s : QSt World) : Res (QSt World) Bool :=
  let sts := (s.w.ags a).intentions
  let below := (sts[k]?.getD []).tail
  match below with
  | [] => .ok true { s with w := s.w.setStacks a ((sts.set k []).erase []) }
  | j :: _ =>
    let s := { s with w := s.w.setStacks a (sts.set k below) }
    match (s.w.ints i).callingTerm, (s.w.ints i).headTerm with
    | none, _ => .ok true s
    | some _, none => .err (.py "AttributeError") s
    | some t, some h =>
      match freezeNew n (s.w.ints i).b.scope h s.nv with
      | .oof => .oof
      | .err e m => .err e { s with nv := m.nv }
      | .ok frozen m =>
        match unify n t frozen (s.w.ints j).b with
        | .oof => .oof
        | .err e b => .err e { s with nv := m.nv, w := s.w.modInt j fun x => { x with b := b } }
        | .ok ok b =>
          let s := { s with nv := m.nv, w := s.w.modInt j fun x => { x with b := b } }
          if ok then .ok true s else .err (.py "RuntimeError") s

/-- `Agent.step`, `runtime.py` 711-724: run instruction `pc` of intention `i`.  If the
instruction raises, the program counter stays. -/
def exec (n a i pc : Nat) (s : QSt World) : Res (QSt World) Bool :=
  let instr := s.w.code.instr pc
  match runI n a i instr.f s with
  | .oof => .oof
  | .err _ s => .err (.py "AggregatedError") s
  | .ok true s => .ok true { s with w := s.w.modInt i fun x => { x with instr := instr.success } }
  | .ok false s =>
    let s := { s with w := s.w.modInt i fun x => { x with instr := instr.failure } }
    match instr.failure with
    | some _ => .ok true s
    | none => .err (.py "AggregatedError") s

/-- `Agent.step`, `runtime.py` 670-724. -/
def step (n a : Nat) (s : QSt World) : Res (QSt World) Bool :=
  let sts := (s.w.ags a).intentions.dropWhile (·.isEmpty)
  match pick 0 sts (s.w.setStacks a sts) with
  | (none, w) => .ok false { s with w := w }
  | (some (k, i), w) =>
    match (w.ints i).instr with
    | none => finish n a k i { s with w := w }
    | some pc => exec n a i pc { s with w := w }

/-- `Agent.run`, `runtime.py` 726-728. -/
def run (n a : Nat) : Nat → QSt World → Res (QSt World) Unit
  | 0, _ => .oof
  | k + 1, s => (step n a s).bind fun more s => if more then run n a k s else .ok () s

end

end Verif
