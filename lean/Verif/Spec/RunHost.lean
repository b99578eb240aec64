import Verif.Model.Env
import Verif.Model.Std
import Verif.Model.Text
import Verif.Spec.AsciiText
import Verif.Spec.Decimal

/-!
Everything that the model takes as a parameter, for running programs: texts of ASCII characters,
decimal numbers, exact arithmetic, the parser and the printer of the model itself, a clock that
advances by one millisecond with every reading.
-/

namespace Verif.Run

attribute [local instance] asciiText Decimal.floats

/-- Exact arithmetic; no irrational powers. -/
@[reducible] def arith : Arith where
  bin
    | .add, p, q => some (p + q)
    | .sub, p, q => some (p - q)
    | .mul, p, q => some (p * q)
    | .truediv, p, q => if q = 0 then none else some (p / q)
    | .floordiv, p, q => if q = 0 then none else some ((p / q).floor : Int)
    | .mod, p, q => if q = 0 then none else some (p - q * ((p / q).floor : Int))
    | .pow, p, q =>
      if q.den ≠ 1 then none
      else if 0 ≤ q then some (p ^ q.num.natAbs)
      else if p = 0 then none else some (1 / p ^ q.num.natAbs)
    | _, _, _ => none

attribute [local instance] arith

def hex : Nat → Nat → List Char
  | 0, _ => []
  | k + 1, n => if n < 16 then [Nat.digitChar n] else hex k (n / 16) ++ [Nat.digitChar (n % 16)]

/-- Objects have their numbers as addresses. -/
def wording : Wording where
  digest _ := "abc".toList
  addr v := hex (v + 1) v
  object := "0".toList
  float q := if q.den = 1 then Decimal.print q ++ ".0".toList else Decimal.print q
  tuple _ := "(...)".toList

mutual
/-- `asl_str`, `agentspeak/__init__.py` 324-335. -/
def str : Term → String
  | .tup ts => "[" ++ ", ".intercalate (strs ts) ++ "]"
  | .num q => String.ofList (Decimal.print q)
  | .bool b => if b then "true" else "false"
  | t => String.ofList (t.pyStr wording)
def strs : List Term → List String
  | [] => []
  | t :: ts => str t :: strs ts
end

/-- Not random. -/
def random : List Term → Ev Term := fun _ => .ok (.num (1 / 2))
def randint : List Term → Ev Term := fun ts => .ok (ts.headD (.num 0))

/-- The actions of `stdlib.py` (0) or `ext_stdlib.py` (1). -/
def acts (i : Nat) : Lookup := stdLookup random randint i

/-- The tokens of a text. -/
def toks (s : String) : Ev (List Tok) :=
  match tokenize 1 (fileLines s.toList) with
  | some evs => .ok (toksOf (evs.map Prod.snd))
  | none => .err (.asl "unterminated comment")

/-- More than enough fuel for parsing. -/
def fuel (ts : List Tok) : Nat := 20 * ts.length + 100

/-- The text of a plan, for `askHow`. -/
def planText (i : Nat) (p : APlan) : String :=
  match makePlan (acts i) (fun _ => "") p 0 with
  | .ok q _ =>
    match planToStr wording p q ((planArgs p.event.head).map Ast.print) with
    | .ok (t, _) => String.ofList t
    | _ => ""
  | _ => ""

@[reducible] def host : Host := { arith with
  parsePlan := fun s => (toks s).bind fun ts => toldPlan (acts 0) (planText 0) (fuel ts) ts
  parseEvent := fun s => (toks s).bind fun ts => waitEvent (fuel ts) ts
  str := str
  pyStr := fun t => String.ofList (t.pyStr wording) }

attribute [local instance] host

def start : QSt World := { w := World.init fun n => (n : Rat) / 1000, b := BSt.init, nv := 0 }

/-- Build one agent more, from text. -/
def addAgent (i n : Nat) (files : List Char → Option (List Tok)) (base text : String) (s : QSt World) : Res (QSt World) Unit :=
  match toks text with
  | .ok ts =>
    match makeSource (acts i) (planText i) files (fuel ts) base.toList ts with
    | .ok src _ => (buildAgent n src base s).bind fun _ s => .ok () s
    | .err e _ => .err e s
    | .oof => .oof
  | .err e => .err e s
  | .oof => .oof

/-- `Environment.run`, where sleeping takes time: after sleeping, the clock shows the deadline. -/
def runSleep (n : Nat) : Nat → QSt World → Res (QSt World) Unit
  | 0, _ => .oof
  | k + 1, s =>
    (round n (s.w.reg.map (·.2)) s).bind fun more s =>
      if more then runSleep n k s
      else match ((s.w.reg.map (·.2)).filterMap (shortestDeadline s.w)).min? with
        | none => .ok () s
        | some d =>
          let t := s.w.ticks
          runSleep n k { s with w := { s.w with clock := fun m => d + ((m - t : Nat) + 1 : Rat) / 1000 } }

/-- The output, in order, and the error. -/
def report : Res (QSt World) Unit → List (String × String) × Option Err
  | .ok _ s => (s.w.out.reverse.map fun o => (o.name, o.text), none)
  | .err e s => (s.w.out.reverse.map fun o => (o.name, o.text), some e)
  | .oof => ([], some (.asl "out of fuel"))

/-- The files that can be included. -/
def files (f : List Char) : Option (List Tok) := if f = "/dev/null".toList then some [] else none

def addAll (i n : Nat) : List (String × String) → QSt World → Res (QSt World) Unit
  | [], s => .ok () s
  | src :: srcs, s => (addAgent i n files src.1 src.2 s).bind fun _ s => addAll i n srcs s

/-- Run agents with the actions of `stdlib.py` (0) or `ext_stdlib.py` (1): the output and the
error. -/
def programs (i n k : Nat) (srcs : List (String × String)) : List (String × String) × Option Err :=
  report ((addAll i n srcs start).bind fun _ s => runSleep n k s)

end Verif.Run
