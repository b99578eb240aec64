import Verif.Model.Step

/-!
# `Environment` (`runtime.py` 757-896)
-/

namespace Verif

/-- `d[k] = v` for a dict in insertion order. -/
def dictSet {β : Type} (k : String) (v : β) : List (String × β) → List (String × β)
  | [] => [(k, v)]
  | (k', v') :: rest => if k' = k then (k', v) :: rest else (k', v') :: dictSet k v rest

/-- The loop of `_make_name`, `runtime.py` 765-769: the first of `base<i>`, `base<i+1>`, …
that is not in use.  After as many attempts as there are agents, one must be unused, so
the loop is cut off there. -/
def makeNameGo (base : String) (used : List String) : Nat → Nat → String
  | 0, i => base ++ toString i
  | k + 1, i => if base ++ toString i ∈ used then makeNameGo base used k (i + 1) else base ++ toString i

/-- `Environment._make_name`, `runtime.py` 761-770; `base` is
`sanitize_functor(os.path.splitext(os.path.basename(path))[0])`. -/
def makeName (base : String) (used : List String) : String :=
  let base := if base = "" then "agent" else base
  if base ∈ used then makeNameGo base used used.length 1 else base

/-- A program: `AstAgent` with terms and queries built; the variables of every rule, plan,
belief and goal are numbered from 0. -/
structure AgentSrc where
  rules : List (Rule Act) := []
  plans : List PlanSrc := []
  beliefs : List Term := []
  goals : List Term := []

/-- A new agent object. -/
def newAgent (x : Agent) (w : World) : World := { w.setAg w.nag x with nag := w.nag + 1 }

/-- `Agent.add_rule`, `runtime.py` 381-382. -/
def addRule (a : Nat) (w : World) (r : Rule Act) : World :=
  match r.head with
  | .lit f as _ =>
    w.setAg a { w.ags a with
      rules := fun g => if g = (f, as.length) then (w.ags a).rules g ++ [r] else (w.ags a).rules g }
  | _ => w

/-- `self.agents[agent.name] = agent`, `runtime.py` 826, 864. -/
def register (a : Nat) (w : World) : World := { w with reg := dictSet (w.ags a).name a w.reg }

section
variable [Host]

/-- Call events on a new agent: `runtime.py` 810-820, 857-860.  The terms get new `Var`
objects. -/
def callAll (n a : Nat) (gt : GoalType) : List Term → QSt World → Res (QSt World) Unit
  | [], s => .ok () s
  | t :: ts, s =>
    (callNew n (gnext n) a .addition gt (t.rename (s.nv + ·)) true { s with nv := s.nv + t.bound }).bind
      fun _ s => callAll n a gt ts s

/-- `Environment.build_agent_from_ast`, `runtime.py` 772-827; `base` is the sanitised
name. -/
def buildAgent (n : Nat) (src : AgentSrc) (base : String) (s : QSt World) : Res (QSt World) Nat :=
  let a := s.w.nag
  let w := newAgent { name := makeName base (s.w.reg.map (·.1)) } s.w
  let s := { s with w := src.rules.foldl (addRule a) w }
  let s := src.plans.foldl (fun s p => buildPlan a p s) s
  (callAll n a .belief src.beliefs s).bind fun _ s =>
  (callAll n a .achievement src.goals s).bind fun _ s => .ok a { s with w := register a s.w }

/-- The loop of `Environment.build_agents`, `runtime.py` 849-864.  `copy.copy` of the dicts
shares the sets and lists in them. -/
def buildMore (n : Nat) (src : AgentSrc) (base : String) (proto : Nat) : Nat → QSt World → Res (QSt World) (List Nat)
  | 0, s => .ok [] s
  | k + 1, s =>
    let a := s.w.nag
    let x := s.w.ags proto
    let name := makeName base (s.w.reg.map (·.1))
    let s := { s with w := newAgent { name := name, beliefs := x.beliefs, rules := x.rules, plans := x.plans } s.w }
    (callAll n a .achievement src.goals s).bind fun _ s =>
    (buildMore n src base proto k { s with w := register a s.w }).bind fun as s => .ok (a :: as) s

/-- `Environment.build_agents`, `runtime.py` 842-866.  The prototype is named after the
source (`base₀`), the others after `name or source.name` (`base`). -/
def buildAgents (n : Nat) (src : AgentSrc) (k : Nat) (base₀ base : String) (s : QSt World) :
    Res (QSt World) (List Nat) :=
  match k with
  | 0 => .ok [] s
  | k + 1 =>
    (buildAgent n src base₀ s).bind fun a s =>
    (buildMore n src base a k s).bind fun as s => .ok (a :: as) s

omit [Host] in
/-- `Agent.waiters` and `Agent.shortest_deadline`, `runtime.py` 661-668. -/
def shortestDeadline (w : World) (a : Nat) : Option Rat :=
  ((w.ags a).intentions.filterMap fun st => match st with
    | i :: _ => (w.ints i).waiter.bind (·.deadline)
    | [] => none).min?

omit [Host] in
/-- `time.sleep(until - self.time())`, `runtime.py` 880, 895; negative durations raise
`ValueError`.  The effect of sleeping is in the next values of the clock. -/
def sleepUntil (d : Rat) (s : QSt World) : Res (QSt World) Unit :=
  let (now, w) := s.w.time
  if d - now < 0 then .err (.py "ValueError") { s with w := w } else .ok () { s with w := w }

/-- `Environment.run_agent`, `runtime.py` 871-881.  Note `if wait_until:`. -/
def runAgent (n a : Nat) : Nat → QSt World → Res (QSt World) Unit
  | 0, _ => .oof
  | k + 1, s =>
    (step n a s).bind fun more s =>
      if more then runAgent n a k s
      else match shortestDeadline s.w a with
        | none => .ok () s
        | some d => if d = 0 then .ok () s else (sleepUntil d s).bind fun _ s => runAgent n a k s

/-- One round of `Environment.run`, `runtime.py` 886-888: step every agent once. -/
def round (n : Nat) : List Nat → QSt World → Res (QSt World) Bool
  | [], s => .ok false s
  | a :: as, s => (step n a s).bind fun m s => (round n as s).bind fun m' s => .ok (m || m') s

/-- `Environment.run`, `runtime.py` 883-896.  (No instruction registers agents, so the loop
over `self.agents.values()` visits the agents registered when it starts.) -/
def runEnv (n : Nat) : Nat → QSt World → Res (QSt World) Unit
  | 0, _ => .oof
  | k + 1, s =>
    (round n (s.w.reg.map (·.2)) s).bind fun more s =>
      if more then runEnv n k s
      else match ((s.w.reg.map (·.2)).filterMap (shortestDeadline s.w)).min? with
        | none => .ok () s
        | some d => (sleepUntil d s).bind fun _ s => runEnv n k s

end

end Verif
