import Verif.Model.World

/-!
# `Agent.call` and belief changes (`runtime.py` 387-659)

State: `QSt World`, where `s.b` are scope and stack of the *calling* intention.  `rec` is
`next` for query generators.
-/

namespace Verif

/-- `next(generator)`. -/
abbrev Rec := Gen Act ActGen → QSt World → Res (QSt World) (Option (Gen Act ActGen))

/-- Run something with another agent and intention: `f` works on the scope and stack
`b`, which are returned at the end. -/
def QSt.nest {α : Type} (s : QSt World) (a i : Nat) (b : BSt) (f : QSt World → Res (QSt World) α) :
    Res (QSt World) (α × BSt) :=
  match f { s with b := b, w := { s.w with cur := a, curInt := i } } with
  | .ok x s' => .ok (x, s'.b) { s' with b := s.b, w := { s'.w with cur := s.w.cur, curInt := s.w.curInt } }
  | .err e s' => .err e { s' with b := s.b, w := { s'.w with cur := s.w.cur, curInt := s.w.curInt } }
  | .oof => .oof

/-- Run something for another agent and intention, on the same scope and stack. -/
def QSt.as {α : Type} (s : QSt World) (a i : Nat) (f : QSt World → Res (QSt World) α) : Res (QSt World) α :=
  match f { s with w := { s.w with cur := a, curInt := i } } with
  | .ok x s' => .ok x { s' with w := { s'.w with cur := s.w.cur, curInt := s.w.curInt } }
  | .err e s' => .err e { s' with w := { s'.w with cur := s.w.cur, curInt := s.w.curInt } }
  | .oof => .oof

section
variable [Host]

/-- `freeze(term, calling_intention.scope, {})`. -/
def QSt.freeze {W : Type} (n : Nat) (t : Term) (s : QSt W) : Res (QSt W) Term :=
  match freezeNew n s.b.scope t s.nv with
  | .ok t m => .ok t { s with nv := m.nv }
  | .err e m => .err e { s with nv := m.nv }
  | .oof => .oof

/-- `Agent.add_belief`, `runtime.py` 619-625.  Terms without a method `grounded`, and
ground terms without a functor, raise `AttributeError`. -/
def addBelief (n a : Nat) (t : Term) (s : QSt World) : Res (QSt World) Unit :=
  match t with
  | .bool _ | .num _ | .str _ | .tup _ => .err (.py "AttributeError") s
  | t => (Res.lift (grounded n s.b.scope t) s).bind fun t s =>
    match t with
    | .lit f as xs =>
      let g := (f, as.length)
      .ok () { s with w := s.w.setBeliefs a g (pySetAdd (s.w.beliefs a g) (.lit f as xs)) }
    | _ => .err (.py "AttributeError") s

/-- The loop of `Agent.remove_belief`, `runtime.py` 652-657; answers the beliefs without
the first one that unifies.  `c` is the choicepoint. -/
def findBelief (n c : Nat) (t : Term) : List Term → QSt World → Res (QSt World) (Option (List Term))
  | [], s => .ok none s
  | x :: xs, s =>
    (QSt.onB { s with b := s.b.pushCp c } (unifiesAnnotated n t x)).bind fun ok s =>
      if ok then .ok (some xs) s
      else (findBelief n c t xs { s with b := reroll s.b c }).bind fun o s => .ok (o.map (x :: ·)) s

/-- `Agent.remove_belief`, `runtime.py` 641-659. -/
def removeBelief (n a : Nat) (t : Term) (s : QSt World) : Res (QSt World) Bool :=
  (Res.lift (evaluate n s.b.scope t) s).bind fun t s =>
    match t with
    | .lit f as xs =>
      let g := (f, as.length)
      (findBelief n s.b.ncp (.lit f as xs) (s.w.beliefs a g) { s with b := s.b.newCp.2 }).bind fun o s =>
        match o with
        | some keep => .ok true { s with w := s.w.setBeliefs a g keep }
        | none => .ok false s
    | _ => .err (.asl "expected belief literal") s

/-- `Agent.test_belief`, `runtime.py` 627-639; `i` is the calling intention. -/
def testBelief (n : Nat) (rec : Rec) (a i : Nat) (t : Term) (s : QSt World) : Res (QSt World) Bool :=
  (Res.lift (evaluate n s.b.scope t) s).bind fun t s =>
    match t with
    | .lit f as xs =>
      s.as a i fun s => (rec (.start (.term (.lit f as xs))) s).onNext (fun _ s => .ok true s) (.ok false)
    | _ => .err (.asl "expected belief literal") s

/-- Wake up waiting intentions, `runtime.py` 403-418. -/
def wake (n : Nat) (tr : Trigger) (gt : GoalType) (frozen : Term) : List (List Nat) → QSt World → Res (QSt World) Unit
  | [], s => .ok () s
  | [] :: rest, s => wake n tr gt frozen rest s
  | (i :: _) :: rest, s =>
    match (s.w.ints i).waiter with
    | some ⟨some ev, _⟩ =>
      if ev.trigger ≠ tr ∨ ev.goalType ≠ gt then wake n tr gt frozen rest s
      else match unifiesAnnotated n ev.head frozen BSt.init with
        | .ok true _ => wake n tr gt frozen rest { s with w := s.w.setWaiter i none }
        | .ok false _ => wake n tr gt frozen rest s
        | .err e _ => .err e s
        | .oof => .oof
    | _ => wake n tr gt frozen rest s

/-- `Agent._unachieve`, `runtime.py` 487-503: the stacks that remain.  (Intentions are
compared by identity, so `intention_stack.remove(intention)` removes the top.) -/
def unachieveGo (n : Nat) (w : World) (f : String) (args : List Term) : List (List Nat) → Ev (List (List Nat))
  | [] => .ok []
  | [] :: rest => (unachieveGo n w f args rest).map ([] :: ·)
  | (i :: st) :: rest =>
    match (w.ints i).headTerm with
    | some (.lit g args' _) =>
      if g = f then
        (unifies n (.tup args) (.tup args')).bind fun ok =>
          (unachieveGo n w f args rest).map ((if ok then st else i :: st) :: ·)
      else (unachieveGo n w f args rest).map ((i :: st) :: ·)
    | _ => .err (.py "AttributeError")

/-- `Agent._unachieve`, `runtime.py` 487-503.  (If `unifies` raises, Python has already
changed the stacks before; here they are unchanged.) -/
def unachieve (n a : Nat) (t : Term) (s : QSt World) : Res (QSt World) Unit :=
  match t with
  | .lit f args _ =>
    (Res.lift (unachieveGo n s.w f args (s.w.ags a).intentions) s).bind fun sts s =>
      .ok () { s with w := s.w.setAg a { s.w.ags a with intentions := sts } }
  | _ => .err (.asl "expected literal term") s

/-- `Agent._tell_how`, `runtime.py` 505-549; parsing is a parameter. -/
def tellHow (a : Nat) (t : Term) (s : QSt World) : Res (QSt World) Unit :=
  match t with
  | .lit _ (.str text :: _) _ => (Res.lift (Host.parsePlan text) s).bind fun src s => .ok () (buildPlan a src s)
  | .lit _ [] _ => .err (.py "IndexError") s
  | .lit _ _ _ => .err (.py "TypeError") s
  | _ => .err (.py "AttributeError") s

/-- `Agent._untell_how`, `runtime.py` 611-613: is the plan not to be deleted? -/
def keepsPlan (label : Term) (p : Plan) : Bool :=
  match p.label, label with
  | some l, .str x => "@" ++ l ≠ x
  | _, _ => true

/-- `Agent._untell_how`, `runtime.py` 600-617. -/
def untellHow (a : Nat) (t : Term) (s : QSt World) : Res (QSt World) Unit :=
  match t with
  | .lit _ (label :: _) _ =>
    .ok () { s with w := (s.w.ags a).plans.foldl (fun w kr => w.setPlist kr.2 ((w.plists kr.2).filter (keepsPlan label))) s.w }
  | .lit _ [] _ => .err (.py "IndexError") s
  | _ => .err (.py "AttributeError") s

/-- The part of `Agent.call` common to all events: freeze the term, wake up waiting
intentions, `runtime.py` 397-418.  Answers the frozen literal.  (`events` is the history
variable.) -/
def callFrozen (n a : Nat) (tr : Trigger) (gt : GoalType) (t : Term) (s : QSt World) : Res (QSt World) Term :=
  (s.freeze n t).bind fun frozen s =>
    if frozen.isLiteral then
      let s := { s with w := { s.w with events := (a, ⟨tr, gt, frozen⟩) :: s.w.events } }
      (wake n tr gt frozen (s.w.ags a).intentions s).bind fun _ s => .ok frozen s
    else .err (.asl "expected literal") s

/-- The first loop of `Agent._ask_how`, `runtime.py` 563-566: the name in the last
`source` annotation. -/
def askSender : List Term → Option String → Ev (Option String)
  | [], acc => .ok acc
  | .lit f args _ :: rest, acc =>
    if f = "source" then
      match args with
      | .lit g _ _ :: _ => askSender rest (some g)
      | [] => .err (.py "IndexError")
      | _ => .err (.py "AttributeError")
    else askSender rest acc
  | _ :: _, _ => .err (.py "AttributeError")

/-- `xs in text` for strings. -/
def contains (needle hay : List Char) : Bool :=
  match hay with
  | [] => needle.isEmpty
  | c :: hay => needle.isPrefixOf (c :: hay) || contains needle hay

/-- `Agent._ask_how`, `runtime.py` 571-577: the plans whose functor occurs in the text, by
key. -/
def plansWanted (w : World) (a : Nat) (text : String) : List (List Plan) :=
  ((w.ags a).plans.map fun kr => (w.plists kr.2).filter fun p =>
    match p.head with
    | .lit f _ _ => contains f.toList text.toList
    | _ => false).filter (!·.isEmpty)

/-- `Agent._ask_how`, `runtime.py` 590-595: `strplan`/`message` is overwritten in the
inner loop, so only the last plan of each key is sent. -/
def askSend (n : Nat) (recv : Nat) : List (List Plan) → QSt World → Res (QSt World) Unit
  | [], s => .ok () s
  | ps :: rest, s =>
    match ps.getLast? with
    | none => askSend n recv rest s
    | some p =>
      let message := Term.lit "plain_text" [.str p.text] []
      (callFrozen n recv .addition .tellHow message { s with b := BSt.init }).bind fun _ s' =>
        (tellHow recv message { s' with b := s.b }).bind fun _ s => askSend n recv rest s

/-- `Agent._ask_how`, `runtime.py` 554-598.  The last line, `raise log.warning(… {term.args[2]})`,
raises `IndexError`: the message has one argument only.  Texts other than strings raise
`TypeError`. -/
def askHow (n a : Nat) (t : Term) (s : QSt World) : Res (QSt World) Unit :=
  match t with
  | .lit _ args annots =>
    (Res.lift (askSender annots none) s).bind fun o s =>
      match o, args with
      | none, _ => .err (.asl "expected source annotation") s
      | some sender, .str text :: _ =>
        match plansWanted s.w a text with
        | [] => .err (.py "IndexError") s
        | wanted =>
          match s.w.reg.lookup sender with
          | none => .err (.py "KeyError") s
          | some recv => askSend n recv wanted s
      | some _, _ => .err (.py "TypeError") s
  | _ => .err (.py "AttributeError") s

/-- `Agent.call`, the search for an applicable plan, `runtime.py` 454-463; answers the
first plan with its body started, `s.b` are scope and stack of the new intention. -/
def findPlan (n : Nat) (rec : Rec) (frozen : Term) : List Plan → QSt World → Res (QSt World) (Option Plan)
  | [], s => .ok none s
  | p :: ps, s =>
    (s.onB (uaStart n p.head frozen)).onNext
      (fun c s => (rec (.start p.context) s).onNext
        (fun _ s => .ok (some p) s)
        (fun s => findPlan n rec frozen ps { s with b := uaResume c s.b }))
      (fun s => findPlan n rec frozen ps s)

/-- `Agent.call`, `runtime.py` 468-472: put the new intention `i` on top of the stack
whose top is the calling intention; `none` if there is none.  An empty stack before that
raises `IndexError`. -/
def attach (i calling : Nat) : List (List Nat) → Ev (Option (List (List Nat)))
  | [] => .ok none
  | [] :: _ => .err (.py "IndexError")
  | (j :: st) :: rest =>
    if j = calling then .ok (some ((i :: j :: st) :: rest))
    else (attach i calling rest).map fun o => o.map ((j :: st) :: ·)

/-- `Agent.call`, `runtime.py` 464-477: start the body of plan `p` in the new intention
`i`, whose scope and stack are `b`. -/
def startPlan (a i calling : Nat) (delayed : Bool) (t frozen : Term) (p : Plan) (b : BSt) (s : QSt World) :
    Res (QSt World) Bool :=
  let w := s.w.setInt i { s.w.ints i with headTerm := some frozen, instr := some p.body, callingTerm := some t, b := b }
  let sts := (w.ags a).intentions
  let put (sts : List (List Nat)) : QSt World := { s with w := w.setAg a { w.ags a with intentions := sts } }
  if delayed then .ok true (put (sts ++ [[i]]))
  else match attach i calling sts with
    | .ok (some sts') => .ok true (put sts')
    | .ok none => .ok true (put (sts ++ [[i]]))
    | .err e => .err e { s with w := w }
    | .oof => .oof

/-- `Agent.call`, `runtime.py` 453-485: find a plan for the frozen event and start it. -/
def callPlans (n : Nat) (rec : Rec) (a : Nat) (tr : Trigger) (gt : GoalType) (t frozen : Term) (calling : Nat)
    (delayed : Bool) (s : QSt World) : Res (QSt World) Bool :=
  let i := s.w.nint
  let s := { s with w := { s.w.setInt i {} with nint := i + 1 } }
  (s.nest a i BSt.init (findPlan n rec frozen (s.w.plansFor a (planKey tr gt frozen)))).bind fun ob s =>
    match ob with
    | (some p, b) => startPlan a i calling delayed t frozen p b s
    | (none, _) =>
      match gt with
      | .achievement => .err (.asl "no applicable plan") s
      | .test => testBelief n rec a calling t s
      | _ => .ok true s

/-- `Agent.call`, `runtime.py` 387-396: modify beliefs.  Answers whether to go on. -/
def callBeliefs (n a : Nat) (tr : Trigger) (gt : GoalType) (t : Term) (s : QSt World) : Res (QSt World) Bool :=
  match gt, tr with
  | .belief, .addition => (addBelief n a t s).bind fun _ s => .ok true s
  | .belief, .removal => removeBelief n a t s
  | _, _ => .ok true s

/-- `Agent.call`, `runtime.py` 387-485; `calling` is the calling intention, `s.b` its scope
and stack. -/
def call (n : Nat) (rec : Rec) (a : Nat) (tr : Trigger) (gt : GoalType) (t : Term) (calling : Nat) (delayed : Bool)
    (s : QSt World) : Res (QSt World) Bool :=
  (callBeliefs n a tr gt t s).bind fun go s =>
    if !go then .ok true s
    else (callFrozen n a tr gt t s).bind fun frozen s =>
      match gt, tr with
      | .achievement, .removal => (unachieve n a t s).bind fun _ s => .ok true s
      | .tellHow, .addition => (tellHow a t s).bind fun _ s => .ok true s
      | .askHow, .addition => (askHow n a t s).bind fun _ s => .ok false s
      | .tellHow, .removal => (untellHow a t s).bind fun _ s => .ok true s
      | _, _ => callPlans n rec a tr gt t frozen calling delayed s

/-- `agent.call(trigger, goal_type, term, Intention(), delayed)` -/
def callNew (n : Nat) (rec : Rec) (a : Nat) (tr : Trigger) (gt : GoalType) (t : Term) (delayed : Bool)
    (s : QSt World) : Res (QSt World) Bool :=
  let i := s.w.nint
  let s := { s with w := { s.w.setInt i {} with nint := i + 1 } }
  (s.nest s.w.cur s.w.curInt BSt.init (call n rec a tr gt t i delayed)).bind fun ob s => .ok ob.1 s

end

end Verif
