import Verif.Model.Agent

/-!
# Actions (`stdlib.py`) and the world of queries
-/

namespace Verif

/-- `term.args[k]` of an action term. -/
def argAt (t : Term) (k : Nat) : Ev Term :=
  match t with
  | .lit _ as _ => match as[k]? with
    | some x => .ok x
    | none => .err (.py "IndexError")
  | _ => .err (.py "AttributeError")

/-- `term.args` of an action term. -/
def argList (t : Term) : List Term :=
  match t with
  | .lit _ as _ => as
  | _ => []

/-- `l[-1]` -/
def lastOf (l : List Term) : Ev Term :=
  match l.getLast? with
  | some x => .ok x
  | none => .err (.py "IndexError")

/-- `next` of an iterator over a term: tuples, strings (characters) and linked lists
(`LinkedList.__iter__`, `agentspeak/__init__.py` 827-830: the head, then the items of the
tail as it is).  The iterator is represented by a term. -/
def iterNext : Term → Ev (Option (Term × Term))
  | .tup [] => .ok none
  | .tup (x :: xs) => .ok (some (x, .tup xs))
  | .cons h t => .ok (some (h, t))
  | .str s => match s.toList with
    | [] => .ok none
    | c :: cs => .ok (some (.str (String.ofList [c]), .str (String.ofList cs)))
  | _ => .err (.py "TypeError")

/-- `int(x)`, for numbers and truth values.  (For strings, Python parses the string; here
they raise like other types.) -/
def pyInt : Term → Ev Int
  | .num q => .ok (if 0 ≤ q then q.floor else q.ceil)
  | .bool b => .ok (if b then 1 else 0)
  | _ => .err (.py "TypeError")

/-- Positions at which `needle` occurs in `hay`, which starts at position `pos`:
`haystack.find(needle)`, `haystack.find(needle, pos + 1)`, …, `stdlib.py` 234-242. -/
def positions (needle : List Char) (pos : Nat) : List Char → List Nat
  | [] => if needle.isEmpty then [pos] else []
  | c :: hay => (if needle.isPrefixOf (c :: hay) then [pos] else []) ++ positions needle (pos + 1) hay

/-- `Literal.with_annotation`, `agentspeak/__init__.py` 608-609. -/
def withAnnotation (t annot : Term) : Ev Term :=
  match t with
  | .lit f as xs => .ok (.lit f as (pySetAdd xs annot))
  | _ => .err (.py "AttributeError")

/-- `source(name)` -/
def sourceOf (name : String) : Term := .lit "source" [.atom name] []

section
variable [Host]

/-- `asl_str`, `agentspeak/__init__.py` 324-335; how tuples and numbers are printed is a
parameter. -/
def aslStr (t : Term) : String :=
  match t with
  | .str s => s
  | .bool true => "true"
  | .bool false => "false"
  | t => Host.str t

/-- Freeze several terms with one memo. -/
def QSt.freezeL (n : Nat) (ts : List Term) (s : QSt World) : Res (QSt World) (List Term) :=
  match freezeAll (Verif.freeze n s.b.scope) ts ⟨fun _ => none, s.nv⟩ with
  | .ok ts m => .ok ts { s with nv := m.nv }
  | .err e m => .err e { s with nv := m.nv }
  | .oof => .oof

/-- The output of `.print` and `.csv`, `stdlib.py` 172-175, `ext_stdlib.py` 58-61: the arguments as text, with separators. -/
def QSt.emit (s : QSt World) (toFile : Bool) (sep : String) (ts : List Term) : QSt World :=
  { s with w := { s.w with out := ⟨toFile, (s.w.ags s.w.cur).name, sep.intercalate (ts.map aslStr)⟩ :: s.w.out } }

/-- The conversions of `_zip_specs`, `agentspeak/__init__.py` 968-979. -/
def convert (spec : Spec) (t : Term) : Ev Term :=
  match spec with
  | .any => .ok t
  | .int => (pyInt t).map fun (i : Int) => .num (i : Rat)
  | .float => match t with
    | .num q => .ok (.num q)
    | .bool b => .ok (.num (if b then 1 else 0))
    | _ => .err (.py "TypeError")
  | .aslStr => .ok (.str (aslStr t))
  | .tuple => (iter t).map .tup

/-- `_zip_specs`, `agentspeak/__init__.py` 953-984.  Missing arguments raise `StopIteration`
(inside a generator: `RuntimeError`). -/
def zipSpecs (n : Nat) : List Spec → List Term → (VarId → Option VarId) → QSt World → Res (QSt World) (List Term)
  | [], _, _, s => .ok [] s
  | _ :: _, [], _, s => .err (.py "RuntimeError") s
  | spec :: specs, t :: ts, memo, s =>
    match freeze n s.b.scope t ⟨memo, s.nv⟩ with
    | .ok t m =>
      (Res.lift (convert spec t) { s with nv := m.nv }).bind fun t s =>
        (zipSpecs n specs ts m.memo s).bind fun ts s => .ok (t :: ts) s
    | .err e m => .err e { s with nv := m.nv }
    | .oof => .oof

/-- `if unify(…): yield`, and nothing afterwards. -/
def unifyThenYield (n : Nat) (l r : Term) (s : QSt World) : Res (QSt World) (Option ActGen) :=
  (s.onB (unify n l r)).bind fun ok s => .ok (if ok then some .fin else none) s

/-- The loop of `.member`, `.range` and `.substring`, `stdlib.py` 234-256, 403-410: try
the items one by one. -/
def itemsGo (n : Nat) (c : Nat) (x : Term) : Nat → Term → QSt World → Res (QSt World) (Option ActGen)
  | 0, _, _ => .oof
  | k + 1, it, s =>
    (Res.lift (iterNext it) s).bind fun o s =>
      match o with
      | none => .ok none s
      | some (y, it) =>
        (QSt.onB { s with b := s.b.pushCp c } (unify n x y)).bind fun ok s =>
          if ok then .ok (some (.items c x it)) s
          else itemsGo n c x k it { s with b := reroll s.b c }

/-- Start the loop over the items. -/
def itemsStart (n : Nat) (x it : Term) (s : QSt World) : Res (QSt World) (Option ActGen) :=
  itemsGo n s.b.ncp x n it { s with b := s.b.newCp.2 }

/-- The loop of `.findall`, `stdlib.py` 281-283; all solutions share one memo. -/
def findallGo (n : Nat) (rec : Rec) (pattern : Term) :
    Nat → Gen Act ActGen → (VarId → Option VarId) → QSt World → Res (QSt World) (List Term)
  | 0, _, _, _ => .oof
  | k + 1, g, memo, s =>
    (rec g s).onNext
      (fun g s => match freeze n s.b.scope pattern ⟨memo, s.nv⟩ with
        | .ok t m => (findallGo n rec pattern k g m.memo { s with nv := m.nv }).bind fun ts s => .ok (t :: ts) s
        | .err e m => .err e { s with nv := m.nv }
        | .oof => .oof)
      (fun s => .ok [] s)

/-- The loop of `.count`, `stdlib.py` 297-298. -/
def countGo (rec : Rec) : Nat → Gen Act ActGen → QSt World → Res (QSt World) Nat
  | 0, _, _ => .oof
  | k + 1, g, s =>
    (rec g s).onNext (fun g s => (countGo rec k g s).bind fun c s => .ok (c + 1) s) (fun s => .ok 0 s)

/-- `total += v` of `.sum`, `ext_stdlib.py` 42, for a number `total`.  There is no `__radd__` in the
library; truth values are numbers for Python. -/
def pyAdd (total : Rat) (v : Term) : Ev Rat :=
  let q : Option Rat := match v with
    | .num q => some q
    | .bool b => some (if b then 1 else 0)
    | _ => none
  match q with
  | none => .err (.py "TypeError")
  | some q =>
    match Arith.bin .add total q with
    | some r => .ok r
    | none => .err (.py "ArithmeticError")

/-- The loop of `.sum`, `ext_stdlib.py` 41-42. -/
def sumGo (n : Nat) (rec : Rec) (pattern : Term) : Nat → Gen Act ActGen → Rat → QSt World → Res (QSt World) Rat
  | 0, _, _, _ => .oof
  | k + 1, g, total, s =>
    (rec g s).onNext
      (fun g s => (Res.lift ((grounded n s.b.scope pattern).bind (pyAdd total)) s).bind fun total s => sumGo n rec pattern k g total s)
      (fun s => .ok total s)

/-- `.date` and `.time`, `stdlib.py` 319-347: unify the arguments with the parts.  If one of them does not
match, the bindings of the others stay. -/
def stamp (n : Nat) (v : Rat × Rat × Rat) (t : Term) (s : QSt World) : Res (QSt World) (Option ActGen) :=
  (Res.lift (argAt t 0) s).bind fun x s =>
  (s.onB (unify n x (.num v.1))).bind fun ok s =>
    if ok then
      (Res.lift (argAt t 1) s).bind fun y s =>
      (s.onB (unify n y (.num v.2.1))).bind fun ok s =>
        if ok then (Res.lift (argAt t 2) s).bind fun z s => unifyThenYield n z (.num v.2.2) s
        else .ok none s
    else .ok none s

/-- The loop of `.abolish`, `stdlib.py` 312-314: the beliefs that are kept.  Note the
order of the arguments of `unifies_annotated`. -/
def abolishGo (n : Nat) (pattern : Term) : List Term → Ev (List Term)
  | [] => .ok []
  | x :: xs =>
    match unifiesAnnotated n x pattern BSt.init with
    | .ok ok _ => (abolishGo n pattern xs).map fun ys => if ok then ys else x :: ys
    | .err e _ => .err e
    | .oof => .oof

/-- The illocutionary forces of `.send`, `stdlib.py` 112-134; `.broadcast` (65-76) knows
the first three only. -/
def force (broadcast : Bool) (f : String) : Option (Trigger × GoalType) :=
  if f = "tell" then some (.addition, .belief)
  else if f = "untell" then some (.removal, .belief)
  else if f = "achieve" then some (.addition, .achievement)
  else if broadcast then none
  else if f = "unachieve" then some (.removal, .achievement)
  else if f = "tellHow" then some (.addition, .tellHow)
  else if f = "untellHow" then some (.removal, .tellHow)
  else if f = "askHow" then some (.addition, .askHow)
  else none

/-- `receiver.call(trigger, goal_type, tagged_message, Intention())` for all receivers,
`stdlib.py` 86-90, 146-148. -/
def deliver (n : Nat) (rec : Rec) (tr : Trigger) (gt : GoalType) (message : Term) : List Nat → QSt World → Res (QSt World) Unit
  | [], s => .ok () s
  | a :: rest, s =>
    (callNew n rec a tr gt message false s).bind fun _ s => deliver n rec tr gt message rest s

/-- `env.agents[receiver.functor]` / `env.agents[receiver]` for all receivers, `stdlib.py`
100-106. -/
def findReceivers (reg : List (String × Nat)) : List Term → Ev (List Nat)
  | [] => .ok []
  | t :: ts =>
    let name : Option String := match t with
      | .lit f [] [] => some f
      | .str s => some s
      | _ => none
    match name.bind (fun f => reg.lookup f) with
    | some a => (findReceivers reg ts).map (a :: ·)
    | none => .err (.py "KeyError")

/-- `.broadcast`, `stdlib.py` 61-92. -/
def broadcast (n : Nat) (rec : Rec) (t : Term) (s : QSt World) : Res (QSt World) (Option ActGen) :=
  (Res.lift ((argAt t 0).bind (grounded n s.b.scope)) s).bind fun ilf s =>
    match ilf with
    | .lit f [] [] =>
      match force true f with
      | none => .err (.asl "unknown illocutionary force") s
      | some (tr, gt) =>
        (Res.lift (argAt t 1) s).bind fun m s =>
        (s.freeze n m).bind fun m s =>
        (Res.lift (withAnnotation m (sourceOf (s.w.ags s.w.cur).name)) s).bind fun m s =>
        (deliver n rec tr gt m ((s.w.reg.map (·.2)).filter (· ≠ s.w.cur)) s).bind fun _ s => .ok (some .fin) s
    | _ => .ok none s

/-- `if not agentspeak.is_list(receivers): receivers = [receivers]`, then iterating,
`stdlib.py` 98-101. -/
def receiverTerms : Term → Ev (List Term)
  | .tup xs => .ok xs
  | .cons h t => iter (.cons h t)
  | r => .ok [r]

/-- `.send`, `stdlib.py` 95-150. -/
def send (n : Nat) (rec : Rec) (t : Term) (s : QSt World) : Res (QSt World) (Option ActGen) :=
  (Res.lift ((argAt t 0).bind (grounded n s.b.scope)) s).bind fun r s =>
  (Res.lift (receiverTerms r) s).bind fun rs s =>
  (Res.lift (findReceivers s.w.reg rs) s).bind fun receivers s =>
  (Res.lift ((argAt t 1).bind (grounded n s.b.scope)) s).bind fun ilf s =>
    match ilf with
    | .lit f [] [] =>
      match force false f with
      | none => .err (.asl "unknown illocutionary force") s
      | some (tr, gt) =>
        (Res.lift (argAt t 2) s).bind fun m s =>
        (if gt = .tellHow ∨ gt = .askHow then .ok (.lit "plain_text" [m] []) s else s.freeze n m).bind fun m s =>
        (Res.lift (withAnnotation m (sourceOf (s.w.ags s.w.cur).name)) s).bind fun m s =>
        (deliver n rec tr gt m receivers s).bind fun _ s => .ok (some .fin) s
    | _ => .ok none s

/-- `.wait`, `stdlib.py` 344-393.  `millis / 1000` is exact here. -/
def waitAct (n : Nat) (t : Term) (s : QSt World) : Res (QSt World) (Option ActGen) :=
  (Res.lift (Ev.mapL (grounded n s.b.scope) (argList t)) s).bind fun args s =>
    let em : Ev (Option Term × Option Term) := match args with
      | [event, millis] => .ok (some event, some millis)
      | .num q :: _ => .ok (none, some (.num q))
      | event :: _ => .ok (some event, none)
      | [] => .err (.py "IndexError")
    (Res.lift em s).bind fun em s =>
    (Res.lift (match em.2 with
      | none => .ok none
      | some (.num q) => .ok (some q)
      | some _ => .err (.asl "expected timeout for .wait to be numeric")) s).bind fun millis s =>
    (Res.lift (match em.1 with
      | none => .ok none
      | some (.str e) => (Host.parseEvent (if e.endsWith "." then e else e ++ ".")).map some
      | some _ => .err (.asl "expected event for .wait to be a string")) s).bind fun event s =>
    match millis with
    | none => .ok (some .fin) { s with w := s.w.setWaiter s.w.curInt (some ⟨event, none⟩) }
    | some q =>
      let (now, w) := s.w.time
      .ok (some .fin) { s with w := w.setWaiter w.curInt (some ⟨event, some (now + q / 1000)⟩) }

/-- `.concat`, `stdlib.py` 194-206.  How non-strings are printed is a parameter. -/
def concat (n : Nat) (t : Term) (s : QSt World) : Res (QSt World) (Option ActGen) :=
  (Res.lift (Ev.mapL (grounded n s.b.scope) (argList t).dropLast) s).bind fun args s =>
    let result : Term :=
      if args.all (fun | .tup _ => true | _ => false) then
        .tup (args.flatMap fun | .tup xs => xs | _ => [])
      else .str (String.join (args.map fun | .str x => x | t => Host.pyStr t))
    (Res.lift (lastOf (argList t)) s).bind fun x s => unifyThenYield n x result s

/-- `next` of a generator of an action, `stdlib.py` and `agentspeak/__init__.py`
1024-1084. -/
def actNext (n : Nat) (rec : Rec) (g : ActGen) (s : QSt World) : Res (QSt World) (Option ActGen) :=
  match g with
  | .fin => .ok none s
  | .items c x it => itemsGo n c x n it { s with b := reroll s.b c }
  | .start .broadcast t => broadcast n rec t s
  | .start .send t => send n rec t s
  | .start .print t => (s.freezeL n (argList t)).bind fun ts s => .ok (some .fin) (s.emit false " " ts)
  | .start .csv t => (s.freezeL n (argList t)).bind fun ts s => .ok (some .fin) (s.emit true "," ts)
  | .start .fail _ => .ok none s
  | .start .myName t =>
    (Res.lift (argAt t 0) s).bind fun x s => unifyThenYield n x (.atom (s.w.ags s.w.cur).name) s
  | .start .concat t => concat n t s
  | .start .substring t =>
    (Res.lift ((argAt t 0).bind (grounded n s.b.scope)) s).bind fun needle s =>
    (Res.lift ((argAt t 1).bind (grounded n s.b.scope)) s).bind fun hay s =>
    (Res.lift (argAt t 2) s).bind fun x s =>
      itemsStart n x (.tup ((positions (aslStr needle).toList 0 (aslStr hay).toList).map fun (p : Nat) => .num (p : Rat))) s
  | .start .member t =>
    (Res.lift ((argAt t 1).bind (evaluate n s.b.scope)) s).bind fun l s =>
    (Res.lift (argAt t 0) s).bind fun x s => itemsStart n x l s
  | .start .range t =>
    (Res.lift (((argAt t 0).bind (grounded n s.b.scope)).bind pyInt) s).bind fun i s =>
    (Res.lift (argAt t 1) s).bind fun x s => itemsStart n x (.tup ((List.range i.toNat).map fun (k : Nat) => .num (k : Rat))) s
  | .start .ground t => (Res.lift (isGround n s.b.scope t) s).bind fun ok s => .ok (if ok then some .fin else none) s
  | .start .findall t =>
    (Res.lift ((argAt t 0).bind (evaluate n s.b.scope)) s).bind fun pattern s =>
    (Res.lift (argAt t 1) s).bind fun q s =>
    (findallGo n rec pattern n (.start (.term q)) (fun _ => none) s).bind fun ts s =>
    (Res.lift (argAt t 2) s).bind fun x s => unifyThenYield n (.tup ts) x s
  | .start .count t =>
    (Res.lift (argAt t 0) s).bind fun q s =>
    (countGo rec n (.start (.term q)) { s with b := s.b.mark }).bind fun k s' =>
      let s' := { s' with b := reroll s'.b s.b.ncp }
      (Res.lift (argAt t 1) s').bind fun x s' => unifyThenYield n (.num k) x s'
  | .start .sum t =>
    (Res.lift ((argAt t 0).bind (evaluate n s.b.scope)) s).bind fun pattern s =>
    (Res.lift (argAt t 1) s).bind fun q s =>
    (sumGo n rec pattern n (.start (.term q)) 0 s).bind fun total s =>
    (Res.lift (argAt t 2) s).bind fun x s => unifyThenYield n (.num total) x s
  | .start .date t => stamp n (Host.date s.w.ticks) t s
  | .start .time t => stamp n (Host.time s.w.ticks) t s
  | .start .abolish t =>
    (Res.lift (argAt t 0) s).bind fun p s =>
    (s.freeze n p).bind fun p s =>
      match p with
      | .lit f as xs =>
        (Res.lift (abolishGo n (.lit f as xs) (s.w.beliefs s.w.cur (f, as.length))) s).bind fun keep s =>
          .ok (some .fin) { s with w := s.w.setBeliefs s.w.cur (f, as.length) keep }
      | _ => .err (.py "AttributeError") s
  | .start .wait t => waitAct n t s
  | .start .unbindAll _ => .ok (some .fin) { s with b := { s.b with scope := Scope.empty } }
  | .start (.fn specs f) t =>
    (zipSpecs n specs (argList t) (fun _ => none) s).bind fun args s =>
    (Res.lift (f args) s).bind fun result s =>
    (Res.lift (lastOf (argList t)) s).bind fun x s => unifyThenYield n x result s
  | .start (.pred specs f) t =>
    (zipSpecs n specs (argList t) (fun _ => none) s).bind fun args s =>
    (Res.lift (f args) s).bind fun ok s => .ok (if ok then some .fin else none) s
  | .start (.proc specs f) t =>
    (zipSpecs n specs (argList t) (fun _ => none) s).bind fun args s =>
    (Res.lift (f args) s).bind fun _ s => .ok (some .fin) s

/-- Queries run on the world: the beliefs and rules are those of the running agent. -/
instance : QWorld World Act ActGen where
  beliefs w g := w.beliefs w.cur g
  rules w g := (w.ags w.cur).rules g
  actGen a t := .start a t
  actNext := actNext

end

end Verif
