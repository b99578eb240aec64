import Verif.Model.Unify

/-!
# Queries (`agentspeak/runtime.py` 169-298)

Every query class has a generator method `execute`.  A suspended generator is a value of
type `Gen`; `gnext` is `next(generator)`: run it to its next `yield` (`some`) or to its
end (`none`).

The semantics of actions and the rest of the world (belief bases, other agents, …) is a
parameter, the class `QWorld`; the query classes only use what the class provides.
-/

namespace Verif

/-- The query classes `TrueQuery` 169, `FalseQuery` 174, `ActionQuery` 180, `TermQuery`
193, `AndQuery` 228, `OrQuery` 241, `NotQuery` 257, `UnifyQuery` 277.  `A` are the
action implementations. -/
inductive Query (A : Type) where
  | tru
  | fls
  | act (a : A) (t : Term)
  | term (t : Term)
  | and (l r : Query A)
  | or (l r : Query A)
  | not (q : Query A)
  | unify (l r : Term)
deriving Repr

/-- `Rule`, `runtime.py` 292-298. -/
structure Rule (A : Type) where
  head : Term
  query : Query A
deriving Repr

mutual
/-- A term with all variables renumbered. -/
def Term.rename (ρ : VarId → VarId) : Term → Term
  | .var x => .var (ρ x)
  | .lit f args annots => .lit f (Term.renameL ρ args) (Term.renameL ρ annots)
  | .tup xs => .tup (Term.renameL ρ xs)
  | .cons h t => .cons (Term.rename ρ h) (Term.rename ρ t)
  | .un op t => .un op (Term.rename ρ t)
  | .bin op l r => .bin op (Term.rename ρ l) (Term.rename ρ r)
  | .bool b => .bool b
  | .num q => .num q
  | .str s => .str s
  | .wild => .wild
def Term.renameL (ρ : VarId → VarId) : List Term → List Term
  | [] => []
  | t :: ts => Term.rename ρ t :: Term.renameL ρ ts
end

mutual
/-- All variables of a term are below this number. -/
def Term.bound : Term → Nat
  | .var x => x + 1
  | .lit _ args annots => max (Term.boundL args) (Term.boundL annots)
  | .tup xs => Term.boundL xs
  | .cons h t => max (Term.bound h) (Term.bound t)
  | .un _ t => Term.bound t
  | .bin _ l r => max (Term.bound l) (Term.bound r)
  | _ => 0
def Term.boundL : List Term → Nat
  | [] => 0
  | t :: ts => max (Term.bound t) (Term.boundL ts)
end

/-- A query with all variables renumbered. -/
def Query.rename {A : Type} (ρ : VarId → VarId) : Query A → Query A
  | .tru => .tru
  | .fls => .fls
  | .act a t => .act a (t.rename ρ)
  | .term t => .term (t.rename ρ)
  | .and l r => .and (l.rename ρ) (r.rename ρ)
  | .or l r => .or (l.rename ρ) (r.rename ρ)
  | .not q => .not (q.rename ρ)
  | .unify l r => .unify (l.rename ρ) (r.rename ρ)

/-- All variables of a query are below this number. -/
def Query.bound {A : Type} : Query A → Nat
  | .tru | .fls => 0
  | .act _ t => t.bound
  | .term t => t.bound
  | .and l r => max l.bound r.bound
  | .or l r => max l.bound r.bound
  | .not q => q.bound
  | .unify l r => max l.bound r.bound

/-- All variables of a rule are below this number. -/
def Rule.bound {A : Type} (r : Rule A) : Nat := max r.head.bound r.query.bound

/-- `copy.deepcopy(rule)`, `runtime.py` 216: every `Var` object of the rule is replaced
by a new one, the same one for all its occurrences.  `Var` objects numbered ≥ `nv` are
unused. -/
def Rule.deepcopy {A : Type} (r : Rule A) (nv : VarId) : Rule A :=
  ⟨r.head.rename (nv + ·), r.query.rename (nv + ·)⟩

/-- The state queries work on: scope and stack of the intention, the supply of `Var`
objects, everything else. -/
structure QSt (W : Type) where
  b : BSt
  nv : VarId
  w : W

/-- Run something that only works on scope and stack. -/
def QSt.onB {W α : Type} (s : QSt W) (f : BSt → Res BSt α) : Res (QSt W) α :=
  match f s.b with
  | .ok a b => .ok a { s with b := b }
  | .err e b => .err e { s with b := b }
  | .oof => .oof

/-- `try: x = next(…) except StopIteration:`: continue with `f` after a `yield`, with `g`
after the end of the generator. -/
def Res.onNext {σ α β : Type} (x : Res σ (Option α)) (f : α → σ → Res σ β) (g : σ → Res σ β) :
    Res σ β :=
  match x with
  | .ok (some a) s => f a s
  | .ok none s => g s
  | .err e s => .err e s
  | .oof => .oof

/-- Suspended generators.

* `start q`: `q.execute(agent, intention)`, not started.
* `done`: after the last `yield` of `TrueQuery`, `NotQuery` and of the boolean case of
  `TermQuery`; also an exhausted generator.
* `act`: `ActionQuery`; `ua`: `UnifyQuery`, suspended in `unify_annotated`.
* `belHead`, `bel`: `TermQuery`, about to fetch the next belief / suspended in
  `unify_annotated`; `rest` are the beliefs not visited yet, `size` is the size of the
  set when the loop started.
* `ruleHead`, `rule`: `TermQuery`, about to fetch the next rule / suspended in the query
  of a rule.
* `andHead`, `and`: `AndQuery`, about to resume the left query / suspended in the right.
* `or`: `OrQuery`, suspended in the left query.  (In the right query, the generator
  behaves like the one of the right query.) -/
inductive Gen (A G : Type) where
  | start (q : Query A)
  | done
  | act (g : G)
  | ua (c : Nat)
  | belHead (grp : String × Nat) (t : Term) (rest : List Term) (size : Nat)
  | bel (c : Nat) (grp : String × Nat) (t : Term) (rest : List Term) (size : Nat)
  | ruleHead (c : Nat) (t : Term) (rest : List (Rule A))
  | rule (c : Nat) (t : Term) (rest : List (Rule A)) (inner : Gen A G)
  | andHead (l : Gen A G) (rq : Query A)
  | and (l : Gen A G) (rq : Query A) (r : Gen A G)
  | or (l : Gen A G) (rq : Query A)

/-- What queries need from the world: `agent.beliefs[group]` (the elements in iteration
order), `agent.rules[group]`, and the generators of the actions.  `actNext` gets `next`
for nested queries (`.findall`, `.count`, plan contexts evaluated by `.send`, …). -/
class QWorld (W : Type) (A G : outParam Type) where
  beliefs : W → String × Nat → List Term
  rules : W → String × Nat → List (Rule A)
  actGen : A → Term → G
  actNext : Nat → (Gen A G → QSt W → Res (QSt W) (Option (Gen A G))) →
    G → QSt W → Res (QSt W) (Option G)

section
variable {W A G : Type} [Arith] [QWorld W A G]

/-- `next(generator)`, one step: `rec` is the continuation of the same generator, or
`next` of an inner generator.  `runtime.py` 169-289.

The loop over a set raises `RuntimeError` if the size of the set has changed since the
loop started (Python checks this before every element).  If the set was changed without
changing its size, Python's behaviour is unspecified; here the old elements are
visited. -/
def gstep (n : Nat) (rec : Gen A G → QSt W → Res (QSt W) (Option (Gen A G)))
    (g : Gen A G) (s : QSt W) : Res (QSt W) (Option (Gen A G)) :=
  match g with
  | .done => .ok none s
  | .start .tru => .ok (some .done) s
  | .start .fls => .ok none s
  | .start (.act a t) => rec (.act (QWorld.actGen W a t)) s
  | .act g => (QWorld.actNext n rec g s).onNext (fun g s => .ok (some (.act g)) s) (.ok none)
  | .start (.term t) =>
    (Res.lift (evaluate n s.b.scope t) s).bind fun t s =>
      match t with
      | .bool true => .ok (some .done) s
      | .bool false => .ok none s
      | .lit f as xs =>
        let bs := QWorld.beliefs s.w (f, as.length)
        rec (.belHead (f, as.length) (.lit f as xs) bs bs.length) s
      | _ => .err (.asl "expected boolean or literal in query context") s
  | .belHead grp t rest size =>
    if (QWorld.beliefs s.w grp).length ≠ size then .err (.py "RuntimeError") s
    else match rest with
      | [] =>
        rec (.ruleHead s.b.ncp t (QWorld.rules s.w grp)) { s with b := s.b.newCp.2 }
      | belief :: rest =>
        (s.onB (uaStart n t belief)).onNext
          (fun c s => .ok (some (.bel c grp t rest size)) s)
          (fun s => rec (.belHead grp t rest size) s)
  | .bel c grp t rest size => rec (.belHead grp t rest size) { s with b := uaResume c s.b }
  | .ruleHead _ _ [] => .ok none s
  | .ruleHead c t (rule :: rest) =>
    let rule' := rule.deepcopy s.nv
    (QSt.onB { s with b := s.b.pushCp c, nv := s.nv + rule.bound } (unify n t rule'.head)).bind
      fun ok s =>
        if ok then rec (.rule c t rest (.start rule'.query)) s
        else rec (.ruleHead c t rest) { s with b := reroll s.b c }
  | .rule c t rest inner =>
    (rec inner s).onNext
      (fun inner s => .ok (some (.rule c t rest inner)) s)
      (fun s => rec (.ruleHead c t rest) { s with b := reroll s.b c })
  | .start (.and l r) => rec (.andHead (.start l) r) s
  | .andHead l rq =>
    (rec l s).onNext (fun l s => rec (.and l rq (.start rq)) s) (.ok none)
  | .and l rq r =>
    (rec r s).onNext (fun r s => .ok (some (.and l rq r)) s) (fun s => rec (.andHead l rq) s)
  | .start (.or l r) => rec (.or (.start l) r) s
  | .or l rq =>
    (rec l s).onNext (fun l s => .ok (some (.or l rq)) s) (fun s => rec (.start rq) s)
  | .start (.not q) =>
    (rec (.start q) { s with b := s.b.mark }).onNext
      (fun _ s' => .ok none { s' with b := reroll s'.b s.b.ncp })
      (fun s' => .ok (some .done) { s' with b := reroll s'.b s.b.ncp })
  | .start (.unify l r) =>
    (s.onB (uaStart n l r)).onNext (fun c s => .ok (some (.ua c)) s) (.ok none)
  | .ua c => .ok none { s with b := uaResume c s.b }

/-- `next(generator)`. -/
def gnext : Nat → Gen A G → QSt W → Res (QSt W) (Option (Gen A G))
  | 0, _, _ => .oof
  | n + 1, g, s => gstep n (gnext n) g s

end

end Verif
