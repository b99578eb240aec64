import Verif.Lemmas.Build
import Verif.Props.Script

/-!
# C58, C59, C60: from syntax trees to programs

`Spec/Build.lean` says what the clauses of a program stand for: one naming of the variables
for every clause, actions and beliefs told apart by the registry, and so on.
-/

namespace Verif

/-! ## C58: variables -/

/-- Every clause of the tree of an agent is built with one naming of its variables: the same
name is the same variable everywhere in the clause, different names are different variables,
and `_` is the wildcard.  The patterns of `-+` have variables of their own. -/
theorem C58_agent {acts : Lookup} {text : APlan → String} {a : AAgent} {src : AgentSrc} {e : Nat} (h : makeAgent acts text a = .ok src e) :
    e = 0 ∧ AgentOf acts a src := makeAgent_spec h

/-- The same for a single plan, if no errors are logged. -/
theorem C58_plan {acts : Lookup} {text : APlan → String} {p : APlan} {q : PlanSrc} (h : makePlan acts text p 0 = .ok q 0) : BuiltPlan acts p q :=
  (makePlan_spec h).2 rfl

section
variable [Unicode] [Floats] [Arith]

/-- From the tokens of a file to the program. -/
theorem C58_source {acts : Lookup} {text : APlan → String} {files : List Char → Option (List Tok)}
    (hf : ∀ p ts, files p = some ts → AllProper ts) {n : Nat} {file : List Char} {ts : List Tok} (hp : AllProper ts) {src : AgentSrc} {e : Nat}
    (h : makeSource acts text files n file ts = .ok src e) :
    ∃ cs a, Script files [normpath file] file ts cs ∧ ValidAgent (agentOf cs) a ∧ AgentOf acts a src := by
  rw [makeSource] at h
  obtain ⟨a, s, h1, h2⟩ := Res.bind_eq_ok.1 h
  match a, s, h1, h2 with
  | some a, 0, h1, h2 =>
    obtain ⟨cs, hs, hv⟩ := C55_sound hf hp h1
    exact ⟨cs, a, hs, hv, (C58_agent h2).2⟩

end

/-! ## C59: accepted files are built -/

section
variable [Arith]

omit [Arith] in
theorem Each.self {α : Type} {R : α → α → Prop} {xs : List α} (h : Each R xs xs) : ∀ x ∈ xs, R x x := by
  induction xs with
  | nil => intro x hx; cases hx
  | cons y ys ih =>
    cases h with
    | cons h1 h2 =>
      intro x hx
      cases hx with
      | head => exact h1
      | tail _ hx => exact ih h2 x hx

/-- The tree of an accepted file is built without errors if and only if the annotations of its
events are literals and lists, and `=..` is not used in its queries. -/
theorem C59_exact {acts : Lookup} {text : APlan → String} {a b : AAgent} (hv : ValidAgent a b) :
    (∃ src, makeAgent acts text b = .ok src 0) ↔ Buildable b := by
  have hb := C55_stable hv
  obtain ⟨rs, e1, h1, -, i1⟩ := makeAll_made (f := makeRule acts) (P := fun r : ARule => r.consequence.NoDecompose) b.rules
    (fun r hr e => makeRule_made (hb.rules.self r hr) e) 0
  have eq := makeAgent.eq_def acts text b
  rw [h1] at eq
  simp only [Res.bind] at eq
  by_cases ha : ∀ p ∈ b.plans, p.event.head.PlainAnnots
  · obtain ⟨ps, e2, h2, l2, i2⟩ := makeAll_made (f := makePlan acts text) (P := fun p : APlan => ∀ q, p.Asks q → q.NoDecompose) b.plans
      (fun p hp e => (makePlan_made (hb.plans.self p hp) e).1 (ha p hp)) e1
    rw [h2] at eq
    simp only at eq
    by_cases h0 : e2 = 0
    · rw [if_pos h0, h0] at eq
      refine ⟨fun _ => ⟨ha, i2.1 (by omega), i1.1 (by omega)⟩, fun _ => ⟨_, eq⟩⟩
    · rw [if_neg h0] at eq
      constructor
      · rintro ⟨src, h⟩
        rw [h] at eq
        cases eq
      · intro hB
        have := i1.2 hB.rules
        have := i2.2 hB.plans
        omega
  · have : ∃ p ∈ b.plans, ¬p.event.head.PlainAnnots := by
      apply Classical.byContradiction
      intro hn
      exact ha fun p hp => Classical.byContradiction fun h => hn ⟨p, hp, h⟩
    obtain ⟨e2, h2⟩ := makePlans_raise (acts := acts) (text := text) b.plans (fun p hp => hb.plans.self p hp) this e1
    rw [h2] at eq
    constructor
    · rintro ⟨src, h⟩
      rw [h] at eq
      cases eq
    · exact fun hB => absurd hB.annots ha

variable [Unicode] [Floats]

/-- An accepted file is built, except for these cases. -/
theorem C59_partial {acts : Lookup} {text : APlan → String} {files : List Char → Option (List Tok)}
    (hf : ∀ p ts, files p = some ts → AllProper ts) {n : Nat} {file : List Char} {ts : List Tok} (hp : AllProper ts) {a : AAgent}
    (h : parseFile files n file ts = .ok (some a) 0) (hB : Buildable a) : ∃ src, makeSource acts text files n file ts = .ok src 0 := by
  obtain ⟨cs, -, hv⟩ := C55_sound hf hp h
  obtain ⟨src, h'⟩ := (C59_exact (acts := acts) (text := text) hv).2 hB
  refine ⟨src, ?_⟩
  rw [makeSource, h]
  exact h'

end

/-! ## C60: plans that are told -/

section
variable [Unicode] [Floats] [Arith]

omit [Arith] in
/-- What `tellHow` makes of the text of a plan, followed by a full stop and anything else. -/
theorem C60_told {acts : Lookup} {text : APlan → String} {us vs : List Tok} {t : Tok} {p : APlan} (hp : AllProper (us ++ t :: vs))
    (h : PlanPhrase us p) (ht : t.kind = .fullstop) {q : PlanSrc} {e : Nat} (hq : makePlan acts text p 0 = .ok q e) :
    ∃ N, ∀ n, N ≤ n → toldPlan acts text n (us ++ t :: vs) = .ok q := by
  obtain ⟨N, hN⟩ := plan_accepted h hp.left
  refine ⟨N, fun n hn => ?_⟩
  have h1 := hN n hn t vs ⟨hp.right.head, ht⟩
  obtain ⟨u, ws, e1, hk⟩ := clause_start (.plan h)
  have hu : u.lexeme = ['@'] ∨ u.lexeme = ['+'] ∨ u.lexeme = ['-'] := by
    have hpu : u.Proper := hp u (by rw [e1]; simp)
    rcases hk with ⟨-, hk⟩ | ⟨-, g, hk⟩ | ⟨hk, -⟩
    · exact absurd rfl (hk p (.const (.bool true))).1
    · cases hk
    · rcases hk with hk | hk | hk
      · exact .inl ((hpu.iff (k := .at_) rfl).2 hk)
      · exact .inr (.inl ((hpu.iff (k := .opPlus) rfl).2 hk))
      · exact .inr (.inr ((hpu.iff (k := .opMinus) rfl).2 hk))
  rw [e1, List.cons_append] at h1 ⊢
  rw [toldPlan]
  simp only [if_pos hu]
  rw [h1]
  simp only [Ev.bind, at?_of (k := .fullstop) rfl ht hp.right.head, if_true, hq]

omit [Arith] in
/-- Every plan that is told is the plan of a text of the grammar. -/
theorem C60_sound {acts : Lookup} {text : APlan → String} {ts : List Tok} (hp : AllProper ts) {n : Nat} {q : PlanSrc}
    (h : toldPlan acts text n ts = .ok q) :
    ∃ us t vs p e, ts = us ++ t :: vs ∧ t.kind = .fullstop ∧ PlanPhrase us p ∧ makePlan acts text p 0 = .ok q e := by
  rw [toldPlan.eq_def] at h
  cases ts with
  | nil => cases h
  | cons u ws =>
    simp only at h
    split at h
    · obtain ⟨⟨p, rs⟩, h1, h2⟩ := Ev.bind_eq_ok.1 h
      simp only at h2
      split at h2
      · rename_i hat
        obtain ⟨us, e, hP⟩ := plan_sound hp h1
        rw [e] at hp ⊢
        obtain ⟨t, vs, rfl, ht⟩ := at?_cons (k := .fullstop) rfl hat hp.right
        split at h2 <;> cases h2
        rename_i hq
        exact ⟨us, t, vs, p, _, rfl, ht, hP, hq⟩
      · cases h2
    · cases h

/-- A plan that is told is the same as the plan of a file with this text, if folding the
constants has no effect on it, its event contains no operators, its annotations are
literals and lists, and `=..` is not used. -/
theorem C60_partial {acts : Lookup} {text : APlan → String} {files : List Char → Option (List Tok)}
    (hfiles : ∀ p ts, files p = some ts → AllProper ts) {file : List Char} {us : List Tok} {t : Tok} {p : APlan} (hp : AllProper (us ++ [t]))
    (h : PlanPhrase us p) (ht : t.kind = .fullstop) (hf : PlanFolds p p) (hn : p.event.head.NoOps) (ha : p.event.head.PlainAnnots)
    (hd : ∀ q, p.Asks q → q.NoDecompose) :
    ∃ q N, BuiltPlan acts p q ∧ ∀ n, N ≤ n → toldPlan acts text n (us ++ [t]) = .ok q ∧
      makeSource acts text files n file (us ++ [t]) = .ok { plans := [q] } 0 := by
  obtain ⟨q, e, hq, -, he⟩ := (makePlan_made (acts := acts) (text := text) hf 0).1 ha
  have e0 : e = 0 := he.2 hd
  subst e0
  obtain ⟨N, hN⟩ := C60_told hp h ht hq
  have hs : Script files [normpath file] file (us ++ [t]) [.plan p] := .clause (.plan h) ht .nil
  have hv : ValidAgent (agentOf [.plan p]) { plans := [p] } := by
    refine ⟨.nil, .nil, .nil, .cons hf .nil, fun x hx => ?_, fun x hx => ?_, fun x hx => ?_⟩
    · cases hx
    · cases hx
    · cases hx with
      | head => exact hn
      | tail _ hx => cases hx
  obtain ⟨M, hM⟩ := C55_complete hfiles hp hs hv
  refine ⟨q, max N M, C58_plan hq, fun n hn => ⟨hN n (by omega), ?_⟩⟩
  rw [makeSource, hM n (by omega)]
  simp only [Res.bind, makeAgent, makeAll, hq, if_true, List.map_nil]

end

section examples
attribute [local instance] asciiText toyFloats exactArith

private def lexed (s : String) : List Tok := ((tokenize 1 [s.toList]).map fun evs => toksOf (evs.map Prod.snd)).getD []

private theorem lexed_proper (s : String) : AllProper (lexed s) := by
  unfold lexed
  cases h : tokenize 1 [s.toList] with
  | none => intro t ht; cases ht
  | some evs => exact C44_tokens h

/-- No files to include. -/
private def noFiles : List Char → Option (List Tok) := fun _ => none

private theorem noProper : ∀ p ts, noFiles p = some ts → AllProper ts := fun _ _ h => by cases h

/-- The only action is `.print`. -/
private def printOnly : Lookup := fun f _ => if f = ".print" then some .print else none

private def noText : APlan → String := fun _ => ""

/-- `+!g(X) : p(X, Y) & not q(_) <- -+n(X + 1, Z); .print(Y, Z).` -/
private def toksP : List Tok :=
  [⟨['+'], .opPlus, 0, 1⟩, ⟨['!'], .exclam, 1, 2⟩, ⟨['g'], .functor, 2, 3⟩, ⟨['('], .parenOpen, 3, 4⟩, ⟨['X'], .var, 4, 5⟩,
   ⟨[')'], .parenClose, 5, 6⟩, ⟨[':'], .colon, 7, 8⟩, ⟨['p'], .functor, 9, 10⟩, ⟨['('], .parenOpen, 10, 11⟩,
   ⟨['X'], .var, 11, 12⟩, ⟨[','], .comma, 12, 13⟩, ⟨['Y'], .var, 14, 15⟩, ⟨[')'], .parenClose, 15, 16⟩,
   ⟨['&'], .opAnd, 17, 18⟩, ⟨['n', 'o', 't'], .opNot, 19, 22⟩, ⟨['q'], .functor, 23, 24⟩, ⟨['('], .parenOpen, 24, 25⟩,
   ⟨['_'], .var, 25, 26⟩, ⟨[')'], .parenClose, 26, 27⟩, ⟨['<', '-'], .arrow, 28, 30⟩, ⟨['-', '+'], .minusPlus, 31, 33⟩,
   ⟨['n'], .functor, 33, 34⟩, ⟨['('], .parenOpen, 34, 35⟩, ⟨['X'], .var, 35, 36⟩, ⟨['+'], .opPlus, 37, 38⟩,
   ⟨['1'], .numeric, 39, 40⟩, ⟨[','], .comma, 40, 41⟩, ⟨['Z'], .var, 42, 43⟩, ⟨[')'], .parenClose, 43, 44⟩,
   ⟨[';'], .semicolon, 44, 45⟩, ⟨['.', 'p', 'r', 'i', 'n', 't'], .functor, 46, 52⟩, ⟨['('], .parenOpen, 52, 53⟩,
   ⟨['Y'], .var, 53, 54⟩, ⟨[','], .comma, 54, 55⟩, ⟨['Z'], .var, 56, 57⟩, ⟨[')'], .parenClose, 57, 58⟩,
   ⟨['.'], .fullstop, 58, 59⟩]
private theorem lexP : lexed "+!g(X) : p(X, Y) & not q(_) <- -+n(X + 1, Z); .print(Y, Z)." = toksP := by rfl

/-- `C58_agent`, from the text: `X` and `Y` are the same variables in the head, the context and
the body; the pattern of `-+` has the variable 3 for `Z`, which is 4 in the body. -/
example : makeSource printOnly noText noFiles 60 ['a'] toksP = .ok { plans := [{
    trigger := .addition, goalType := .achievement, head := .lit "g" [.var 0] [],
    context := .and (.term (.lit "p" [.var 0, .var 1] [])) (.not (.term (.lit "q" [.wild] []))),
    body := [.replace (.lit "n" [.wild, .var 2] []) (.lit "n" [.bin .add (.var 0) (.num 1), .var 3] []),
      .query (.act .print (.lit ".print" [.var 1, .var 3] []))] }] } 0 := by with_unfolding_all rfl

example : ∃ cs a src, Script noFiles [normpath ['a']] ['a'] toksP cs ∧ ValidAgent (agentOf cs) a ∧ AgentOf printOnly a src := by
  obtain ⟨cs, a, h⟩ := C58_source (acts := printOnly) (text := noText) (n := 60) noProper (lexP ▸ lexed_proper _) (by with_unfolding_all rfl)
  exact ⟨cs, a, _, h⟩

/-- `+!g[X].` -/
private def toksQ : List Tok :=
  [⟨['+'], .opPlus, 0, 1⟩, ⟨['!'], .exclam, 1, 2⟩, ⟨['g'], .functor, 2, 3⟩, ⟨['['], .bracketOpen, 3, 4⟩, ⟨['X'], .var, 4, 5⟩,
   ⟨[']'], .bracketClose, 5, 6⟩, ⟨['.'], .fullstop, 6, 7⟩]
private theorem lexQ : lexed "+!g[X]." = toksQ := by rfl

/-- `q :- X =.. Y.` -/
private def toksR : List Tok :=
  [⟨['q'], .functor, 0, 1⟩, ⟨[':', '-'], .define, 2, 4⟩, ⟨['X'], .var, 5, 6⟩, ⟨['=', '.', '.'], .opDecompose, 7, 10⟩,
   ⟨['Y'], .var, 11, 12⟩, ⟨['.'], .fullstop, 12, 13⟩]
private theorem lexR : lexed "q :- X =.. Y." = toksR := by rfl

/-- It is not true that every accepted file is built.  A variable as an annotation of an event
raises an exception, and the operator `=..`, which is accepted by the parser, is an error. -/
theorem C59_false :
    (∃ a, parseFile noFiles 60 ['a'] toksQ = .ok (some a) 0) ∧
      makeSource printOnly noText noFiles 60 ['a'] toksQ = .err (.py "AttributeError") 0 ∧
    (∃ a, parseFile noFiles 60 ['a'] toksR = .ok (some a) 0) ∧
      makeSource printOnly noText noFiles 60 ['a'] toksR = .err (.asl "errors") 1 :=
  ⟨⟨_, by with_unfolding_all rfl⟩, by with_unfolding_all rfl, ⟨_, by with_unfolding_all rfl⟩, by with_unfolding_all rfl⟩

/-- `+!g(X) : p(X) <- !h(X).` -/
private def toksT : List Tok :=
  [⟨['+'], .opPlus, 0, 1⟩, ⟨['!'], .exclam, 1, 2⟩, ⟨['g'], .functor, 2, 3⟩, ⟨['('], .parenOpen, 3, 4⟩, ⟨['X'], .var, 4, 5⟩,
   ⟨[')'], .parenClose, 5, 6⟩, ⟨[':'], .colon, 7, 8⟩, ⟨['p'], .functor, 9, 10⟩, ⟨['('], .parenOpen, 10, 11⟩,
   ⟨['X'], .var, 11, 12⟩, ⟨[')'], .parenClose, 12, 13⟩, ⟨['<', '-'], .arrow, 14, 16⟩, ⟨['!'], .exclam, 17, 18⟩,
   ⟨['h'], .functor, 18, 19⟩, ⟨['('], .parenOpen, 19, 20⟩, ⟨['X'], .var, 20, 21⟩, ⟨[')'], .parenClose, 21, 22⟩,
   ⟨['.'], .fullstop, 22, 23⟩]
private theorem lexT : lexed "+!g(X) : p(X) <- !h(X)." = toksT := by rfl

private def planT : APlan :=
  ⟨none, ⟨.addition, .achievement, .lit ['g'] [.var ['X']] []⟩, some (.lit ['p'] [.var ['X']] []),
    some [.formula .achieve (.lit ['h'] [.var ['X']] [])]⟩

private theorem parseT : parseFile noFiles 60 ['a'] toksT = .ok (some { plans := [planT] }) 0 := by with_unfolding_all rfl

private theorem asksT {q : Ast} (h : planT.Asks q) : q = .lit ['p'] [.var ['X']] [] := by
  rcases h with h | ⟨b, h, hq⟩
  · cases h; rfl
  · cases h
    cases hq with
    | head hq => cases hq
    | tail hq => cases hq

/-- `C59_exact` and `C59_partial` apply to the text. -/
example : Buildable { plans := [planT] } where
  annots p hp := by
    cases hp with
    | head => intro f ts as h x hx; cases h; cases hx
    | tail _ hp => cases hp
  plans p hp q hq := by
    cases hp with
    | head => rw [asksT hq]; intro l r h; cases h
    | tail _ hp => cases hp
  rules r hr := by cases hr

/-- `+!g(X + 1).` -/
private def toksS : List Tok :=
  [⟨['+'], .opPlus, 0, 1⟩, ⟨['!'], .exclam, 1, 2⟩, ⟨['g'], .functor, 2, 3⟩, ⟨['('], .parenOpen, 3, 4⟩, ⟨['X'], .var, 4, 5⟩,
   ⟨['+'], .opPlus, 6, 7⟩, ⟨['1'], .numeric, 8, 9⟩, ⟨[')'], .parenClose, 9, 10⟩, ⟨['.'], .fullstop, 10, 11⟩]
private theorem lexS : lexed "+!g(X + 1)." = toksS := by rfl

private theorem parseS (n : Nat) : ∃ a, parseFile noFiles (n + 60) ['a'] toksS = .ok (some a) 1 := ⟨_, by with_unfolding_all rfl⟩

/-- It is not true that a plan is told if and only if it is accepted in a file: the head
`g(X + 1)` is rejected in a file, but told without complaint.  Comparing it with an event is an
error. -/
theorem C60_false :
    toldPlan printOnly noText 60 toksS =
        .ok { trigger := .addition, goalType := .achievement, head := .lit "g" [.bin .add (.var 0) (.num 1)] [] } ∧
      (∀ n src, makeSource printOnly noText noFiles n ['a'] toksS ≠ .ok src 0) ∧
      ∃ e b, unify 9 (.lit "g" [.bin .add (.var 0) (.num 1)] []) (.lit "g" [.num 2] []) BSt.init = .err e b := by
  refine ⟨by with_unfolding_all rfl, fun n src h => ?_, ⟨_, _, by with_unfolding_all rfl⟩⟩
  rw [makeSource] at h
  obtain ⟨a, s, h1, h2⟩ := Res.bind_eq_ok.1 h
  match a, s, h1, h2 with
  | some a, 0, h1, h2 =>
    have hp : AllProper toksS := lexS ▸ lexed_proper _
    obtain ⟨cs, hs, hv⟩ := C55_sound noProper hp h1
    obtain ⟨N, hN⟩ := C55_complete noProper hp hs hv
    have h3 := hN (N + 60) (by omega)
    obtain ⟨b, h4⟩ := parseS N
    rw [h4] at h3
    cases h3

/-- `+!g : X =.. Y.` -/
private def toksU : List Tok :=
  [⟨['+'], .opPlus, 0, 1⟩, ⟨['!'], .exclam, 1, 2⟩, ⟨['g'], .functor, 2, 3⟩, ⟨[':'], .colon, 4, 5⟩, ⟨['X'], .var, 6, 7⟩,
   ⟨['=', '.', '.'], .opDecompose, 8, 11⟩, ⟨['Y'], .var, 12, 13⟩, ⟨['.'], .fullstop, 13, 14⟩]
private theorem lexU : lexed "+!g : X =.. Y." = toksU := by rfl

/-- A plan with `=..` is rejected in a file and told, with the error in the log only: the
errors are never thrown. -/
example : (∃ q, toldPlan printOnly noText 60 toksU = .ok q) ∧
    makeSource printOnly noText noFiles 60 ['a'] toksU = .err (.asl "errors") 1 :=
  ⟨⟨_, by with_unfolding_all rfl⟩, by with_unfolding_all rfl⟩

/-- `+!g <- .go(1).` -/
private def toksW : List Tok :=
  [⟨['+'], .opPlus, 0, 1⟩, ⟨['!'], .exclam, 1, 2⟩, ⟨['g'], .functor, 2, 3⟩, ⟨['<', '-'], .arrow, 4, 6⟩,
   ⟨['.', 'g', 'o'], .functor, 7, 10⟩, ⟨['('], .parenOpen, 10, 11⟩, ⟨['1'], .numeric, 11, 12⟩, ⟨[')'], .parenClose, 12, 13⟩,
   ⟨['.'], .fullstop, 13, 14⟩]

private theorem lexW : lexed "+!g <- .go(1)." = toksW := by rfl

/-- Plans are told with the standard actions, whatever actions the agent has.  A call of an
action of the agent, here `.go`, becomes a query for a belief. -/
theorem C60_actions :
    let std := printOnly
    let acts : Lookup := fun f n => if f = ".go" ∧ n = 1 then some (.proc [] fun _ => .ok ()) else std f n
    makeSource acts noText noFiles 60 ['a'] toksW = .ok { plans := [{
        trigger := .addition, goalType := .achievement, head := .lit "g" [] [], body := [.query (.act (.proc [] fun _ => .ok ()) (.lit ".go" [.num 1] []))] }] } 0 ∧
      toldPlan std noText 60 toksW = .ok {
        trigger := .addition, goalType := .achievement, head := .lit "g" [] [], body := [.query (.term (.lit ".go" [.num 1] []))] } :=
  ⟨by with_unfolding_all rfl, by with_unfolding_all rfl⟩

/-- The plan `+!g(X) : p(X) <- !h(X).`, told. -/
example : toldPlan printOnly noText 60 toksT = .ok {
    trigger := .addition, goalType := .achievement, head := .lit "g" [.var 0] [],
    context := .term (.lit "p" [.var 0] []), body := [.achieve (.lit "h" [.var 0] [])] } := by with_unfolding_all rfl

/-- `C60_partial` and `C60_told` apply to its text. -/
example : ∃ q N, BuiltPlan printOnly planT q ∧ ∀ n, N ≤ n → toldPlan printOnly noText n toksT = .ok q ∧
    makeSource printOnly noText noFiles n ['a'] toksT = .ok { plans := [q] } 0 := by
  have hp : AllProper toksT := lexT ▸ lexed_proper _
  have h2 : parsePlan 60 toksT = .ok (planT, toksT.drop 17) := by with_unfolding_all rfl
  obtain ⟨us, e, hP⟩ := plan_sound hp h2
  have e1 : us = toksT.take 17 := List.append_cancel_right (bs := toksT.drop 17) (by rw [← e, List.take_append_drop])
  subst e1
  have hv := C55_stable (C55_sound noProper hp parseT).choose_spec.2
  exact C60_partial (t := toksT[17]) noProper hp hP rfl (hv.plans.self _ (.head _)) (hv.plainEvents _ (.head _)) (fun f ts as h x hx => by cases h; cases hx)
    (fun q hq => by rw [asksT hq]; intro l r h; cases h)

end examples

end Verif
