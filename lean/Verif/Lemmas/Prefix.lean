import Verif.Model.Script

/-! The parser reads tokens one after the other: what it does with a list of tokens, it does with a longer list as
well, unless it runs out of tokens. -/

namespace Verif

/-- `x` are the results for some tokens, `y` for the same tokens followed by `us`. -/
def Longer {α : Type} (us : List Tok) (x y : PR α) : Prop :=
  match x with
  | .ok (a, r) => r ≠ [] ∧ y = .ok (a, r ++ us)
  | .err e => e = .py "StopIteration" ∨ y = .err e
  | .oof => True

/-- The same for `advance` and `expect`. -/
def LongerT (us : List Tok) (x y : Ev (List Tok)) : Prop :=
  match x with
  | .ok r => r ≠ [] ∧ y = .ok (r ++ us)
  | .err e => e = .py "StopIteration" ∨ y = .err e
  | .oof => True

theorem Longer.ok {α : Type} {us : List Tok} {a : α} {r : List Tok} (h : r ≠ []) :
    Longer us (.ok (a, r)) (.ok (a, r ++ us)) := ⟨h, rfl⟩

theorem Longer.error {α : Type} {us : List Tok} : Longer (α := α) us syntaxError syntaxError := Or.inr rfl

theorem Longer.bind {α β : Type} {us : List Tok} {x y : PR α} {f g : α × List Tok → PR β} (h : Longer us x y)
    (hf : ∀ a r, r ≠ [] → Longer us (f (a, r)) (g (a, r ++ us))) : Longer us (x.bind f) (y.bind g) := by
  match x, h with
  | .ok (a, r), h => rw [h.2]; exact hf a r h.1
  | .err e, .inl h => exact Or.inl h
  | .err e, .inr h => rw [h]; exact Or.inr rfl
  | .oof, _ => trivial

theorem LongerT.bind {β : Type} {us : List Tok} {x y : Ev (List Tok)} {f g : List Tok → PR β} (h : LongerT us x y)
    (hf : ∀ r, r ≠ [] → Longer us (f r) (g (r ++ us))) : Longer us (x.bind f) (y.bind g) := by
  match x, h with
  | .ok r, h => rw [h.2]; exact hf r h.1
  | .err e, .inl h => exact Or.inl h
  | .err e, .inr h => rw [h]; exact Or.inr rfl
  | .oof, _ => trivial

theorem Longer.evBind {α β : Type} {us : List Tok} (x : Ev α) {f g : α → PR β} (hf : ∀ a, Longer us (f a) (g a)) :
    Longer us (x.bind f) (x.bind g) := by
  cases x with
  | ok a => exact hf a
  | err e => exact Or.inr rfl
  | oof => trivial

theorem Longer.ite {α : Type} {us : List Tok} {p : Bool} {x x' y y' : PR α} (h1 : p = true → Longer us x y)
    (h2 : p = false → Longer us x' y') : Longer us (if p then x else x') (if p then y else y') := by
  cases p with
  | true => exact h1 rfl
  | false => exact h2 rfl

theorem Longer.dite {α : Type} {us : List Tok} {p : Prop} [Decidable p] {x x' y y' : PR α} (h1 : p → Longer us x y)
    (h2 : ¬p → Longer us x' y') : Longer us (if p then x else x') (if p then y else y') := by
  by_cases h : p
  · rw [if_pos h, if_pos h]; exact h1 h
  · rw [if_neg h, if_neg h]; exact h2 h

theorem advance_longer {ts : List Tok} (us : List Tok) (h : ts ≠ []) : LongerT us (advance ts) (advance (ts ++ us)) := by
  match ts, h with
  | [t], _ => exact Or.inl rfl
  | t :: t' :: ts, _ => exact ⟨by simp, rfl⟩

theorem at_longer {ts : List Tok} (us : List Tok) (h : ts ≠ []) (w : List Char) : at? w (ts ++ us) = at? w ts := by
  match ts, h with
  | t :: ts, _ => rfl

theorem expect_longer {ts : List Tok} (us : List Tok) (h : ts ≠ []) (w : List Char) :
    LongerT us (expect w ts) (expect w (ts ++ us)) := by
  unfold expect
  rw [at_longer us h]
  cases at? w ts with
  | true => exact advance_longer us h
  | false => exact Or.inr rfl

/-- A parser of terms that reads one token after the other. -/
def Streams {α : Type} (p : List Tok → PR α) : Prop := ∀ ts us, ts ≠ [] → Longer us (p ts) (p (ts ++ us))

theorem leftLoop_longer {op? : Tok → Option BinOp} {sub : List Tok → PR Ast} (hs : Streams sub) (us : List Tok) :
    ∀ (k k' : Nat) (e : Ast) (ts : List Tok), k ≤ k' → ts ≠ [] → Longer us (leftLoop op? sub k e ts) (leftLoop op? sub k' e (ts ++ us))
  | _, _, _, [], _, h => absurd rfl h
  | 0, _, _, _ :: _, _, _ => trivial
  | k + 1, 0, _, _ :: _, h, _ => by omega
  | k + 1, k' + 1, e, t :: ts, h, _ => by
    rw [List.cons_append, leftLoop, leftLoop]
    cases op? t with
    | none => exact Longer.ok (r := t :: ts) (by simp)
    | some op =>
      exact LongerT.bind (advance_longer (ts := t :: ts) us (by simp)) fun r hr =>
        Longer.bind (hs r us hr) fun a r' hr' => leftLoop_longer hs us k k' _ r' (by omega) hr'

theorem compLoop_longer {sub : List Tok → PR Ast} (hs : Streams sub) (us : List Tok) :
    ∀ (k k' : Nat) (cs : Option Ast) (e : Ast) (ts : List Tok), k ≤ k' → ts ≠ [] →
      Longer us (compLoop sub k cs e ts) (compLoop sub k' cs e (ts ++ us))
  | _, _, _, _, [], _, h => absurd rfl h
  | 0, _, _, _, _ :: _, _, _ => trivial
  | k + 1, 0, _, _, _ :: _, h, _ => by omega
  | k + 1, k' + 1, cs, e, t :: ts, h, _ => by
    rw [List.cons_append, compLoop, compLoop]
    cases compOp t with
    | none => exact Longer.ok (r := t :: ts) (by simp)
    | some op =>
      exact LongerT.bind (advance_longer (ts := t :: ts) us (by simp)) fun r hr =>
        Longer.bind (hs r us hr) fun a r' hr' => compLoop_longer hs us k k' _ _ r' (by omega) hr'

section
variable [Unicode] [Floats]

/-- All parsers of terms, with fuel `n`. -/
structure TermStreams (n : Nat) : Prop where
  literal : Streams (parseLiteral n)
  args : ∀ c, Streams (parseArgs n c)
  items : ∀ acc, Streams (parseItems n acc)
  list : Streams (parseList n)
  tail : Streams (parseTail n)
  atom : Streams (parseAtom n)
  power : Streams (parsePower n)
  factor : Streams (parseFactor n)
  product : Streams (parseProduct n)
  arith : Streams (parseArith n)
  comparison : Streams (parseComparison n)
  not : Streams (parseNot n)
  and : Streams (parseAnd n)
  term : Streams (parseTerm n)

omit [Unicode] [Floats] in
theorem loop_longer {p sub : List Tok → PR Ast} {op? : Tok → Option BinOp} (hp : Streams p) (hs : Streams sub) {ts us : List Tok} (h : ts ≠ []) :
    Longer us ((p ts).bind fun (e, ts) => leftLoop op? sub ts.length e ts)
      ((p (ts ++ us)).bind fun (e, ts) => leftLoop op? sub ts.length e ts) :=
  Longer.bind (hp ts us h) fun _ r hr => leftLoop_longer hs us _ _ _ r (by simp) hr

theorem termStreams : ∀ n, TermStreams n
  | 0 => by
    constructor
    case args => intro c ts us _; rw [parseArgs]; trivial
    case items => intro c ts us _; rw [parseItems]; trivial
    case literal => intro ts us _; rw [parseLiteral]; trivial
    case list => intro ts us _; rw [parseList]; trivial
    case tail => intro ts us _; rw [parseTail]; trivial
    case atom => intro ts us _; rw [parseAtom]; trivial
    case power => intro ts us _; rw [parsePower]; trivial
    case factor => intro ts us _; rw [parseFactor]; trivial
    case product => intro ts us _; rw [parseProduct]; trivial
    case arith => intro ts us _; rw [parseArith]; trivial
    case comparison => intro ts us _; rw [parseComparison]; trivial
    case not => intro ts us _; rw [parseNot]; trivial
    case and => intro ts us _; rw [parseAnd]; trivial
    case term => intro ts us _; rw [parseTerm]; trivial
  | n + 1 => by
    have ih := termStreams n
    constructor
    case literal =>
      intro ts us h
      match ts, h with
      | t :: ts, h =>
        rw [List.cons_append, parseLiteral, parseLiteral]
        refine Longer.dite (fun _ => ?_) fun _ => Longer.error
        refine LongerT.bind (advance_longer us h) fun r hr => ?_
        refine Longer.bind ?_ fun args r hr => ?_
        · rw [at_longer us hr]
          exact Longer.ite (fun _ => ih.args _ _ _ hr) fun _ => Longer.ok hr
        · refine Longer.bind ?_ fun annots r hr => Longer.ok hr
          rw [at_longer us hr]
          exact Longer.ite (fun _ => ih.args _ _ _ hr) fun _ => Longer.ok hr
    case args =>
      intro c ts us h
      rw [parseArgs, parseArgs]
      refine LongerT.bind (advance_longer us h) fun r hr => ?_
      refine Longer.bind (ih.term r us hr) fun a r hr => ?_
      simp only [at_longer us hr]
      refine Longer.ite (fun _ => ?_) fun _ => Longer.ite (fun _ => ?_) fun _ => Longer.error
      · exact LongerT.bind (advance_longer us hr) fun r hr => Longer.ok hr
      · exact Longer.bind (ih.args _ r us hr) fun a r hr => Longer.ok hr
    case items =>
      intro acc ts us h
      rw [parseItems, parseItems]
      simp only [at_longer us h]
      refine Longer.ite (fun _ => ?_) fun _ => ?_
      · exact LongerT.bind (advance_longer us h) fun r hr => Longer.ok hr
      · refine Longer.bind (ih.and ts us h) fun a r hr => ?_
        simp only [at_longer us hr]
        refine Longer.ite (fun _ => ?_) fun _ => Longer.ite (fun _ => ?_) fun _ => Longer.ite (fun _ => ?_) fun _ => Longer.error
        · refine Longer.dite (fun _ => Longer.error) fun _ => ?_
          exact Longer.bind (ih.tail r us hr) fun a r hr => Longer.ok hr
        · exact LongerT.bind (advance_longer us hr) fun r hr => ih.items _ r us hr
        · exact ih.items _ r us hr
    case list =>
      intro ts us h
      rw [parseList, parseList, at_longer us h]
      refine Longer.ite (fun _ => ?_) fun _ => Longer.error
      exact LongerT.bind (advance_longer us h) fun r hr => ih.items _ r us hr
    case tail =>
      intro ts us h
      rw [parseTail, parseTail, at_longer us h]
      refine Longer.ite (fun _ => ?_) fun _ => Longer.error
      refine LongerT.bind (advance_longer us h) fun r hr => Longer.bind (ih.and r us hr) fun a r hr => ?_
      simp only [at_longer us hr]
      refine Longer.ite (fun _ => ?_) fun _ => Longer.ite (fun _ => ?_) fun _ => Longer.error
      · exact Longer.bind (ih.tail r us hr) fun a r hr => Longer.ok hr
      · exact LongerT.bind (advance_longer us hr) fun r hr => Longer.ok hr
    case atom =>
      intro ts us h
      match ts, h with
      | t :: ts, h =>
        rw [List.cons_append, parseAtom, parseAtom]
        refine Longer.dite (fun _ => ?_) fun _ => Longer.dite (fun _ => ?_) fun _ => Longer.dite (fun _ => ?_) fun _ =>
          Longer.dite (fun _ => ?_) fun _ => Longer.dite (fun _ => ?_) fun _ => Longer.dite (fun _ => ?_) fun _ =>
          Longer.dite (fun _ => ?_) fun _ => Longer.dite (fun _ => ?_) fun _ => Longer.error
        · exact LongerT.bind (advance_longer us h) fun r hr => Longer.ok hr
        · exact ih.literal _ us h
        · exact ih.list _ us h
        · refine LongerT.bind (advance_longer us h) fun r hr => Longer.bind (ih.term r us hr) fun a r hr => ?_
          simp only [at_longer us hr]
          refine Longer.ite (fun _ => ?_) fun _ => Longer.error
          exact LongerT.bind (advance_longer us hr) fun r hr => Longer.ok hr
        · exact LongerT.bind (advance_longer us h) fun r hr => Longer.ok hr
        · exact LongerT.bind (advance_longer us h) fun r hr => Longer.ok hr
        · exact LongerT.bind (advance_longer us h) fun r hr => Longer.ok hr
        · exact Longer.evBind _ fun s => LongerT.bind (advance_longer us h) fun r hr => Longer.ok hr
    case power => intro ts us h; rw [parsePower, parsePower]; exact loop_longer ih.atom ih.factor h
    case factor =>
      intro ts us h
      match ts, h with
      | t :: ts, h =>
        rw [List.cons_append, parseFactor, parseFactor]
        simp only []
        cases unaryOp t with
        | none => exact ih.power _ us h
        | some op =>
          exact LongerT.bind (advance_longer us h) fun r hr => Longer.bind (ih.factor r us hr) fun a r hr => Longer.ok hr
    case product => intro ts us h; rw [parseProduct, parseProduct]; exact loop_longer ih.factor ih.factor h
    case arith => intro ts us h; rw [parseArith, parseArith]; exact loop_longer ih.product ih.product h
    case comparison =>
      intro ts us h
      rw [parseComparison, parseComparison]
      exact Longer.bind (ih.arith ts us h) fun _ r hr => compLoop_longer ih.arith us _ _ _ _ r (by simp) hr
    case not =>
      intro ts us h
      rw [parseNot, parseNot, at_longer us h]
      refine Longer.ite (fun _ => ?_) fun _ => ih.comparison ts us h
      exact LongerT.bind (advance_longer us h) fun r hr => Longer.bind (ih.not r us hr) fun a r hr => Longer.ok hr
    case and => intro ts us h; rw [parseAnd, parseAnd]; exact loop_longer ih.not ih.not h
    case term => intro ts us h; rw [parseTerm, parseTerm]; exact loop_longer ih.and ih.and h

theorem head_streams (n : Nat) : Streams (parseHead n) := by
  intro ts us h
  unfold parseHead
  refine LongerT.bind (expect_longer us h _) fun r hr => Longer.bind ((termStreams n).term r us hr) fun a r hr => ?_
  exact LongerT.bind (expect_longer us hr _) fun r hr => Longer.ok hr

/-- The parsers of statements, with fuel `n`. -/
structure StmtStreams (n : Nat) : Prop where
  stmt : Streams (parseStmt n)
  block : Streams (parseBlock n)
  body : Streams (parseBody n)

theorem stmtStreams : ∀ n, StmtStreams n
  | 0 => by
    constructor
    case stmt => intro ts us _; rw [parseStmt]; trivial
    case block => intro ts us _; rw [parseBlock]; trivial
    case body => intro ts us _; rw [parseBody]; trivial
  | n + 1 => by
    have ih := stmtStreams n
    constructor
    case stmt =>
      intro ts us h
      have hl : ∀ w, at? w (ts ++ us) = at? w ts := at_longer us h
      match ts, h, hl with
      | t :: ts, h, hl =>
        rw [List.cons_append] at hl
        rw [List.cons_append, parseStmt, parseStmt]
        simp only [hl]
        refine Longer.ite (fun _ => ?_) fun _ => Longer.ite (fun _ => ?_) fun _ => Longer.ite (fun _ => ?_) fun _ => ?_
        · refine LongerT.bind (advance_longer us h) fun r hr => Longer.bind (head_streams n r us hr) fun a r hr => ?_
          exact Longer.bind (ih.block r us hr) fun b r hr => Longer.ok hr
        · refine LongerT.bind (advance_longer us h) fun r hr => Longer.bind (head_streams n r us hr) fun a r hr => ?_
          refine Longer.bind (ih.block r us hr) fun b r hr => ?_
          simp only [at_longer us hr]
          refine Longer.ite (fun _ => ?_) fun _ => Longer.ok hr
          exact LongerT.bind (advance_longer us hr) fun r hr => Longer.bind (ih.block r us hr) fun b r hr => Longer.ok hr
        · refine LongerT.bind (advance_longer us h) fun r hr => Longer.bind (head_streams n r us hr) fun a r hr => ?_
          exact Longer.bind (ih.block r us hr) fun b r hr => Longer.ok hr
        · cases formulaType t with
          | none => exact Longer.bind ((termStreams n).term _ us h) fun a r hr => Longer.ok hr
          | some ty =>
            exact LongerT.bind (advance_longer us h) fun r hr =>
              Longer.bind ((termStreams n).term r us hr) fun a r hr => Longer.ok hr
    case block =>
      intro ts us h
      rw [parseBlock, parseBlock]
      refine LongerT.bind (expect_longer us h _) fun r hr => Longer.bind (ih.body r us hr) fun a r hr => ?_
      exact LongerT.bind (expect_longer us hr _) fun r hr => Longer.ok hr
    case body =>
      intro ts us h
      rw [parseBody, parseBody]
      simp only [at_longer us h]
      refine Longer.ite (fun _ => Longer.ok h) fun _ => Longer.bind (ih.stmt ts us h) fun f r hr => ?_
      simp only [at_longer us hr]
      refine Longer.ite (fun _ => ?_) fun _ => Longer.ite (fun _ => Longer.ok hr) fun _ => Longer.ite (fun _ => Longer.error) fun _ => ?_
      · exact LongerT.bind (advance_longer us hr) fun r hr => Longer.bind (ih.body r us hr) fun b r hr => Longer.ok hr
      · exact Longer.bind (ih.body r us hr) fun b r hr => Longer.ok hr

theorem planBody_streams : ∀ n, Streams (parsePlanBody n)
  | 0 => by intro ts us _; rw [parsePlanBody]; trivial
  | n + 1 => by
    have ih := planBody_streams n
    intro ts us h
    rw [parsePlanBody, parsePlanBody]
    refine Longer.bind ((stmtStreams n).stmt ts us h) fun f r hr => ?_
    simp only [at_longer us hr]
    refine Longer.ite (fun _ => ?_) fun _ => Longer.ite (fun _ => Longer.ok hr) fun _ => Longer.ite (fun _ => Longer.error) fun _ => ?_
    · exact LongerT.bind (advance_longer us hr) fun r hr => Longer.bind (ih r us hr) fun b r hr => Longer.ok hr
    · exact Longer.bind (ih r us hr) fun b r hr => Longer.ok hr

theorem event_streams (n : Nat) : Streams (parseEvent n) := by
  intro ts us h
  match ts, h with
  | t :: ts, h =>
    rw [List.cons_append, parseEvent, parseEvent]
    simp only []
    cases trigger? t with
    | none => exact Longer.error
    | some tr =>
      refine LongerT.bind (advance_longer us h) fun r hr => ?_
      match r, hr with
      | u :: r, hr =>
        simp only [List.cons_append]
        cases goalType? u with
        | none => exact Longer.bind ((termStreams n).literal _ us hr) fun a r hr => Longer.ok hr
        | some g =>
          exact LongerT.bind (advance_longer us hr) fun r hr => Longer.bind ((termStreams n).literal r us hr) fun a r hr => Longer.ok hr

theorem plan_streams (n : Nat) : Streams (parsePlan n) := by
  intro ts us h
  rw [parsePlan, parsePlan]
  refine Longer.bind ?_ fun label r hr => Longer.bind (event_streams n r us hr) fun event r hr => Longer.bind ?_ fun context r hr =>
    Longer.bind ?_ fun body r hr => Longer.ok hr
  · rw [at_longer us h]
    refine Longer.ite (fun _ => ?_) fun _ => Longer.ok h
    exact LongerT.bind (advance_longer us h) fun r hr => Longer.bind ((termStreams n).literal r us hr) fun a r hr => Longer.ok hr
  · rw [at_longer us hr]
    refine Longer.ite (fun _ => ?_) fun _ => Longer.ok hr
    exact LongerT.bind (advance_longer us hr) fun r hr => Longer.bind ((termStreams n).term r us hr) fun a r hr => Longer.ok hr
  · rw [at_longer us hr]
    refine Longer.ite (fun _ => ?_) fun _ => Longer.ok hr
    exact LongerT.bind (advance_longer us hr) fun r hr => Longer.bind (planBody_streams n r us hr) fun a r hr => Longer.ok hr

theorem clause_streams (n : Nat) : Streams (parseClause n) := by
  intro ts us h
  rw [parseClause, parseClause]
  refine Longer.bind ?_ fun c r hr => ?_
  · match ts, h with
    | t :: ts, h =>
      rw [List.cons_append, parsePart, parsePart]
      refine Longer.dite (fun _ => ?_) fun _ => Longer.dite (fun _ => ?_) fun _ => ?_
      · rw [← List.cons_append, parseRuleOrBelief, parseRuleOrBelief]
        refine Longer.bind ((termStreams n).literal _ us h) fun a r hr => ?_
        simp only [at_longer us hr]
        refine Longer.ite (fun _ => ?_) fun _ => Longer.ok hr
        exact LongerT.bind (advance_longer us hr) fun r hr => Longer.bind ((termStreams n).term r us hr) fun a r hr => Longer.ok hr
      · rw [← List.cons_append, parseGoal, parseGoal]
        exact LongerT.bind (expect_longer us h _) fun r hr => Longer.bind ((termStreams n).literal r us hr) fun a r hr => Longer.ok hr
      · exact Longer.bind (plan_streams n _ us h) fun a r hr => Longer.ok hr
  · simp only [at_longer us hr]
    exact Longer.ite (fun _ => Longer.ok hr) fun _ => Longer.error

end

end Verif
