import Verif.Model.AgentDump
import Verif.Props.Dump

/-!
# C92: `.dump` lists what an agent has

Not always: a rule or plan with the negation of something other than a term (literal, comparison) or an action
ends the listing with an exception (`NotQuery.__str__` takes the attribute `term`).
-/

namespace Verif

/-- The second query is a part of the first. -/
inductive Query.Part : Query Act → Query Act → Prop
  | refl (q) : Part q q
  | andL {l r q} : Part l q → Part (.and l r) q
  | andR {l r q} : Part r q → Part (.and l r) q
  | orL {l r q} : Part l q → Part (.or l r) q
  | orR {l r q} : Part r q → Part (.or l r) q
  | not {p q} : Part p q → Part (.not p) q

/-- Only terms (literals, comparisons) and actions are negated. -/
def Query.Printable (q : Query Act) : Prop :=
  ∀ p, q.Part (.not p) → (∃ t, p = .term t) ∨ ∃ a t, p = .act a t

/-- The query of a rule, the context of a plan. -/
def Listed.Printable : Listed → Prop
  | .rule r => r.query.Printable
  | .plan p => p.context.Printable
  | _ => True

section
variable [Floats] (W : Wording)

theorem Query.show_cases (q : Query Act) : (q.Printable ∧ ∃ u, q.show W = .ok u) ∨ (¬ q.Printable ∧ q.show W = .err (.py "AttributeError")) := by
  induction q with
  | tru | fls | act | term | unify => exact .inl ⟨fun p hp => (by cases hp), _, rfl⟩
  | and l r ihl ihr =>
    rcases ihl with ⟨hl, u, hu⟩ | ⟨hl, hu⟩
    · rcases ihr with ⟨hr, v, hv⟩ | ⟨hr, hv⟩
      · exact .inl ⟨fun p hp => (by cases hp with | andL h => exact hl p h | andR h => exact hr p h), _, by rw [Query.show, hu, hv]; rfl⟩
      · exact .inr ⟨fun h => hr fun p hp => h p (.andR hp), by rw [Query.show, hu, hv]; rfl⟩
    · exact .inr ⟨fun h => hl fun p hp => h p (.andL hp), by rw [Query.show, hu]; rfl⟩
  | or l r ihl ihr =>
    rcases ihl with ⟨hl, u, hu⟩ | ⟨hl, hu⟩
    · rcases ihr with ⟨hr, v, hv⟩ | ⟨hr, hv⟩
      · exact .inl ⟨fun p hp => (by cases hp with | orL h => exact hl p h | orR h => exact hr p h), _, by rw [Query.show, hu, hv]; rfl⟩
      · exact .inr ⟨fun h => hr fun p hp => h p (.orR hp), by rw [Query.show, hu, hv]; rfl⟩
    · exact .inr ⟨fun h => hl fun p hp => h p (.orL hp), by rw [Query.show, hu]; rfl⟩
  | not q _ =>
    cases q with
    | term t => exact .inl ⟨fun p hp => (by cases hp with | refl => exact .inl ⟨t, rfl⟩ | not h => cases h), _, rfl⟩
    | act a t => exact .inl ⟨fun p hp => (by cases hp with | refl => exact .inr ⟨a, t, rfl⟩ | not h => cases h), _, rfl⟩
    | _ =>
      refine .inr ⟨fun h => ?_, rfl⟩
      rcases h _ (.refl _) with ⟨_, h⟩ | ⟨_, _, h⟩ <;> cases h

theorem Listed.line_cases (x : Listed) : (x.Printable ∧ ∃ u, x.line W = .ok u) ∨ (¬ x.Printable ∧ x.line W = .err (.py "AttributeError")) := by
  cases x with
  | belief t => exact .inl ⟨trivial, _, rfl⟩
  | intention i j => exact .inl ⟨trivial, _, rfl⟩
  | rule r =>
    rcases r.query.show_cases W with ⟨h, u, hu⟩ | ⟨h, hu⟩
    · exact .inl ⟨h, _, by rw [Listed.line, Rule.show, hu]; rfl⟩
    · exact .inr ⟨h, by rw [Listed.line, Rule.show, hu]; rfl⟩
  | plan p =>
    rcases p.context.show_cases W with ⟨h, u, hu⟩ | ⟨h, hu⟩
    · exact .inl ⟨h, _, by rw [Listed.line, Plan.line, hu]; rfl⟩
    · exact .inr ⟨h, by rw [Listed.line, Plan.line, hu]; rfl⟩

theorem printEach_all : ∀ {xs : List Listed}, (∀ x ∈ xs, x.Printable) → ∃ ls, printEach W xs = (ls, .ok ()) ∧ xs.map (·.line W) = ls.map .ok
  | [], _ => ⟨[], rfl, rfl⟩
  | x :: xs, h => by
    obtain ⟨ls, h1, h2⟩ := printEach_all fun y hy => h y (.tail _ hy)
    rcases x.line_cases W with ⟨_, u, hu⟩ | ⟨hx, _⟩
    · exact ⟨u :: ls, by rw [printEach, hu, h1], by rw [List.map_cons, List.map_cons, hu, h2]⟩
    · exact absurd (h x (.head _)) hx

theorem printEach_stop : ∀ {xs : List Listed} {x : Listed} {ys : List Listed}, (∀ x ∈ xs, x.Printable) → ¬ x.Printable →
    ∃ ls, printEach W (xs ++ x :: ys) = (ls, .err (.py "AttributeError")) ∧ xs.map (·.line W) = ls.map .ok
  | [], x, ys, _, hx => by
    rcases x.line_cases W with ⟨h, _⟩ | ⟨_, hu⟩
    · exact absurd h hx
    · exact ⟨[], by rw [List.nil_append, printEach, hu], rfl⟩
  | y :: xs, x, ys, h, hx => by
    obtain ⟨ls, h1, h2⟩ := printEach_stop (ys := ys) (fun y hy => h y (.tail _ hy)) hx
    rcases y.line_cases W with ⟨_, u, hu⟩ | ⟨hy, _⟩
    · exact ⟨u :: ls, by rw [List.cons_append, printEach, hu, h1], by rw [List.map_cons, List.map_cons, hu, h2]⟩
    · exact absurd (h y (.head _)) hy

/-- If only terms (literals, comparisons) and actions are negated in rules and contexts, everything is listed,
each on a line of its own. -/
theorem C92_all_partial {w : World} {a : Nat} {bs rs : List (String × Nat)} (h : ∀ x ∈ w.listed a bs rs, x.Printable) :
    ∃ ls, w.dump W a bs rs = (ls, .ok ()) ∧ (w.listed a bs rs).map (·.line W) = ls.map .ok :=
  printEach_all W h

/-- Otherwise there is an exception, after the lines for what comes before. -/
theorem C92_stop {w : World} {a : Nat} {bs rs : List (String × Nat)} {xs ys : List Listed} {x : Listed}
    (e : w.listed a bs rs = xs ++ x :: ys) (h : ∀ x ∈ xs, x.Printable) (hx : ¬ x.Printable) :
    ∃ ls, w.dump W a bs rs = (ls, .err (.py "AttributeError")) ∧ xs.map (·.line W) = ls.map .ok := by
  rw [World.dump, e]
  exact printEach_stop W h hx

/-- There is no exception exactly if only terms (literals, comparisons) and actions are negated. -/
theorem C92_iff {w : World} {a : Nat} {bs rs : List (String × Nat)} :
    (w.dump W a bs rs).2 = .ok () ↔ ∀ x ∈ w.listed a bs rs, x.Printable := by
  constructor
  · intro h
    rw [World.dump] at h
    generalize w.listed a bs rs = xs at h ⊢
    induction xs with
    | nil => intro x hx; cases hx
    | cons y ys ih =>
      rcases y.line_cases W with ⟨hy, u, hu⟩ | ⟨_, hu⟩
      · rw [printEach, hu] at h
        intro x hx
        cases hx with
        | head => exact hy
        | tail _ hx => exact ih h x hx
      · rw [printEach, hu] at h
        cases h
  · intro h
    obtain ⟨ls, h, _⟩ := C92_all_partial W h
    rw [h]

end

/-- What is listed: all beliefs, rules, plans and intentions of the agent, and nothing else. -/
theorem C92_listed (w : World) (a : Nat) (bs rs : List (String × Nat)) :
    (∀ t, .belief t ∈ w.listed a bs rs ↔ ∃ k ∈ bs, ∃ n, (w.ags a).beliefs k = some n ∧ t ∈ w.sets n) ∧
    (∀ r, .rule r ∈ w.listed a bs rs ↔ ∃ k ∈ rs, r ∈ (w.ags a).rules k) ∧
    (∀ p, .plan p ∈ w.listed a bs rs ↔ ∃ k n, (k, n) ∈ (w.ags a).plans ∧ p ∈ w.plists n) ∧
    (∀ i j, .intention i j ∈ w.listed a bs rs ↔ ∃ s, (w.ags a).intentions[i]? = some s ∧ j < s.length) := by
  refine ⟨fun t => ?_, fun r => ?_, fun p => ?_, fun i j => ?_⟩
  · simp only [World.listed, List.mem_append, List.mem_map, List.mem_flatMap, List.mem_range, Listed.belief.injEq, exists_eq_right, reduceCtorEq, and_false, exists_false, or_false]
    constructor
    · rintro ⟨k, hk, h⟩
      cases e : (w.ags a).beliefs k with
      | none => rw [e] at h; cases h
      | some n => rw [e] at h; exact ⟨k, hk, n, e, h⟩
    · rintro ⟨k, hk, n, e, h⟩
      exact ⟨k, hk, by rw [e]; exact h⟩
  · simp [World.listed]
  · simp [World.listed, World.allPlans]
  · simp only [World.listed, List.mem_append, List.mem_map, List.mem_flatMap, List.mem_range, reduceCtorEq, and_false, exists_false, false_or, or_false, Listed.intention.injEq, Prod.exists, List.mem_zipIdx_iff_getElem?]
    constructor
    · rintro ⟨s, k, h, j', hj, rfl, rfl⟩
      exact ⟨s, h, hj⟩
    · rintro ⟨s, h, hj⟩
      exact ⟨s, i, h, j, hj, rfl, rfl⟩

/-- Beliefs come first, then rules, plans, and intentions. -/
def Listed.rank : Listed → Nat
  | .belief _ => 0
  | .rule _ => 1
  | .plan _ => 2
  | .intention _ _ => 3

theorem rank_append {xs ys : List Listed} {n : Nat} (hx : ∀ x ∈ xs, x.rank ≤ n) (hy : ∀ y ∈ ys, n < y.rank)
    (px : xs.Pairwise (·.rank ≤ ·.rank)) (py : ys.Pairwise (·.rank ≤ ·.rank)) : (xs ++ ys).Pairwise (·.rank ≤ ·.rank) :=
  List.pairwise_append.2 ⟨px, py, fun x h y h' => Nat.le_trans (hx x h) (Nat.le_of_lt (hy y h'))⟩

theorem rank_same {xs : List Listed} {n : Nat} (h : ∀ x ∈ xs, x.rank = n) : xs.Pairwise (·.rank ≤ ·.rank) :=
  List.Pairwise.imp_of_mem (R := fun _ _ => True) (fun hx hy _ => by rw [h _ hx, h _ hy]; exact Nat.le_refl _) (List.pairwise_of_forall fun _ _ => trivial)

/-- The order of the listing. -/
theorem C92_order (w : World) (a : Nat) (bs rs : List (String × Nat)) : (w.listed a bs rs).Pairwise (·.rank ≤ ·.rank) := by
  have hm {α : Type} (f : α → Listed) (n : Nat) (h : ∀ x, (f x).rank = n) (l : List α) : ∀ x ∈ l.map f, x.rank = n :=
    List.forall_mem_map.2 fun x _ => h x
  have hb := hm .belief 0 (fun _ => rfl) (bs.flatMap fun k => (((w.ags a).beliefs k).map w.sets).getD [])
  have hr := hm .rule 1 (fun _ => rfl) (rs.flatMap (w.ags a).rules)
  have hp := hm .plan 2 (fun _ => rfl) (w.allPlans a)
  have hi : ∀ x ∈ (w.ags a).intentions.zipIdx.flatMap (fun s => (List.range s.1.length).map fun j => Listed.intention s.2 j), x.rank = 3 := by
    intro x hx
    obtain ⟨s, _, hx⟩ := List.mem_flatMap.1 hx
    exact hm (Listed.intention s.2) 3 (fun _ => rfl) _ x hx
  refine rank_append (n := 2) ?_ (fun x h => by rw [hi x h]; decide) (rank_append (n := 1) ?_ (fun x h => by rw [hp x h]; decide)
    (rank_append (n := 0) (fun x h => by rw [hb x h]; decide) (fun x h => by rw [hr x h]; decide) (rank_same hb) (rank_same hr)) (rank_same hp)) (rank_same hi)
  · intro x h
    rcases List.mem_append.1 h with h | h
    · rcases List.mem_append.1 h with h | h
      · rw [hb x h]; decide
      · rw [hr x h]; decide
    · rw [hp x h]; decide
  · intro x h
    rcases List.mem_append.1 h with h | h
    · rw [hb x h]; decide
    · rw [hr x h]; decide

/-- Nothing is listed twice: the number of lines. -/
theorem C92_count (w : World) (a : Nat) (bs rs : List (String × Nat)) :
    (w.listed a bs rs).length = (bs.map fun k => (w.beliefs a k).length).sum + (rs.map fun k => ((w.ags a).rules k).length).sum +
      ((w.ags a).plans.map fun x => (w.plists x.2).length).sum + ((w.ags a).intentions.map List.length).sum := by
  have e : ((w.ags a).intentions.zipIdx.map fun s => s.1.length) = (w.ags a).intentions.map List.length := by
    have h : ((w.ags a).intentions.zipIdx.map Prod.fst).map List.length = (w.ags a).intentions.map List.length := by rw [List.zipIdx_map_fst]
    rw [← h, List.map_map]; rfl
  have f : ∀ k, (((w.ags a).beliefs k).map w.sets).getD [] = w.beliefs a k := fun k => by
    unfold World.beliefs; cases (w.ags a).beliefs k <;> rfl
  simp [World.listed, World.allPlans, e, f, Nat.add_assoc]

/-- The four kinds of lines; `c` is the text of the query. -/
theorem C92_texts [Floats] (W : Wording) (t : Term) (r : Rule Act) (p : Plan) (i j : Nat) (c : List Char) :
    Listed.line W (.belief t) = .ok (t.show W) ∧
    (r.query.show W = .ok c → Listed.line W (.rule r) = .ok (r.head.pyStr W ++ " :- ".toList ++ c)) ∧
    (p.context.show W = .ok c → Listed.line W (.plan p) =
      .ok ("* ".toList ++ p.trigger.lexeme ++ p.goalType.lexeme ++ p.head.pyStr W ++ " : ".toList ++ c ++ " <- ... .".toList)) ∧
    Listed.line W (.intention i j) =
      .ok ((toString i).toList ++ ' ' :: ((toString j).toList ++ ' ' :: W.default "Intention")) := by
  refine ⟨rfl, fun h => ?_, fun h => ?_, ?_⟩
  · rw [Listed.line, Rule.show, h]; rfl
  · rw [Listed.line, Plan.line, h]; rfl
  · rw [Listed.line, List.append_assoc, List.cons_append]

/-! ### Examples -/

section examples
attribute [local instance] exactHost asciiText toyFloats

private def w0 : Wording where
  digest _ := "0a0".toList
  addr v := List.replicate (v + 1) 'f'
  object := ['0']
  float _ := []
  tuple _ := []

/-- `p(b). p(c)[d]. q(X) :- p(X) & not r(X). !main. +!main : not r(b) <- +done. -?t(X) : p(X) | q(X).` -/
def listing : AgentSrc where
  beliefs := [.lit "p" [.atom "b"] [], .lit "p" [.atom "c"] [.atom "d"]]
  rules := [⟨.lit "q" [.var 0] [], .and pX (.not (.term (.lit "r" [.var 0] [])))⟩]
  plans := [{ simplePlan "main" [.add (goalNamed "done")] with context := .not (.term (.lit "r" [.atom "b"] [])) },
    { trigger := .removal, goalType := .test, head := .lit "t" [.var 0] [], context := .or pX (.term (.lit "q" [.var 0] [])) }]
  goals := [goalNamed "main"]

/-- `p. !main. +!main <- +done. +!t : not (p & q).` -/
def unlisted : AgentSrc where
  beliefs := [goalNamed "p"]
  plans := [simplePlan "main" [.add (goalNamed "done")],
    { simplePlan "t" [] with context := .not (.and (.term (goalNamed "p")) (.term (goalNamed "q"))) }]
  goals := [goalNamed "main"]

/-- C92: the whole output. -/
example : ∃ s, started (fun _ => 0) listing = some s ∧ (s.w.dump w0 0 [("p", 1)] [("q", 1)]).2 = .ok () ∧
    (s.w.dump w0 0 [("p", 1)] [("q", 1)]).1.map String.ofList =
      ["p(b)", "p(c)[d]", "q(_X_0a0_f) :- (p(_X_0a0_f) & not r(_X_0a0_f))", "* +!main : not r(b) <- ... .",
        "* -?t(_X_0a0_f) : (p(_X_0a0_f) | q(_X_0a0_f)) <- ... .", "0 0 <agentspeak.runtime.Intention object at 0x0>"] :=
  ⟨_, rfl, rfl, by decide +kernel⟩

/-- C92 is false without the condition: the negation of a conjunction is a valid context, and the
listing ends before the plan. -/
theorem C92_false : ∃ s, Reachable s ∧ ∃ p ∈ s.w.allPlans 0, p.head = goalNamed "t" ∧
    (s.w.dump w0 0 [("p", 0)] []).2 = .err (.py "AttributeError") ∧
    (s.w.dump w0 0 [("p", 0)] []).1.map String.ofList = ["p", "* +!main : <agentspeak.runtime.TrueQuery object at 0x0> <- ... ."] := by
  have h : ∃ s p q r, started (fun _ => 0) unlisted = some s ∧ s.w.allPlans 0 = q :: p :: r ∧ p.head = goalNamed "t" ∧
      (s.w.dump w0 0 [("p", 0)] []).2 = .err (.py "AttributeError") ∧
      (s.w.dump w0 0 [("p", 0)] []).1.map String.ofList = ["p", "* +!main : <agentspeak.runtime.TrueQuery object at 0x0> <- ... ."] :=
    ⟨_, _, _, _, rfl, rfl, rfl, rfl, by decide +kernel⟩
  obtain ⟨s, p, q, r, h0, h1, h2, h3, h4⟩ := h
  exact ⟨s, started_reachable h0, p, by rw [h1]; exact .tail _ (.head _), h2, h3, h4⟩

end examples

end Verif
