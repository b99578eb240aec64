import Verif.Props.Body
import Verif.Props.Query

/-!
# C51: `for` loops

A `for` loop asks the generator of its query for the next answer before every round
(`C29`: the trace of the loop alternates `nextOrFail` and the body).  So the body is a
consumer of the generator, in the sense of `Drain` (`C78_for`).  `TermQuery.execute` iterates over the
*live* set of beliefs.
-/

namespace Verif

section
variable {W A G : Type} [Arith] [QWorld W A G]

/-- **C51**, the part that holds: a loop over `p(…)`, a predicate without rules, has one round for
every belief that matched when the loop was entered, in that order and with the bindings of
that belief, if the body leaves the beliefs about this predicate alone (it may change others)
and only makes trailed bindings, which are undone before the next round.  Missing: bodies
that change the beliefs about the predicate (the property fails, see
`C51_size_change_raises`), queries that are not a single predicate without rules (see
`C51_bindings_leak`). -/
theorem C51_for_partial {f : String} {as xs : List Term} {s s' : QSt W} {l : List (QSt W)}
    (hbel : ∀ x ∈ QWorld.beliefs (A := A) (G := G) s.w (f, as.length), x.isLiteral = true)
    (hr : QWorld.rules s.w (f, as.length) = ([] : List (Rule A)))
    (h : Drain (fun s s' => QWorld.rules s'.w (f, as.length) = (QWorld.rules s.w (f, as.length) : List (Rule A)) ∧
        QWorld.beliefs (A := A) (G := G) s'.w (f, as.length) = QWorld.beliefs (A := A) (G := G) s.w (f, as.length) ∧ Above s.b s'.b)
      (.start (.term (.lit f as xs)) : Gen A G) s l s') :
    OnePerMatch (.lit f as xs) s.b (QWorld.beliefs (A := A) (G := G) s.w (f, as.length)) l ∧
      s'.b.scope = s.b.scope ∧ s'.b.stack = s.b.stack := by
  obtain ⟨_, h2, h3⟩ := bel_drain_start (I := Steady (A := A) (G := G) (f, as.length) (QWorld.beliefs (A := A) (G := G) s.w (f, as.length)).length)
    (fun w hw => hw) (fun s₁ s₂ h hs => ⟨⟨h.1.trans hs.1, (congrArg List.length h.2.1).trans hs.2⟩, h.2.2⟩) hbel ⟨hr, rfl⟩ h
  exact ⟨h3, h2.scope, h2.stack⟩

/-- **C51 fails whenever** a body changes the number of beliefs about the predicate: in whatever round
that is, asking for the next answer raises `RuntimeError`, even if all beliefs have been visited. -/
theorem C51_size_change_raises {f : String} {as xs : List Term} {m : Nat} {s s₁ s₂ : QSt W} {g : Gen A G}
    (hr : QWorld.rules s.w (f, as.length) = ([] : List (Rule A)))
    (h : Rounds (fun s s' => QWorld.rules s'.w (f, as.length) = (QWorld.rules s.w (f, as.length) : List (Rule A)))
      (.start (.term (.lit f as xs)) : Gen A G) s g s₁)
    (hs : (QWorld.beliefs (A := A) (G := G) s₂.w (f, as.length)).length ≠ (QWorld.beliefs (A := A) (G := G) s.w (f, as.length)).length) :
    ∃ s₃, gnext (m + 2) g s₂ = .err (.py "RuntimeError") s₃ := by
  obtain ⟨c, rest, rfl⟩ := bel_start_rounds (fun _ _ h => h) hr h
  exact ⟨{ s₂ with b := uaResume c s₂.b }, by simp [gnext, gstep, hs]⟩

end

section examples
attribute [local instance] exactHost

/-- `p(1). p(2). !main.   +!main <- for (p(X)) { -p(X) }; +done.` -/
def drains : AgentSrc where
  beliefs := [.lit "p" [.num 1] [], .lit "p" [.num 2] []]
  plans := [simplePlan "main" [.forall_ pX [.remove (fX "p")], .add (goalNamed "done")]]
  goals := [goalNamed "main"]

/-- **C51 is false of the code**: `for (p(X)) { -p(X) }` has two answers on entry, but after one
round the step of the agent raises, `p(2)` is never visited.  If the system goes on
running, the broken generator counts as exhausted and the plan continues after the loop. -/
theorem C51_for_false : ∃ s s₁ s₂ s₃ q x y, Reachable s ∧
    s.w.beliefs 0 ("p", 1) = [.lit "p" [.num 1] [], .lit "p" [.num 2] []] ∧
    History 5 s [(.noop, true), (.pushQuery q, true), (.nextOrFail, true), (.removeBelief x, true)] s₁ ∧
    s₁.w.beliefs 0 ("p", 1) = [.lit "p" [.num 2] []] ∧
    step 20 0 s₁ = .err (.py "AggregatedError") s₂ ∧
    History 5 s₂ [(.nextOrFail, false), (.popQuery, true), (.addBelief y, true)] s₃ ∧
    s₃.w.beliefs 0 ("p", 1) = [.lit "p" [.num 2] []] ∧ s₃.w.beliefs 0 ("done", 0) = [goalNamed "done"] := by
  have h : ∃ s s₁ s₂ s₃ q x y, started (fun _ => 0) drains = some s ∧
      s.w.beliefs 0 ("p", 1) = [.lit "p" [.num 1] [], .lit "p" [.num 2] []] ∧
      historyOf 20 0 5 4 s = some ([(.noop, true), (.pushQuery q, true), (.nextOrFail, true), (.removeBelief x, true)], s₁) ∧
      s₁.w.beliefs 0 ("p", 1) = [.lit "p" [.num 2] []] ∧
      step 20 0 s₁ = .err (.py "AggregatedError") s₂ ∧
      historyOf 20 0 5 3 s₂ = some ([(.nextOrFail, false), (.popQuery, true), (.addBelief y, true)], s₃) ∧
      s₃.w.beliefs 0 ("p", 1) = [.lit "p" [.num 2] []] ∧ s₃.w.beliefs 0 ("done", 0) = [goalNamed "done"] :=
    ⟨_, _, _, _, _, _, _, rfl, rfl, rfl, rfl, rfl, rfl, rfl, rfl⟩
  obtain ⟨s, s₁, s₂, s₃, q, x, y, h0, h1, h2, h3, h4, h5, h6⟩ := h
  exact ⟨s, s₁, s₂, s₃, q, x, y, started_reachable h0, h1, historyOf_history h2, h3, h4, historyOf_history h5, h6⟩

/-- `p(1). p(2). !main.   +!main <- for (true | p(X)) { X = 1; +q(X) }; +done.` -/
def leaks : AgentSrc where
  beliefs := [.lit "p" [.num 1] [], .lit "p" [.num 2] []]
  plans := [simplePlan "main" [.forall_ (.or .tru pX) [.query (.unify (.var 0) (.num 1)), .add (fX "q")], .add (goalNamed "done")]]
  goals := [goalNamed "main"]

/-- **C51 is false of the code** even if the body leaves the beliefs of the query alone:
`true | p(X)` has three answers on entry, but `true` does not undo the binding `X = 1` made by
the first round, so `p(2)` does not match any more and there are two rounds. -/
theorem C51_bindings_leak : ∃ s s₁ q q' x y, Reachable s ∧
    s.w.beliefs 0 ("p", 1) = [.lit "p" [.num 1] [], .lit "p" [.num 2] []] ∧
    s₁.w.beliefs 0 ("p", 1) = [.lit "p" [.num 1] [], .lit "p" [.num 2] []] ∧
    History 5 s ([(.noop, true), (.pushQuery q, true)] ++
      [(.nextOrFail, true), (.pushQuery q', true), (.nextOrFail, true), (.popQuery, true), (.addBelief x, true)] ++
      [(.nextOrFail, true), (.pushQuery q', true), (.nextOrFail, true), (.popQuery, true), (.addBelief x, true)] ++
      [(.nextOrFail, false), (.popQuery, true), (.addBelief y, true)]) s₁ := by
  have h : ∃ s s₁ q q' x y, started (fun _ => 0) leaks = some s ∧
      s.w.beliefs 0 ("p", 1) = [.lit "p" [.num 1] [], .lit "p" [.num 2] []] ∧
      s₁.w.beliefs 0 ("p", 1) = [.lit "p" [.num 1] [], .lit "p" [.num 2] []] ∧
      historyOf 20 0 5 16 s = some ([(.noop, true), (.pushQuery q, true)] ++
      [(.nextOrFail, true), (.pushQuery q', true), (.nextOrFail, true), (.popQuery, true), (.addBelief x, true)] ++
      [(.nextOrFail, true), (.pushQuery q', true), (.nextOrFail, true), (.popQuery, true), (.addBelief x, true)] ++
      [(.nextOrFail, false), (.popQuery, true), (.addBelief y, true)], s₁) :=
    ⟨_, _, _, _, _, _, rfl, rfl, rfl, rfl⟩
  obtain ⟨s, s₁, q, q', x, y, h0, h1, h2, h3⟩ := h
  exact ⟨s, s₁, q, q', x, y, started_reachable h0, h1, h2, historyOf_history h3⟩

/-- C51_for_partial: two rounds over `p(1)`, `p(2)`; the body adds `q(1)`, and binds a variable. -/
example : ∃ (s s' : QSt KB) (l : List (QSt KB)), QWorld.beliefs s.w ("p", 1) = [.lit "p" [.num 1] [], .lit "p" [.num 2] []] ∧
    Drain (fun s s' => QWorld.rules s'.w ("p", 1) = (QWorld.rules s.w ("p", 1) : List (Rule Empty)) ∧
        QWorld.beliefs s'.w ("p", 1) = QWorld.beliefs s.w ("p", 1) ∧ Above s.b s'.b)
      (.start (.term (fX "p")) : Gen Empty Empty) s l s' ∧ l.map (fun s => s.b.scope 0) = [some (.num 1), some (.num 2)] ∧
    QWorld.beliefs s'.w ("q", 1) = [.lit "q" [.num 1] []] := by
  refine ⟨⟨.init, 9, { bels := fun g => if g = ("p", 1) then [.lit "p" [.num 1] [], .lit "p" [.num 2] []] else [] }⟩, _, _, rfl,
    .next (n := 9) rfl
      (s₂ := ⟨⟨(Scope.empty.set 0 (.num 1)).set 1 (.num 7), [.v 1, .v 0, .cp 0], 1⟩, 9,
        { bels := fun g => if g = ("p", 1) then [.lit "p" [.num 1] [], .lit "p" [.num 2] []] else
            if g = ("q", 1) then [.lit "q" [.num 1] []] else [] }⟩)
      ⟨rfl, rfl, [.v 1], rfl, ?_, by simp, Nat.le_refl _⟩
    (.next (n := 9) rfl ⟨rfl, rfl, Above.refl _⟩ (.stop (n := 9) rfl)), rfl, rfl⟩
  show undo [.v 1] _ = Scope.empty.set 0 (.num 1)
  funext x
  simp only [undo, Scope.erase, Scope.set, Scope.empty]
  by_cases h : x = 1
  · simp [h]
  · simp [h]

/-- C51_size_change_raises: the hypotheses hold when `p(1)` has been removed by the body. -/
example : ∃ (s s₁ s₂ : QSt KB) (g : Gen Empty Empty), QWorld.rules s.w ("p", 1) = ([] : List (Rule Empty)) ∧
    Rounds (fun s s' => QWorld.rules s'.w ("p", 1) = (QWorld.rules s.w ("p", 1) : List (Rule Empty)))
      (.start (.term (fX "p")) : Gen Empty Empty) s g s₁ ∧
    (QWorld.beliefs s₂.w ("p", 1)).length ≠ (QWorld.beliefs s.w ("p", 1)).length :=
  ⟨⟨.init, 9, { bels := fun g => if g = ("p", 1) then [.lit "p" [.num 1] [], .lit "p" [.num 2] []] else [] }⟩, _,
    ⟨.init, 9, { bels := fun g => if g = ("p", 1) then [.lit "p" [.num 2] []] else [] }⟩, _, rfl, .one (n := 9) rfl, by decide⟩

end examples

end Verif
