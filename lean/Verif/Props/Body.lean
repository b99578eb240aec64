import Verif.Lemmas.RunInv
import Verif.Props.Step

/-!
# C29, C30: plan bodies

`Stmt.sem` (in `Spec/Body`) gives the meaning of a structured plan body, as a set of traces;
`Path` is how the instruction graph is run; `History` (in `Spec/Run`) lists the instructions
that an intention runs in a system with many agents and intentions.
-/

namespace Verif

/-- **C29.** The instructions built for a plan body have exactly the traces of the structured
source: the same complete runs, the same failing runs and the same unfinished runs.  They stay
a program with these traces when further plans are compiled. -/
theorem C29_compile (body : List Stmt) (c c' : Code) (h : ∀ i, c.size ≤ i → i < (compileBody body c).size → c'.instr i = (compileBody body c).instr i) :
    Implements c' (some c.size) (bodyLang body) :=
  (compileBody_region h).implements

/-- **C29.** Compiling a plan body does not touch the instructions that are there. -/
theorem C29_compile_old (body : List Stmt) (c : Code) {i : Nat} (hi : i < c.size) :
    c.size < (compileBody body c).size ∧ (compileBody body c).instr i = c.instr i :=
  ⟨compileBody_size body c, compileBody_old body c hi⟩

theorem Path.unique {c : Code} {l : Option Nat} {tr : Trace} {z z' : Stop} (h : Path c l tr z) (h' : Path c l tr z') : z = z' := by
  induction h generalizing z' with
  | here => cases h'; rfl
  | yes _ ih => cases h' with | yes h' => exact ih h'
  | no _ h2 _ ih =>
    cases h' with
    | no _ h3 h4 => rw [h2] at h3; cases h3; exact ih h4
    | fail _ h3 => rw [h2] at h3; cases h3
  | fail _ h2 =>
    cases h' with
    | no _ h3 h4 => rw [h2] at h3; cases h3
    | fail => rfl

/-- **C29.** The answers of the instructions determine whether the run is complete, failed or
unfinished. -/
theorem C29_deterministic {body : List Stmt} {tr : Trace} {o o' : Outcome} (h : bodyLang body tr o) (h' : bodyLang body tr o') : o = o' := by
  obtain ⟨c, l, hi⟩ : ∃ c l, Implements c l (bodyLang body) :=
    ⟨_, _, C29_compile body ⟨fun _ => ⟨.noop, none, none⟩, 0⟩ _ fun _ _ _ => rfl⟩
  have key : ∀ o, bodyLang body tr o → ∃ z, Path c l tr z ∧ (o = .done ↔ z = .at none) ∧ (o = .failed ↔ z = .failed) := by
    intro o h
    cases o with
    | done => exact ⟨_, (hi.done tr).2 h, by simp, by simp⟩
    | failed => exact ⟨_, (hi.failed tr).2 h, by simp, by simp⟩
    | part =>
      obtain ⟨pc, hp⟩ := (hi.part tr).2 h
      exact ⟨_, hp, by simp, by simp⟩
  obtain ⟨z, h1, h2, h3⟩ := key o h
  obtain ⟨z', h1', h2', h3'⟩ := key o' h'
  cases h1.unique h1'
  cases o <;> cases o' <;> simp_all

section
variable [Host]

/-- **C29.** In all reachable states, every plan of every agent stems from a source plan (with
its variables renamed), and its instructions are a program with exactly the traces of the
source. -/
theorem C29_plan {s : QSt World} (hr : Reachable s) {r : Nat} {p : Plan} (hp : p ∈ s.w.plists r) :
    ∃ (src : PlanSrc) (k : Nat), p.trigger = src.trigger ∧ p.goalType = src.goalType ∧ p.head = src.head.rename (k + ·) ∧ p.context = src.context.rename (k + ·) ∧
      Implements s.w.code (some p.body) (bodyLang (Stmt.renameL (k + ·) src.body)) := by
  obtain ⟨src, k, c₀, h⟩ := hr.codeOK.plans r p hp
  refine ⟨src, k, ?_⟩
  have hi := h.region.implements
  rw [h.plan] at hi ⊢
  exact ⟨rfl, rfl, rfl, rfl, hi⟩

/-- **C29.** An intention that starts a plan runs, whatever happens in between, the instructions
that the structured source prescribes: as long as it has a next instruction, its history is an
unfinished run of the source; when it has none, the history is a complete or a failing run.
(Instructions that raise an exception are not in the history; they are tried again.) -/
theorem C29_run {s s' : QSt World} {i : Nat} {tr : Trace} {p : Plan} {src : PlanSrc} {k : Nat} {c₀ : Code} (hr : Reachable s)
    (hp : BuiltFrom s.w.code p src k c₀) (hi : i < s.w.nint) (h0 : (s.w.ints i).instr = some p.body) (h : History i s tr s') :
    ((∃ pc, (s'.w.ints i).instr = some pc) ∧ bodyLang (Stmt.renameL (k + ·) src.body) tr .part) ∨
    (s'.w.ints i).instr = none ∧
      (bodyLang (Stmt.renameL (k + ·) src.body) tr .done ∨ bodyLang (Stmt.renameL (k + ·) src.body) tr .failed) := by
  have hb : p.body = c₀.size := by rw [hp.plan]
  rw [hb] at h0
  have hI := C29_compile (Stmt.renameL (k + ·) src.body) c₀ _ fun _ _ _ => rfl
  obtain ⟨_, _, _, h1 | ⟨h1, h2⟩⟩ := h.path hr.stacksOK hi hp.ext h0
  · cases hx : (s'.w.ints i).instr with
    | none => rw [hx] at h1; exact .inr ⟨rfl, .inl ((hI.done tr).1 h1)⟩
    | some pc => rw [hx] at h1; exact .inl ⟨⟨pc, rfl⟩, (hI.part tr).1 ⟨pc, h1⟩⟩
  · exact .inr ⟨h2, .inr ((hI.failed tr).1 h1)⟩

/-- **C29.** Every run of the system gives a history for every intention: the previous theorem
is about all runs. -/
theorem C29_history {s s' : QSt World} (h : Steps s s') (i : Nat) : ∃ tr, History i s tr s' := h.history i

/-- **C30.** Popping never underflows: in all reachable states, an intention whose next
instruction needs a query or a choicepoint has one. -/
theorem C30_no_underflow {s : QSt World} (hr : Reachable s) {i pc : Nat} (hi : (s.w.ints i).instr = some pc) :
    ((s.w.code.instr pc).f = .nextOrFail → (s.w.ints i).queries ≠ []) ∧
    ((s.w.code.instr pc).f = .popQuery → (s.w.ints i).queries ≠ []) ∧
    ((s.w.code.instr pc).f = .popChoicepoint → (s.w.ints i).cps ≠ []) := by
  obtain ⟨body, c₀, tr, h1, h2, h3, h4, h5, h6⟩ := (hr.codeOK.ints i id).at hi
  rw [h6]
  have hp := Path.snoc_yes h2
  have hI := C29_compile body c₀ _ fun _ _ _ => rfl
  have hL : ∃ o, bodyLang body (tr ++ [(((compileBody body c₀).instr pc).f, true)]) o := by
    cases hx : ((compileBody body c₀).instr pc).success with
    | none => rw [hx] at hp; exact ⟨_, (hI.done _).1 hp⟩
    | some pc' => rw [hx] at hp; exact ⟨_, (hI.part _).1 ⟨pc', hp⟩⟩
  obtain ⟨o, hL⟩ := hL
  obtain ⟨r, h7, _⟩ := bodyLang_takes body _ _ hL
  rw [Trace.stacks_append, h3] at h7
  change ((((compileBody body c₀).instr pc).f.stacks _).bind _) = _ at h7
  refine ⟨fun hf hq => ?_, fun hf hq => ?_, fun hf hq => ?_⟩ <;>
  · rw [hf, hq] at h7
    simp [InstrF.stacks] at h7

/-- **C30.** When control leaves a statement normally, the query stack and the choicepoint stack
have exactly the contents they had on entry, whatever other intentions did in between. -/
theorem C30_balanced {s s₁ s₂ : QSt World} {i a : Nat} {tr : Trace} {f : InstrF} {ok : Bool} {x : Stmt} (hr : Reachable s) (hi : i < s.w.nint)
    (h : History i s tr s₁) (h' : Runs a i f ok s₁ s₂) (hx : x.sem (tr ++ [(f, ok)]) .done) :
    (s₂.w.ints i).queries = (s.w.ints i).queries ∧ (s₂.w.ints i).cps = (s.w.ints i).cps := by
  have := (sem_balanced (sem_takes x 0 0) hx (h.runs_moves hr hi h')).2 rfl
  simpa [Intention.contents] using this

/-- **C30.** While a statement is being executed, the stacks have at the bottom the contents they
had on entry. -/
theorem C30_below {s s₁ s₂ : QSt World} {i a : Nat} {tr : Trace} {f : InstrF} {ok : Bool} {x : Stmt} {o : Outcome} (hr : Reachable s)
    (hi : i < s.w.nint) (h : History i s tr s₁) (h' : Runs a i f ok s₁ s₂) (hx : x.sem (tr ++ [(f, ok)]) o) :
    ∃ qs cs, (s₂.w.ints i).queries = qs ++ (s.w.ints i).queries ∧ (s₂.w.ints i).cps = cs ++ (s.w.ints i).cps := by
  obtain ⟨⟨qs, cs⟩, h1⟩ := (sem_balanced (sem_takes x 0 0) hx (h.runs_moves hr hi h')).1
  simp only [Intention.contents, Prod.mk.injEq] at h1
  exact ⟨qs, cs, h1⟩

end

/-! ### Examples -/

section examples
attribute [local instance] exactHost

/-- `p(X)` as a query, `f(X)` as a term. -/
def pX : Query Act := .term (.lit "p" [.var 0] [])
def fX (f : String) : Term := .lit f [.var 0] []

/-- `p(1). p(2). !main.
+!main <- for (p(X)) { +q(X) }; while (p(X)) { -p(X) }; if (r) { +yes } else { +no }.` -/
def loops : AgentSrc where
  beliefs := [.lit "p" [.num 1] [], .lit "p" [.num 2] []]
  plans := [simplePlan "main" [.forall_ pX [.add (fX "q")], .while_ pX [.remove (fX "p")],
    .ite (.term (goalNamed "r")) (some [.add (goalNamed "yes")]) (some [.add (goalNamed "no")])]]
  goals := [goalNamed "main"]

/-- C29: intention 5 runs the whole plan. -/
example : ∃ s s' tr p src k c₀, Reachable s ∧ BuiltFrom s.w.code p src k c₀ ∧ 5 < s.w.nint ∧ (s.w.ints 5).instr = some p.body ∧
    History 5 s tr s' ∧ tr.map (·.2) = [true, true, true, true, true, true, false, true, true, true, true, true, true, true, true, true,
      true, true, true, true, true, true, false, true, true, true, false, true, true, true] ∧ (s'.w.ints 5).instr = none := by
  have h : ∃ s s' tr p rest, started (fun _ => 0) loops = some s ∧ s.w.plists 0 = p :: rest ∧ 5 < s.w.nint ∧
      (s.w.ints 5).instr = some p.body ∧ historyOf 20 0 5 31 s = some (tr, s') ∧
      tr.map (·.2) = [true, true, true, true, true, true, false, true, true, true, true, true, true, true, true, true,
      true, true, true, true, true, true, false, true, true, true, false, true, true, true] ∧ (s'.w.ints 5).instr = none :=
    ⟨_, _, _, _, _, rfl, rfl, by decide, rfl, rfl, rfl, rfl⟩
  obtain ⟨s, s', tr, p, rest, h0, h1, h2, h3, h4, h5, h6⟩ := h
  have hr := started_reachable h0
  obtain ⟨src, k, c₀, hb⟩ := hr.codeOK.plans 0 p (by rw [h1]; exact List.mem_cons_self)
  exact ⟨s, s', tr, p, src, k, c₀, hr, hb, h2, h3, historyOf_history h4, h5, h6⟩

/-- C30: the last instruction of the `for` statement. -/
example : ∃ s s₁ s₂ tr f ok x, Reachable s ∧ 5 < s.w.nint ∧ History 5 s tr s₁ ∧ Runs 0 5 f ok s₁ s₂ ∧ tr.length = 6 ∧
    Stmt.sem x (tr ++ [(f, ok)]) .done ∧ (s₁.w.ints 5).queries.length = 1 ∧ (s₂.w.ints 5).queries = [] := by
  have h : ∃ s₀ s s₁ s₂ tr f ok t, started (fun _ => 0) loops = some s₀ ∧ stepsOf 20 0 1 s₀ = some s ∧ 5 < s.w.nint ∧
      historyOf 20 0 5 6 s = some (tr, s₁) ∧ stepTrace 20 0 5 s₁ = [(f, ok)] ∧ step 20 0 s₁ = .ok t s₂ ∧ tr.length = 6 ∧
      (∃ q b, tr ++ [(f, ok)] = [(.pushQuery q, true), (.nextOrFail, true), (.addBelief b, true), (.nextOrFail, true), (.addBelief b, true),
        (.nextOrFail, false), (.popQuery, true)]) ∧ (s₁.w.ints 5).queries.length = 1 ∧ (s₂.w.ints 5).queries = [] :=
    ⟨_, _, _, _, _, _, _, _, rfl, rfl, by decide, rfl, rfl, rfl, rfl, ⟨_, _, rfl⟩, rfl, rfl⟩
  obtain ⟨s₀, s, s₁, s₂, tr, f, ok, t, h0, h1, h2, h3, h4, h5, h6, ⟨q, b, h7⟩, h8, h9⟩ := h
  refine ⟨s, s₁, s₂, tr, f, ok, .forall_ q [.add b], (started_reachable h0).steps (stepsOf_steps h1), h2, historyOf_history h3,
    stepTrace_runs (.inl ⟨_, h5⟩) h4, h6, ?_, h8, h9⟩
  rw [h7, Stmt.sem]
  have hb : Stmt.semL [.add b] [(.addBelief b, true)] .done := by
    rw [Stmt.semL, Stmt.semL, Stmt.sem]
    exact Lang.seq.both (tr := [_]) (tr' := []) .done ⟨rfl, rfl⟩
  exact Lang.seq.both (tr := [_]) .done (.again (tr := []) ⟨rfl, rfl⟩ hb (.again (tr := []) ⟨rfl, rfl⟩ hb (.leave (tr := []) ⟨rfl, rfl⟩ .done)))

end examples

end Verif
