import Verif.Lemmas.Assign
import Verif.Lemmas.ReplNames
import Verif.Props.Body
import Verif.Props.Repl

/-!
# C77: variables keep their values

In a plan body, and at the prompt.
-/

namespace Verif

section
variable [Host]

/-- A variable that has a value when a statement is entered has the same value when control
leaves the statement, and all the time in between, whatever the other intentions do: no query is
backtracked beyond the point where the statement was entered.

`_partial`: the queries of the statement must not contain `.unbind_all` or `literal = variable`
(`Keeping`), nor must the rules (`RulesKeep`); see `C77_literal_eq_variable`. -/
theorem C77_statement_partial {s s₁ s₂ : QSt World} {i a : Nat} {tr : Trace} {f : InstrF} {ok : Bool} {x : Stmt} {o : Outcome}
    (hr : Reachable s) (ho : RulesKeep s.w) (hi : i < s.w.nint) (hk : x.Keeping) (h : History i s tr s₁) (h' : Runs a i f ok s₁ s₂)
    (hx : x.sem (tr ++ [(f, ok)]) o) {v : Nat} {t : Term} (hv : (s.w.ints i).b.scope v = some t) : (s₂.w.ints i).b.scope v = some t := by
  exact (sem_holds x hk _ _ _ _ _ _ _ hx (h.runs_acts hr (hr.orderly ho) hi h') ⟨rfl, .refl _⟩).1.sub hv

/-- The same for a sequence of statements: what one statement binds, the following ones see. -/
theorem C77_statements_partial {s s₁ s₂ : QSt World} {i a : Nat} {tr : Trace} {f : InstrF} {ok : Bool} {xs : List Stmt} {o : Outcome}
    (hr : Reachable s) (ho : RulesKeep s.w) (hi : i < s.w.nint) (hk : Stmt.KeepingL xs) (h : History i s tr s₁) (h' : Runs a i f ok s₁ s₂)
    (hx : Stmt.semL xs (tr ++ [(f, ok)]) o) {v : Nat} {t : Term} (hv : (s.w.ints i).b.scope v = some t) :
    (s₂.w.ints i).b.scope v = some t :=
  (semL_holds xs hk _ _ _ _ _ _ _ hx (h.runs_acts hr (hr.orderly ho) hi h') ⟨rfl, .refl _⟩).1.sub hv

/-- What the head and the context of a plan bind keeps its value as long as the plan is executed, whatever
happens in between; also if an instruction raises and is tried again. -/
theorem C77_plan_partial {s s' : QSt World} {i : Nat} {tr : Trace} {p : Plan} {src : PlanSrc} {k : Nat} {c₀ : Code} (hr : Reachable s)
    (ho : RulesKeep s.w) (hp : BuiltFrom s.w.code p src k c₀) (hk : Stmt.KeepingL (Stmt.renameL (k + ·) src.body)) (hi : i < s.w.nint)
    (h0 : (s.w.ints i).instr = some p.body) (h : History i s tr s') {v : Nat} {t : Term} (hv : (s.w.ints i).b.scope v = some t) :
    (s'.w.ints i).b.scope v = some t := by
  have hH := fun tr o y hl ha => (bodyLang_holds hk (s.w.ints i).frame.1.1 (s.w.ints i).frame.1.2 (s.w.ints i).b tr o (s.w.ints i).frame y hl ha ⟨rfl, .refl _⟩).1
  obtain ⟨_, y, i2, i3⟩ := h.acts hr (hr.orderly ho) hi
  rcases i3 with i3 | ⟨pc, j1, j2, j3⟩
  · have : ∃ o, bodyLang (Stmt.renameL (k + ·) src.body) tr o := by
      rcases C29_run hr hp hi h0 h with ⟨_, h⟩ | ⟨_, h | h⟩ <;> exact ⟨_, h⟩
    obtain ⟨o, hl⟩ := this
    exact ((hH tr o y hl i2).trans i3.2).sub hv
  · have hb : p.body = c₀.size := by rw [hp.plan]
    rw [hb] at h0
    have hI := C29_compile (Stmt.renameL (k + ·) src.body) c₀ _ fun _ _ _ => rfl
    obtain ⟨_, _, he, h1 | ⟨_, h1⟩⟩ := h.path hr.stacksOK hi hp.ext h0
    · rw [j1] at h1
      obtain ⟨e1, e2⟩ := h1.inside (compileBody_links _ c₀) (fun pc' hp' => by
        injection hp' with hp'
        subst hp'
        exact ⟨Nat.le_refl _, compileBody_size _ c₀⟩) pc rfl
      rw [(hp.ext.trans he).old pc e2] at j2
      have h2 := Path.snoc_yes h1
      rw [j2] at h2
      have : ∃ o, bodyLang (Stmt.renameL (k + ·) src.body) (tr ++ [(.nextOrFail, true)]) o := by
        cases hs : ((compileBody (Stmt.renameL (k + ·) src.body) c₀).instr pc).success with
        | none => rw [hs] at h2; exact ⟨_, (hI.done _).1 h2⟩
        | some l => rw [hs] at h2; exact ⟨_, (hI.part _).1 ⟨l, h2⟩⟩
      obtain ⟨o, hl⟩ := this
      exact (hH _ o _ hl (Trace.acts_snoc i2 j3)).sub hv
    · rw [j1] at h1; cases h1

end

section
variable [Unicode] [Floats] [Host]

/-- At the prompt, a name stands for the same variable in all commands of a session, however they
end, and different names stand for different variables (`_` is never a variable). -/
theorem C77_prompt {acts : Lookup} {n m k a : Nat} {s₀ : QSt World} (hb : ∀ a, ∀ st ∈ (s₀.w.ags a).intentions, ∀ i ∈ st, i < s₀.w.nint)
    {ls ls' : List (List Char)} {pend : List Tok} {s₁ s₂ : ReplSt}
    (h : replSession n (replExec acts m k a) ls [] (replStart s₀) = .ok pend s₁) (h' : (replSession n (replExec acts m k a) ls' pend s₁).leaves s₂) :
    (∀ x v, s₁.names.lookup x = some v → s₂.names.lookup x = some v) ∧
    (∀ x, x ≠ ['_'] → ∀ v, s₁.names.lookup x = some v → ∃ y : Nat, v = .var y ∧ y < s₁.st.nv) ∧
    (∀ x v, s₁.names.lookup x = some (.var v) → ∀ y, s₂.names.lookup y = some (.var v) → x = y) ∧ s₂.int = s₁.int := by
  have hP : Prompt (replStart s₀) :=
    ⟨⟨fun v h => (by cases h), fun x v _ h => (by cases h), fun x y n h => (by cases h), Nat.zero_le _, .nil⟩,
      fun a st hst i hi => Nat.lt_succ_of_lt (hb a st hst i hi), Nat.lt_succ_self _⟩
  have hk : ∀ s : ReplSt, Prompt s → ∀ ls pend, (replSession n (replExec acts m k a) ls pend s).Keeps (Prompts s) := fun s hs ls pend =>
    replSession_keeps (P := Prompts s) (fun b s' h s'' h'' => h.trans (replExec_prompts h.ok s'' h'')) ls pend s ⟨hs, fun _ _ h => h, rfl⟩
  have h1 := (hk _ hP ls []).of_ok h
  have h2 : Prompts s₁ s₂ := hk _ h1.ok ls' pend s₂ h'
  exact ⟨h2.keep, fun x hx v hv => by
    obtain ⟨y, e, _, h⟩ := h1.ok.tab.var x v hx hv
    exact ⟨y, e, h⟩, fun x v hx y hy => h2.ok.tab.inj x y v (h2.keep _ _ hx) hy, h2.int⟩

end

/-! ### Examples -/

section examples
attribute [local instance] exactHost

/-- `p(b). !main. +!main : p(Y) <- for (a = X) { +c(X) }; +d.` -/
def resets : AgentSrc where
  beliefs := [.lit "p" [.atom "b"] []]
  plans := [{ simplePlan "main" [.forall_ (.unify (.atom "a") (.var 1)) [.add (.lit "c" [.var 1] [])], .add (goalNamed "d")] with
    context := pX }]
  goals := [goalNamed "main"]

/-- Not every plan keeps the values of its variables: the loop over `a = X` unbinds `Y`, because the query has
no choicepoint of its own (see C13). -/
theorem C77_literal_eq_variable : ∃ (s s' : QSt World) (tr : Trace) (p : Plan) (src : PlanSrc) (k : Nat) (c₀ : Code), Reachable s ∧ RulesKeep s.w ∧
    BuiltFrom s.w.code p src k c₀ ∧ 3 < s.w.nint ∧ (s.w.ints 3).instr = some p.body ∧ History 3 s tr s' ∧
    (s.w.ints 3).b.scope 0 = some (.atom "b") ∧ (s'.w.ints 3).b.scope 0 = none := by
  have h : ∃ s s' tr p rest, started (fun _ => 0) resets = some s ∧ s.w.plists 0 = p :: rest ∧ 3 < s.w.nint ∧
      (s.w.ints 3).instr = some p.body ∧ historyOf 20 0 3 6 s = some (tr, s') ∧ (s.w.ints 3).b.scope 0 = some (.atom "b") ∧
      (s'.w.ints 3).b.scope 0 = none ∧ ∀ a grp, (s.w.ags a).rules grp = [] :=
    ⟨_, _, _, _, _, rfl, rfl, by decide, rfl, rfl, rfl, rfl, fun a grp => match a with | 0 => rfl | _ + 1 => rfl⟩
  obtain ⟨s, s', tr, p, rest, h0, h1, h2, h3, h4, h5, h6, h7⟩ := h
  have hr := started_reachable h0
  obtain ⟨src, k, c₀, hb⟩ := hr.codeOK.plans 0 p (by rw [h1]; exact List.mem_cons_self)
  exact ⟨s, s', tr, p, src, k, c₀, hr, fun a grp r h => (by rw [h7] at h; cases h), hb, h2, h3, historyOf_history h4, h5, h6⟩

/-- `p(b). p(c). !main. +!main : p(Y) <- for (p(X)) { +q(X, Y) }; +r(Y).` -/
def keeps : AgentSrc where
  beliefs := [.lit "p" [.atom "b"] [], .lit "p" [.atom "c"] []]
  plans := [{ simplePlan "main" [.forall_ (.term (.lit "p" [.var 1] [])) [.add (.lit "q" [.var 1, .var 0] [])], .add (.lit "r" [.var 0] [])] with
    context := pX }]
  goals := [goalNamed "main"]

/-- C77: `Y` has the same value after the loop; the loop variable `X` has had two values. -/
example : ∃ (s s' : QSt World) (tr : Trace) (p : Plan) (src : PlanSrc) (k : Nat) (c₀ : Code), Reachable s ∧ RulesKeep s.w ∧
    BuiltFrom s.w.code p src k c₀ ∧ Stmt.KeepingL (Stmt.renameL (k + ·) src.body) ∧ 5 < s.w.nint ∧ (s.w.ints 5).instr = some p.body ∧
    History 5 s tr s' ∧ tr.length = 8 ∧ (s.w.ints 5).b.scope 0 = some (.atom "b") ∧ (s'.w.ints 5).b.scope 0 = some (.atom "b") ∧
    (s'.w.ints 5).b.scope 1 = none ∧ s'.w.beliefs 0 ("q", 2) = [.lit "q" [.atom "b", .atom "b"] [], .lit "q" [.atom "c", .atom "b"] []] := by
  have h : ∃ s s' tr p rest, started (fun _ => 0) keeps = some s ∧ s.w.plists 0 = p :: rest ∧ 5 < s.w.nint ∧
      (s.w.ints 5).instr = some p.body ∧ historyOf 20 0 5 8 s = some (tr, s') ∧ tr.length = 8 ∧ (s.w.ints 5).b.scope 0 = some (.atom "b") ∧
      (s'.w.ints 5).b.scope 0 = some (.atom "b") ∧ (s'.w.ints 5).b.scope 1 = none ∧
      s'.w.beliefs 0 ("q", 2) = [.lit "q" [.atom "b", .atom "b"] [], .lit "q" [.atom "c", .atom "b"] []] ∧
      (∀ a grp, (s.w.ags a).rules grp = []) ∧ ∃ src k c₀, src ∈ keeps.plans ∧ BuiltFrom s.w.code p src k c₀ :=
    ⟨_, _, _, _, _, rfl, rfl, by decide, rfl, rfl, rfl, rfl, rfl, rfl, rfl, fun a grp => match a with | 0 => rfl | _ + 1 => rfl, _, 0, ⟨fun _ => ⟨.noop, none, none⟩, 0⟩, .head _, rfl, .refl _⟩
  obtain ⟨s, s', tr, p, rest, h0, h1, h2, h3, h4, h5, h6, h7, h8, h9, h10, src, k, c₀, hs, hb⟩ := h
  refine ⟨s, s', tr, p, src, k, c₀, started_reachable h0, fun a grp r h => (by rw [h10] at h; cases h), hb, ?_, h2, h3, historyOf_history h4,
    h5, h6, h7, h8, h9⟩
  cases hs with
  | head => exact ⟨⟨trivial, trivial, trivial⟩, trivial, trivial⟩
  | tail _ h => cases h

/-- C77: the last instruction of the loop. -/
example : ∃ s s₁ s₂ tr f ok x, Reachable s ∧ RulesKeep s.w ∧ 5 < s.w.nint ∧ Stmt.Keeping x ∧ History 5 s tr s₁ ∧ Runs 0 5 f ok s₁ s₂ ∧
    Stmt.sem x (tr ++ [(f, ok)]) .done ∧ (s.w.ints 5).b.scope 0 = some (.atom "b") := by
  have h : ∃ s₀ s s₁ s₂ tr f ok t, started (fun _ => 0) keeps = some s₀ ∧ stepsOf 20 0 1 s₀ = some s ∧ 5 < s.w.nint ∧
      historyOf 20 0 5 6 s = some (tr, s₁) ∧ stepTrace 20 0 5 s₁ = [(f, ok)] ∧ step 20 0 s₁ = .ok t s₂ ∧
      (∃ b, tr ++ [(f, ok)] = [(.pushQuery (.term (.lit "p" [.var 1] [])), true), (.nextOrFail, true), (.addBelief b, true), (.nextOrFail, true),
        (.addBelief b, true), (.nextOrFail, false), (.popQuery, true)]) ∧ (s.w.ints 5).b.scope 0 = some (.atom "b") ∧ ∀ a grp, (s.w.ags a).rules grp = [] :=
    ⟨_, _, _, _, _, _, _, _, rfl, rfl, by decide, rfl, rfl, rfl, ⟨_, rfl⟩, rfl, fun a grp => match a with | 0 => rfl | _ + 1 => rfl⟩
  obtain ⟨s₀, s, s₁, s₂, tr, f, ok, t, h0, h1, h2, h3, h4, h5, ⟨b, h7⟩, h8, h9⟩ := h
  refine ⟨s, s₁, s₂, tr, f, ok, .forall_ (.term (.lit "p" [.var 1] [])) [.add b], (started_reachable h0).steps (stepsOf_steps h1),
    fun a grp r h => (by rw [h9] at h; cases h), h2, ⟨trivial, trivial, trivial⟩, historyOf_history h3, stepTrace_runs (.inl ⟨_, h5⟩) h4, ?_, h8⟩
  rw [h7, Stmt.sem]
  have hb : Stmt.semL [.add b] [(.addBelief b, true)] .done := by
    rw [Stmt.semL, Stmt.semL, Stmt.sem]
    exact Lang.seq.both (tr := [_]) (tr' := []) .done ⟨rfl, rfl⟩
  exact Lang.seq.both (tr := [_]) .done (.again (tr := []) ⟨rfl, rfl⟩ hb (.again (tr := []) ⟨rfl, rfl⟩ hb (.leave (tr := []) ⟨rfl, rfl⟩ .done)))

attribute [local instance] asciiText toyFloats

private def named (s : ReplSt) (x : List Char) (n : Nat) : Bool :=
  match s.names.lookup x with
  | some (.var v) => v == n
  | _ => false

private theorem named_lookup {s : ReplSt} {x : List Char} {n : Nat} (h : named s x n = true) : s.names.lookup x = some (.var n) := by
  unfold named at h
  split at h
  · next hx => rw [hx, beq_iff_eq.1 h]
  · cases h

/-- C77: `p(X).` and then `+r(X, Y).` at the prompt, which raises. -/
example : ∃ (s₀ : QSt World) (pend : List Tok) (s₁ s₂ : ReplSt), (∀ a, ∀ st ∈ (s₀.w.ags a).intentions, ∀ i ∈ st, i < s₀.w.nint) ∧
    replSession 60 (replExec (fun _ _ => none) 20 30 0) ["p(X).".toList] [] (replStart s₀) = .ok pend s₁ ∧
    (replSession 60 (replExec (fun _ _ => none) 20 30 0) ["+r(X, Y).".toList] pend s₁).leaves s₂ ∧
    s₁.names.lookup ['X'] = some (.var 2) ∧ s₂.names.lookup ['Y'] = some (.var 3) := by
  have h : (match started (fun _ => 0) keeps with
      | none => false
      | some s₀ => match replSession 60 (replExec (fun _ _ => none) 20 30 0) ["p(X).".toList] [] (replStart s₀) with
        | .ok pend s₁ => named s₁ ['X'] 2 && match replSession 60 (replExec (fun _ _ => none) 20 30 0) ["+r(X, Y).".toList] pend s₁ with
          | .ok _ s₂ | .err _ s₂ => named s₂ ['Y'] 3
          | .oof => false
        | _ => false) = true := by decide +kernel
  split at h
  · cases h
  · next s₀ h0 =>
    split at h
    · next pend s₁ h1 =>
      rw [Bool.and_eq_true] at h
      refine ⟨s₀, pend, s₁, ?_⟩
      obtain ⟨h2, h⟩ := h
      split at h
      · next s₂ h3 => exact ⟨s₂, (started_reachable h0).stacksOK.below, h1, .inl ⟨_, h3⟩, named_lookup h2, named_lookup h⟩
      · next s₂ h3 => exact ⟨s₂, (started_reachable h0).stacksOK.below, h1, .inr ⟨_, h3⟩, named_lookup h2, named_lookup h⟩
      · cases h
    · cases h

end examples
end Verif
