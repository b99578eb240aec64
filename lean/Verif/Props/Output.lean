import Verif.Props.Args
import Verif.Props.Env
import Verif.Spec.Output

/-!
# Output (C74)
-/

namespace Verif

theorem joined_intercalate (sep : String) : ∀ xs : List String, JoinedBy sep xs (sep.intercalate xs)
  | [] => .nil
  | [x] => by rw [String.intercalate_singleton]; exact .one x
  | x :: y :: xs => by
    rw [String.intercalate_cons_cons]
    exact .cons (joined_intercalate sep (y :: xs))

section
variable [Host]

theorem texts_aslStr : ∀ ts : List Term, Texts ts (ts.map aslStr)
  | [] => .nil
  | _ :: ts => .cons (given_of_convert rfl) (texts_aslStr ts)

variable {f : String} {args as : List Term} {n : Nat} {s s' : QSt World} {o : Option (Gen Act ActGen)}

/-- The arguments are copied together, without other effects. -/
theorem freezeL_together {ts cs : List Term} (h : s.freezeL n ts = .ok cs s') :
    CopiedTogether s ts cs ∧ s'.b = s.b ∧ s'.w = s.w ∧ s.nv ≤ s'.nv := by
  unfold QSt.freezeL at h
  split at h
  · next m hf =>
    cases h
    obtain ⟨j1, j2, j3, j4⟩ := freezeAll_spec (nv₀ := s.nv) (fun t t' m m' => freeze_spec n t t' m m') ts cs _ m
      ⟨by simp, by simp, by simp, Nat.le_refl _⟩ hf
    obtain ⟨ρ, r1, r2, r3⟩ := renaming_of_memo j1
    exact ⟨⟨ρ, r1, r2, j3.imp r3, fun c hc => (j4 c hc).imp fun y hy => hy.1⟩, rfl, rfl, j1.le⟩
  · cases h
  · cases h

/-- What printing leaves: one more line of output. -/
def Printed (s : QSt World) (toFile : Bool) (sep : String) (args : List Term) (s' : QSt World) : Prop :=
  ∃ cs xs text, CopiedTogether s args cs ∧ Texts cs xs ∧ JoinedBy sep xs text ∧ s'.b = s.b ∧
    s'.w = { s.w with out := ⟨toFile, (s.w.ags s.w.cur).name, text⟩ :: s.w.out }

/-- **C74.** `.print` succeeds; it prints one line with the name of the agent and the texts of its
arguments with blanks between them.  Bound variables are replaced by their values; the same
unbound variable is the same in all arguments.  Nothing is bound, and nothing else changes. -/
theorem C74_print (h : gnext n (.start (.act .print (.lit f args as)) : Gen Act ActGen) s = .ok o s') :
    o.isSome ∧ Printed s false " " args s' := by
  replace h := act_start h
  obtain ⟨m, o', rfl, h⟩ := h
  rw [actNext] at h
  simp only [argList, Res.bind_eq_ok] at h
  obtain ⟨cs, s₁, h1, h⟩ := h
  obtain ⟨j1, j2, j3, -⟩ := freezeL_together h1
  cases h
  exact ⟨rfl, cs, _, _, j1, texts_aslStr cs, joined_intercalate _ _, j2, by simp only [QSt.emit, j3]⟩

/-- **C74.** `.csv` writes a line to the file of the agent, with commas. -/
theorem C74_csv (h : gnext n (.start (.act .csv (.lit f args as)) : Gen Act ActGen) s = .ok o s') :
    o.isSome ∧ Printed s true "," args s' := by
  replace h := act_start h
  obtain ⟨m, o', rfl, h⟩ := h
  rw [actNext] at h
  simp only [argList, Res.bind_eq_ok] at h
  obtain ⟨cs, s₁, h1, h⟩ := h
  obtain ⟨j1, j2, j3, -⟩ := freezeL_together h1
  cases h
  exact ⟨rfl, cs, _, _, j1, texts_aslStr cs, joined_intercalate _ _, j2, by simp only [QSt.emit, j3]⟩

theorem freezeL_total {R : VarId → VarId → Prop} {ts cs : List Term} (h : CopyL s.b.scope R ts cs) :
    ∃ n cs' s', s.freezeL n ts = .ok cs' s' := by
  obtain ⟨n, cs', m, h⟩ := h.freezes ⟨fun _ => none, s.nv⟩
  exact ⟨n, cs', _, by rw [QSt.freezeL, h]⟩

/-- **C74.** `.print` fails or raises only if the arguments have no values (an expression cannot be
evaluated, a binding is circular). -/
theorem C74_print_total {R : VarId → VarId → Prop} {cs : List Term} (h : CopyL s.b.scope R args cs) :
    ∃ n o s', gnext n (.start (.act .print (.lit f args as)) : Gen Act ActGen) s = .ok (some o) s' := by
  obtain ⟨n, cs', s', h⟩ := freezeL_total h
  exact ⟨n + 2, _, _, by rw [gnext_act, actNext]; simp only [argList, h]; rfl⟩

/-- **C74.** The same for `.csv`. -/
theorem C74_csv_total {R : VarId → VarId → Prop} {cs : List Term} (h : CopyL s.b.scope R args cs) :
    ∃ n o s', gnext n (.start (.act .csv (.lit f args as)) : Gen Act ActGen) s = .ok (some o) s' := by
  obtain ⟨n, cs', s', h⟩ := freezeL_total h
  exact ⟨n + 2, _, _, by rw [gnext_act, actNext]; simp only [argList, h]; rfl⟩

/-! ## Output only grows -/

omit [Host] in
theorem OutputGrows.refl (w : World) : OutputGrows w w := ⟨[], rfl, nofun⟩

theorem Prim.output {w₀ : World} {s s' : QSt World} (h : Prim w₀ s s') : OutputGrows s.w s'.w := by
  cases h with
  | out o ho => exact ⟨[o], rfl, fun o' h => by cases List.mem_singleton.1 h; exact ⟨_, ho.symm⟩⟩
  | add | del => unfold World.setBeliefs; split <;> exact .refl s.w
  | plan => unfold buildPlan World.addPlan; dsimp only; split <;> exact .refl s.w
  | _ => exact .refl s.w

/-- The output since `w`. -/
def Wrote (w w' : World) : Prop := SameAgents w w' ∧ OutputGrows w w'

theorem wrote_inv (w : World) : StepInv (Wrote w) where
  frame h hw := ⟨hw.1.trans h.agents, by
    obtain ⟨new, h1, h2⟩ := hw.2
    exact ⟨new, h.out.trans h1, h2⟩⟩
  prim h hw := ⟨hw.1.trans h.agents, by
    obtain ⟨new, h1, h2⟩ := hw.2
    obtain ⟨new', h3, h4⟩ := h.output
    refine ⟨new' ++ new, by rw [h3, h1, List.append_assoc], fun o ho => ?_⟩
    rcases List.mem_append.1 ho with ho | ho
    · obtain ⟨a, ha⟩ := h4 o ho
      exact ⟨a, (hw.1.2.2 a).symm.trans ha⟩
    · exact h2 o ho⟩

/-- **C74.** A step adds lines, with names of agents, to the output; what has been written stays. -/
theorem C74_step {n a : Nat} {s s' : QSt World} (hs : StacksOK s.w) (h : (step n a s).leaves s') : OutputGrows s.w s'.w :=
  ((wrote_inv s.w).step hs ⟨.refl _, .refl _⟩ h).2

/-- **C74.** The same holds when an agent is called (a message to it, for example). -/
theorem C74_call {n a : Nat} {tr : Trigger} {gt : GoalType} {m : Term} {d : Bool} {s s' : QSt World} (hs : StacksOK s.w)
    (h : (callNew n (gnext n) a tr gt m d s).leaves s') : OutputGrows s.w s'.w :=
  ((callNew_keeps (wrote_inv s.w).stable (gnext_keeps n) ⟨.refl hs.below, .refl _, .refl _⟩) s' h).2.2

/-- What has been written is kept. -/
theorem printed_inv (out : List Output) : WInv fun w => ∃ new, w.out = new ++ out where
  prim _ _ hp h := by
    obtain ⟨new, h1⟩ := h
    obtain ⟨new', h2, -⟩ := hp.output
    exact ⟨new' ++ new, by rw [h2, h1, List.append_assoc]⟩
  step hs h h' := by
    obtain ⟨new, h1⟩ := h
    obtain ⟨new', h2, -⟩ := C74_step hs h'
    exact ⟨new' ++ new, by rw [h2, h1, List.append_assoc]⟩
  agent _ h := h
  rule _ _ h := by unfold addRule; split <;> exact h
  register _ h := h
  copy _ _ h := h

/-- **C74.** In a run, the agents write lines with their names, and nothing else changes the output. -/
theorem C74_run {s s' : QSt World} (hr : Reachable s) (h : Steps s s') : OutputGrows s.w s'.w := by
  suffices Wrote s.w s'.w from this.2
  have : ∀ w₀, Wrote w₀ s.w → Wrote w₀ s'.w := by
    intro w₀
    induction h with
    | refl => exact id
    | step h _ ih => exact fun hw => ih (hr.step h) ((wrote_inv w₀).step hr.stacksOK hw h)
    | sleep h _ ih => exact fun hw => ih (hr.sleep h) ((wrote_inv w₀).prim (w₀ := World.init fun _ => 0) (sleep_prim h) hw)
  exact this _ ⟨.refl _, .refl _⟩

theorem Steps.later {s s' : QSt World} (h : Steps s s') : Later s s' := by
  induction h with
  | refl => exact .refl
  | step h _ ih => exact .step h ih
  | sleep h _ ih => exact .sleep h ih

/-- **C74.** Whatever happens later in the environment (new agents, too), what has been written stays
as it is. -/
theorem C74_kept {s s' : QSt World} (hr : Reachable s) (h : Later s s') : ∃ new, s'.w.out = new ++ s.w.out :=
  h.winv (printed_inv s.w.out) hr ⟨[], rfl⟩

end

section examples
/-- The values of the examples, as texts. -/
@[reducible] private def textHost : Host := { exactHost with
  str := fun
    | .num _ => "3"
    | .str s => s
    | .var v => s!"_X_{v}"
    | _ => "?" }

attribute [local instance] textHost

/-- The variable 0 is bound to 3, the variable 1 is unbound. -/
example : ∃ g, gnext 9 (.start (.act .print (.lit ".print" [.str "x", .var 0, .var 1, .var 1] [])) : Gen Act ActGen)
      ⟨⟨Scope.empty.set 0 (.num 3), [.v 0], 0⟩, 10, { World.init (fun _ => 0) with ags := fun _ => { name := "ag" } }⟩ =
    .ok (some g) ⟨⟨Scope.empty.set 0 (.num 3), [.v 0], 0⟩, 11, { World.init (fun _ => 0) with
      ags := fun _ => { name := "ag" }, out := [⟨false, "ag", "x 3 _X_10 _X_10"⟩] }⟩ := ⟨_, rfl⟩

example : ∃ s' g, gnext 9 (.start (.act .csv (.lit ".csv" [.str "x", .var 0] [])) : Gen Act ActGen)
      ⟨⟨Scope.empty.set 0 (.num 3), [.v 0], 0⟩, 10, World.init fun _ => 0⟩ = .ok (some g) s' ∧ s'.w.out.map (·.text) = ["x,3"] :=
  ⟨_, _, rfl, rfl⟩

end examples

section examples
attribute [local instance] exactHost

/-- `!a. +!a <- .print("x"); .print("y").` -/
private def printing : AgentSrc where
  plans := [simplePlan "a" [.query (.act .print (.lit ".print" [.str "x"] [])), .query (.act .print (.lit ".print" [.str "y"] []))]]
  goals := [goalNamed "a"]

/-- The lines of a run, in order. -/
example : ∃ s s' : QSt World, started (fun _ => 0) printing = some s ∧ Reachable s ∧ s.w.out = [] ∧ runEnv 20 20 s = .ok () s' ∧
    Steps s s' ∧ Later s s' ∧ s'.w.out = [⟨false, "ag", "y"⟩, ⟨false, "ag", "x"⟩] := by
  have h : ∃ s s', started (fun _ => 0) printing = some s ∧ s.w.out = [] ∧ runEnv 20 20 s = .ok () s' ∧
      s'.w.out = [⟨false, "ag", "y"⟩, ⟨false, "ag", "x"⟩] := ⟨_, _, rfl, rfl, rfl, rfl⟩
  obtain ⟨s, s', h0, h1, h2, h3⟩ := h
  have hs := C52_run_steps (.inl ⟨_, h2⟩)
  exact ⟨s, s', h0, started_reachable h0, h1, h2, hs, hs.later, h3⟩

end examples

end Verif
