import Verif.Spec.Renamed
import Verif.Props.Body

/-!
# C29: the runs of a plan are those of its source, with other variables

`C29_plan` and `C29_run` speak of the source with its variables renamed by the function of the model; here the renaming is done
to the runs, instruction by instruction.
-/

namespace Verif

open Lang

variable {ρ : VarId → VarId} {A B P : Lang}

theorem InstrF.renamed_canFail (f : InstrF) : (f.renamed ρ).canFail = f.canFail := by cases f <;> rfl

theorem Trace.renamed_append (tr tr' : Trace) : Trace.renamed ρ (tr ++ tr') = Trace.renamed ρ tr ++ Trace.renamed ρ tr' :=
  List.map_append

theorem renamed_skip : renamed ρ skip = skip := by
  funext tr o
  apply propext
  constructor
  · rintro ⟨_, ⟨rfl, rfl⟩, rfl⟩; exact ⟨rfl, rfl⟩
  · rintro ⟨rfl, rfl⟩; exact ⟨[], ⟨rfl, rfl⟩, rfl⟩

theorem renamed_ins (f : InstrF) : renamed ρ (ins f) = ins (f.renamed ρ) := by
  funext tr o
  apply propext
  constructor
  · rintro ⟨_, h, rfl⟩
    cases h with
    | part => exact .part
    | done => exact .done
    | failed h => exact .failed (by rw [InstrF.renamed_canFail, h])
  · intro h
    cases h with
    | part => exact ⟨[], .part, rfl⟩
    | done => exact ⟨_, .done, rfl⟩
    | failed h => exact ⟨_, .failed (by rw [InstrF.renamed_canFail] at h; exact h), rfl⟩

theorem renamed_seq : renamed ρ (seq A B) = seq (renamed ρ A) (renamed ρ B) := by
  funext tr o
  apply propext
  constructor
  · rintro ⟨_, h, rfl⟩
    cases h with
    | first h ho => exact .first ⟨_, h, rfl⟩ ho
    | both h h' => rw [Trace.renamed_append]; exact .both ⟨_, h, rfl⟩ ⟨_, h', rfl⟩
  · intro h
    cases h with
    | first h ho =>
      obtain ⟨tr₀, h, rfl⟩ := h
      exact ⟨_, .first h ho, rfl⟩
    | both h h' =>
      obtain ⟨tr₀, h, rfl⟩ := h
      obtain ⟨tr₁, h', rfl⟩ := h'
      exact ⟨_, .both h h', (Trace.renamed_append _ _).symm⟩

theorem renamed_cond : renamed ρ (cond A B) = cond (renamed ρ A) (renamed ρ B) := by
  funext tr o
  apply propext
  constructor
  · rintro ⟨_, h, rfl⟩
    cases h with
    | part => exact .part
    | yes h => exact .yes ⟨_, h, rfl⟩
    | no h => exact .no ⟨_, h, rfl⟩
  · intro h
    cases h with
    | part => exact ⟨[], .part, rfl⟩
    | yes h => obtain ⟨tr₀, h, rfl⟩ := h; exact ⟨_, .yes h, rfl⟩
    | no h => obtain ⟨tr₀, h, rfl⟩ := h; exact ⟨_, .no h, rfl⟩

theorem renamed_loop : renamed ρ (loop P A B) = loop (renamed ρ P) (renamed ρ A) (renamed ρ B) := by
  funext tr o
  apply propext
  constructor
  · rintro ⟨tr₀, h, rfl⟩
    induction h with
    | before h ho => exact .before ⟨_, h, rfl⟩ ho
    | test h => exact .test ⟨_, h, rfl⟩
    | stop h h' ho => rw [Trace.renamed_append]; exact .stop ⟨_, h, rfl⟩ ⟨_, h', rfl⟩ ho
    | @again tr tr' tr'' o h h' _ ih =>
      have e : Trace.renamed ρ (tr ++ (.nextOrFail, true) :: (tr' ++ tr'')) =
          Trace.renamed ρ tr ++ (.nextOrFail, true) :: (Trace.renamed ρ tr' ++ Trace.renamed ρ tr'') := by
        simp [Trace.renamed, InstrF.renamed]
      rw [e]
      exact .again ⟨_, h, rfl⟩ ⟨_, h', rfl⟩ ih
    | leave h h' => rw [Trace.renamed_append]; exact .leave ⟨_, h, rfl⟩ ⟨_, h', rfl⟩
  · intro h
    induction h with
    | before h ho => obtain ⟨_, h, rfl⟩ := h; exact ⟨_, .before h ho, rfl⟩
    | test h => obtain ⟨_, h, rfl⟩ := h; exact ⟨_, .test h, rfl⟩
    | stop h h' ho =>
      obtain ⟨_, h, rfl⟩ := h
      obtain ⟨_, h', rfl⟩ := h'
      exact ⟨_, .stop h h' ho, by simp [Trace.renamed, InstrF.renamed]⟩
    | again h h' _ ih =>
      obtain ⟨_, h, rfl⟩ := h
      obtain ⟨_, h', rfl⟩ := h'
      obtain ⟨_, ih, rfl⟩ := ih
      exact ⟨_, .again h h' ih, by simp [Trace.renamed, InstrF.renamed]⟩
    | leave h h' =>
      obtain ⟨_, h, rfl⟩ := h
      obtain ⟨_, h', rfl⟩ := h'
      exact ⟨_, .leave h h', by simp [Trace.renamed, InstrF.renamed]⟩

mutual
theorem sem_renamed : ∀ x : Stmt, (Stmt.rename ρ x).sem = renamed ρ x.sem
  | .add t => by rw [Stmt.rename, Stmt.sem, Stmt.sem, renamed_ins]; rfl
  | .remove t => by rw [Stmt.rename, Stmt.sem, Stmt.sem, renamed_ins]; rfl
  | .test t => by rw [Stmt.rename, Stmt.sem, Stmt.sem, renamed_ins]; rfl
  | .replace p t => by rw [Stmt.rename, Stmt.sem, Stmt.sem, renamed_seq, renamed_ins, renamed_ins]; rfl
  | .achieve t => by rw [Stmt.rename, Stmt.sem, Stmt.sem, renamed_ins]; rfl
  | .achieveLater t => by rw [Stmt.rename, Stmt.sem, Stmt.sem, renamed_ins]; rfl
  | .query q => by rw [Stmt.rename, Stmt.sem, Stmt.sem, renamed_seq, renamed_seq, renamed_ins, renamed_ins, renamed_ins]; rfl
  | .forall_ q b => by
    rw [Stmt.rename, Stmt.sem, Stmt.sem, renamed_seq, renamed_loop, renamed_ins, renamed_ins, renamed_skip, semL_renamed b]; rfl
  | .ite q a b => by
    rw [Stmt.rename, Stmt.sem, Stmt.sem, renamed_seq, renamed_seq, renamed_cond, renamed_ins, renamed_ins, semThen_renamed a, semElse_renamed b]
    rfl
  | .while_ q b => by
    rw [Stmt.rename, Stmt.sem, Stmt.sem, renamed_loop, renamed_seq, renamed_seq, renamed_seq, renamed_seq, renamed_ins, renamed_ins,
      renamed_ins, renamed_ins, semL_renamed b]
    rfl
theorem semL_renamed : ∀ b : List Stmt, Stmt.semL (Stmt.renameL ρ b) = renamed ρ (Stmt.semL b)
  | [] => by rw [Stmt.renameL, Stmt.semL, renamed_skip]
  | x :: xs => by rw [Stmt.renameL, Stmt.semL, Stmt.semL, renamed_seq, sem_renamed x, semL_renamed xs]
theorem semThen_renamed : ∀ b : Option (List Stmt), Stmt.semThen (Stmt.renameO ρ b) = renamed ρ (Stmt.semThen b)
  | none => by rw [Stmt.renameO, Stmt.semThen, renamed_skip]
  | some b => by rw [Stmt.renameO, Stmt.semThen, Stmt.semThen, semL_renamed b]
theorem semElse_renamed : ∀ b : Option (List Stmt), Stmt.semElse (Stmt.renameO ρ b) = renamed ρ (Stmt.semElse b)
  | none => by rw [Stmt.renameO, Stmt.semElse, renamed_skip]
  | some b => by rw [Stmt.renameO, Stmt.semElse, Stmt.semElse, renamed_seq, renamed_ins, semL_renamed b]; rfl
end

theorem bodyLang_renamed (b : List Stmt) : bodyLang (Stmt.renameL ρ b) = renamed ρ (bodyLang b) := by
  rw [bodyLang, bodyLang, renamed_seq, renamed_ins, semL_renamed]; rfl

section
variable [Host]

/-- **C29.** In all reachable states, every plan of every agent stems from a source plan, and its instructions are a program with
exactly the runs of the source, with other variables. -/
theorem C29_source {s : QSt World} (hr : Reachable s) {r : Nat} {p : Plan} (hp : p ∈ s.w.plists r) :
    ∃ (src : PlanSrc) (k : Nat), p.trigger = src.trigger ∧ p.goalType = src.goalType ∧ p.head = src.head.rename (k + ·) ∧
      p.context = src.context.rename (k + ·) ∧ Implements s.w.code (some p.body) (renamed (k + ·) (bodyLang src.body)) := by
  obtain ⟨src, k, h1, h2, h3, h4, h5⟩ := C29_plan hr hp
  rw [bodyLang_renamed] at h5
  exact ⟨src, k, h1, h2, h3, h4, h5⟩

/-- **C29.** An intention that starts a plan runs the instructions that the source prescribes, with other variables: the history is
an unfinished run of the source as long as there is a next instruction, and otherwise a complete or a failing run. -/
theorem C29_source_run {s s' : QSt World} {i : Nat} {tr : Trace} {p : Plan} {src : PlanSrc} {k : Nat} {c₀ : Code} (hr : Reachable s)
    (hp : BuiltFrom s.w.code p src k c₀) (hi : i < s.w.nint) (h0 : (s.w.ints i).instr = some p.body) (h : History i s tr s') :
    ∃ tr₀, tr = Trace.renamed (k + ·) tr₀ ∧
      (((∃ pc, (s'.w.ints i).instr = some pc) ∧ bodyLang src.body tr₀ .part) ∨
        (s'.w.ints i).instr = none ∧ (bodyLang src.body tr₀ .done ∨ bodyLang src.body tr₀ .failed)) := by
  have := C29_run hr hp hi h0 h
  rw [bodyLang_renamed] at this
  rcases this with ⟨h1, tr₀, h2, h3⟩ | ⟨h1, ⟨tr₀, h2, h3⟩ | ⟨tr₀, h2, h3⟩⟩
  · exact ⟨tr₀, h3, .inl ⟨h1, h2⟩⟩
  · exact ⟨tr₀, h3, .inr ⟨h1, .inl h2⟩⟩
  · exact ⟨tr₀, h3, .inr ⟨h1, .inr h2⟩⟩

end

section examples
attribute [local instance] exactHost

/-- `!!g(X)` and `!g(X)` are still different things when the variables are. -/
example : bodyLang (Stmt.renameL (3 + ·) [.achieveLater (fX "g")]) [(.noop, true), (.callDelayed .addition .achievement (.lit "g" [.var 3] []), true)] .done ∧
    ¬bodyLang (Stmt.renameL (3 + ·) [.achieve (fX "g")]) [(.noop, true), (.callDelayed .addition .achievement (.lit "g" [.var 3] []), true)] .done := by
  constructor
  · rw [bodyLang_renamed]
    refine ⟨[(.noop, true), (.callDelayed .addition .achievement (fX "g"), true)], .both (tr := [_]) .done ?_, rfl⟩
    rw [Stmt.semL, Stmt.semL, Stmt.sem]
    exact .both (tr := [_]) (tr' := []) .done ⟨rfl, rfl⟩
  · rw [bodyLang_renamed]
    rintro ⟨tr, h, e⟩
    rw [bodyLang, Stmt.semL, Stmt.semL, Stmt.sem] at h
    cases h with
    | first h ho => exact ho rfl
    | both h h' =>
      cases h
      cases h' with
      | first h ho => exact ho rfl
      | both h h'' =>
        cases h
        obtain ⟨rfl, -⟩ := h''
        simp [Trace.renamed, InstrF.renamed] at e

/-- The plan of the example for C29 is run to its end: a complete or failing run of the source. -/
example : ∃ (src : PlanSrc) (tr₀ : Trace), (bodyLang src.body tr₀ .done ∨ bodyLang src.body tr₀ .failed) ∧ tr₀.length = 30 := by
  have h : ∃ s s' tr p rest, started (fun _ => 0) loops = some s ∧ s.w.plists 0 = p :: rest ∧ 5 < s.w.nint ∧
      (s.w.ints 5).instr = some p.body ∧ historyOf 20 0 5 31 s = some (tr, s') ∧ tr.length = 30 ∧ (s'.w.ints 5).instr = none :=
    ⟨_, _, _, _, _, rfl, rfl, by decide, rfl, rfl, rfl, rfl⟩
  obtain ⟨s, s', tr, p, rest, h0, h1, h2, h3, h4, h5, h6⟩ := h
  have hr := started_reachable h0
  obtain ⟨src, k, c₀, hb⟩ := hr.codeOK.plans 0 p (by rw [h1]; exact List.mem_cons_self)
  obtain ⟨tr₀, e, h⟩ := C29_source_run hr hb h2 h3 (historyOf_history h4)
  rw [h6] at h
  refine ⟨src, tr₀, ?_, ?_⟩
  · rcases h with ⟨⟨_, h⟩, _⟩ | ⟨_, h⟩
    · cases h
    · exact h
  · rw [e, Trace.renamed, List.length_map] at h5; exact h5

end examples

end Verif
