import Verif.Lemmas.Owns
import Verif.Props.Plans
import Verif.Props.Body

/-!
# C91: every plan has variables of its own

`buildPlan` reserves numbers for the variables of the plan; the numbers suffice, and nobody else gets them.
-/

namespace Verif

open Lang

/-- The instructions of all runs have only these variables. -/
def Within (V : List VarId) (L : Lang) : Prop := ∀ tr o, L tr o → ∀ x ∈ tr, ∀ v ∈ x.1.vars, v ∈ V

section within
variable {V : List VarId} {A B P : Lang}

theorem Within.skip : Within V skip := by rintro tr o ⟨rfl, -⟩ x h; cases h

theorem Within.ins {f : InstrF} (h : ∀ v ∈ f.vars, v ∈ V) : Within V (ins f) := by
  intro tr o ht x hx
  cases ht with
  | part => cases hx
  | done => cases List.mem_singleton.1 hx; exact h
  | failed => cases List.mem_singleton.1 hx; exact h

theorem Within.seq (hA : Within V A) (hB : Within V B) : Within V (seq A B) := by
  intro tr o ht x hx
  cases ht with
  | first h _ => exact hA _ _ h x hx
  | both h h' => exact (List.mem_append.1 hx).elim (hA _ _ h x) (hB _ _ h' x)

theorem nextOrFail_within {b : Bool} : ∀ v ∈ ((InstrF.nextOrFail, b) : InstrF × Bool).1.vars, v ∈ V := fun _ h => by cases h

theorem Within.cond (hA : Within V A) (hB : Within V B) : Within V (cond A B) := by
  intro tr o ht x hx
  cases ht with
  | part => cases hx
  | yes h =>
    rcases List.mem_cons.1 hx with rfl | hx
    · exact nextOrFail_within
    · exact hA _ _ h x hx
  | no h =>
    rcases List.mem_cons.1 hx with rfl | hx
    · exact nextOrFail_within
    · exact hB _ _ h x hx

theorem Within.loop (hP : Within V P) (hA : Within V A) (hB : Within V B) : Within V (loop P A B) := by
  intro tr o ht
  induction ht with
  | before h _ => exact hP _ _ h
  | test h => exact hP _ _ h
  | stop h h' _ =>
    intro x hx
    rcases List.mem_append.1 hx with hx | hx
    · exact hP _ _ h x hx
    rcases List.mem_cons.1 hx with rfl | hx
    · exact nextOrFail_within
    · exact hA _ _ h' x hx
  | again h h' _ ih =>
    intro x hx
    rcases List.mem_append.1 hx with hx | hx
    · exact hP _ _ h x hx
    rcases List.mem_cons.1 hx with rfl | hx
    · exact nextOrFail_within
    · exact (List.mem_append.1 hx).elim (hA _ _ h' x) (ih x)
  | leave h h' =>
    intro x hx
    rcases List.mem_append.1 hx with hx | hx
    · exact hP _ _ h x hx
    rcases List.mem_cons.1 hx with rfl | hx
    · exact nextOrFail_within
    · exact hB _ _ h' x hx

theorem within_nil {f : InstrF} (h : f.vars = []) : Within V (Lang.ins f) := .ins fun v hv => by rw [h] at hv; cases hv

mutual
theorem sem_within : ∀ x : Stmt, (∀ v ∈ x.vars, v ∈ V) → Within V x.sem
  | .add t, h => by rw [Stmt.sem]; exact .ins h
  | .remove t, h => by rw [Stmt.sem]; exact .ins h
  | .test t, h => by rw [Stmt.sem]; exact .ins h
  | .achieve t, h => by rw [Stmt.sem]; exact .ins h
  | .achieveLater t, h => by rw [Stmt.sem]; exact .ins h
  | .replace p t, h => by
    rw [Stmt.sem]
    rw [Stmt.vars] at h
    exact .seq (.ins fun v hv => h v (List.mem_append_left _ hv)) (.ins fun v hv => h v (List.mem_append_right _ hv))
  | .query q, h => by rw [Stmt.sem]; exact .seq (.ins h) (.seq (within_nil rfl) (within_nil rfl))
  | .forall_ q b, h => by
    rw [Stmt.sem]
    rw [Stmt.vars] at h
    exact .seq (.ins fun v hv => h v (List.mem_append_left _ hv))
      (.loop .skip (semL_within b fun v hv => h v (List.mem_append_right _ hv)) (within_nil rfl))
  | .while_ q b, h => by
    rw [Stmt.sem]
    rw [Stmt.vars] at h
    exact .loop (.seq (.ins fun v hv => h v (List.mem_append_left _ hv)) (within_nil rfl))
      (.seq (within_nil rfl) (.seq (semL_within b fun v hv => h v (List.mem_append_right _ hv)) (within_nil rfl)))
      (.seq (within_nil rfl) (within_nil rfl))
  | .ite q a b, h => by
    rw [Stmt.sem]
    rw [Stmt.vars] at h
    exact .seq (.ins fun v hv => h v (List.mem_append_left _ (List.mem_append_left _ hv)))
      (.seq (.cond (semThen_within a fun v hv => h v (List.mem_append_left _ (List.mem_append_right _ hv)))
        (semElse_within b fun v hv => h v (List.mem_append_right _ hv))) (within_nil rfl))
theorem semL_within : ∀ b : List Stmt, (∀ v ∈ Stmt.varsL b, v ∈ V) → Within V (Stmt.semL b)
  | [], _ => by rw [Stmt.semL]; exact .skip
  | x :: xs, h => by
    rw [Stmt.semL]
    rw [Stmt.varsL] at h
    exact .seq (sem_within x fun v hv => h v (List.mem_append_left _ hv)) (semL_within xs fun v hv => h v (List.mem_append_right _ hv))
theorem semThen_within : ∀ b : Option (List Stmt), (∀ v ∈ Stmt.varsO b, v ∈ V) → Within V (Stmt.semThen b)
  | none, _ => by rw [Stmt.semThen]; exact .skip
  | some b, h => by rw [Stmt.semThen]; exact semL_within b h
theorem semElse_within : ∀ b : Option (List Stmt), (∀ v ∈ Stmt.varsO b, v ∈ V) → Within V (Stmt.semElse b)
  | none, _ => by rw [Stmt.semElse]; exact .skip
  | some b, h => by rw [Stmt.semElse]; exact .seq (within_nil rfl) (semL_within b h)
end

theorem bodyLang_within (b : List Stmt) : Within (Stmt.varsL b) (bodyLang b) :=
  .seq (within_nil rfl) (semL_within b fun _ h => h)

end within

section
variable [Host]

omit [Host] in
/-- The numbers reserved for a plan suffice. -/
theorem C91_build {a : Nat} {src : PlanSrc} {s : QSt World} {r : Nat} {p : Plan} (h : p ∈ (buildPlan a src s).w.plists r) :
    p ∈ s.w.plists r ∨ BuiltFrom (buildPlan a src s).w.code p src s.nv s.w.code ∧
      ∀ v ∈ p.vars (Stmt.renameL (s.nv + ·) src.body), s.nv ≤ v ∧ v < (buildPlan a src s).nv := by
  rcases buildPlan_plists h with h | h
  · exact .inr ⟨h, fun v hv => h.vars hv⟩
  · exact .inl h

/-- **C91.** In every reachable state, the plans were built from sources, and two different plans (of the same agent or of
different agents) have no variables in common: not in their events, contexts or bodies.  Plans with the same body are the same. -/
theorem C91_apart {s : QSt World} (hr : Reachable s) {r r' : Nat} {p p' : Plan} (h : p ∈ s.w.plists r) (h' : p' ∈ s.w.plists r') :
    (p.body = p'.body → p = p') ∧
    ∃ src k c₀ src' k' c₀', BuiltFrom s.w.code p src k c₀ ∧ BuiltFrom s.w.code p' src' k' c₀' ∧
      (p ≠ p' → ∀ v ∈ p.vars (Stmt.renameL (k + ·) src.body), v ∉ p'.vars (Stmt.renameL (k' + ·) src'.body)) := by
  obtain ⟨f, hf⟩ := hr.apart
  have h1 := hf.built r p h
  have h2 := hf.built r' p' h'
  have he : p.body = p'.body → p = p' := fun e => by
    rw [e] at h1
    exact h1.plan.trans h2.plan.symm
  refine ⟨he, _, _, _, _, _, _, h1, h2, fun hne v hv hv' => ?_⟩
  have h3 := h1.vars hv
  have h4 := h2.vars hv'
  rcases Nat.lt_trichotomy p.body p'.body with hlt | heq | hlt
  · exact Nat.lt_irrefl _ (Nat.lt_of_lt_of_le h3.2 (Nat.le_trans (hf.apart r p r' p' h h' hlt) h4.1))
  · exact hne (he heq)
  · exact Nat.lt_irrefl _ (Nat.lt_of_lt_of_le h4.2 (Nat.le_trans (hf.apart r' p' r p h' h hlt) h3.1))

/-- Variables that are made later (for copies of rules, frozen terms, other plans) are not variables of the plan. -/
theorem C91_new {s : QSt World} (hr : Reachable s) {r : Nat} {p : Plan} (h : p ∈ s.w.plists r) :
    ∃ src k c₀, BuiltFrom s.w.code p src k c₀ ∧ (∀ v ∈ p.vars (Stmt.renameL (k + ·) src.body), v < s.nv) ∧
      ∀ (x : Rule Act), ∀ v ∈ (x.deepcopy s.nv).vars, v ∉ p.vars (Stmt.renameL (k + ·) src.body) := by
  obtain ⟨f, hf⟩ := hr.apart
  have h1 := hf.built r p h
  have h2 : ∀ v ∈ p.vars (Stmt.renameL ((f p.body).k + ·) (f p.body).src.body), v < s.nv := fun v hv =>
    Nat.lt_of_lt_of_le (h1.vars hv).2 (hf.below r p h)
  refine ⟨_, _, _, h1, h2, fun x v hv hv' => ?_⟩
  rw [Rule.vars_deepcopy, List.mem_map] at hv
  obtain ⟨y, _, rfl⟩ := hv
  exact Nat.lt_irrefl _ (Nat.lt_of_le_of_lt (Nat.le_add_right _ _) (h2 _ hv'))

/-- All instructions that are executed for an intention that starts the plan have only variables of the plan. -/
theorem C91_run {s s' : QSt World} {i : Nat} {tr : Trace} {p : Plan} {src : PlanSrc} {k : Nat} {c₀ : Code} (hr : Reachable s)
    (hp : BuiltFrom s.w.code p src k c₀) (hi : i < s.w.nint) (h0 : (s.w.ints i).instr = some p.body) (h : History i s tr s') :
    ∀ x ∈ tr, ∀ v ∈ x.1.vars, v ∈ p.vars (Stmt.renameL (k + ·) src.body) := by
  have hw := bodyLang_within (Stmt.renameL (k + ·) src.body)
  have : ∀ x ∈ tr, ∀ v ∈ x.1.vars, v ∈ Stmt.varsL (Stmt.renameL (k + ·) src.body) := by
    rcases C29_run hr hp hi h0 h with ⟨_, h⟩ | ⟨_, h | h⟩
    · exact hw _ _ h
    · exact hw _ _ h
    · exact hw _ _ h
  exact fun x hx v hv => List.mem_append_right _ (this x hx v hv)

end

section examples
attribute [local instance] exactHost

/-- After `choosing` was built, its second plan uses the variable 0, the third plan 1 and 2, and the fourth plan 3. -/
example : ∃ s, Reachable s ∧ ((s.w.plists 0).map fun p => p.head.vars ++ p.context.vars) = [[], [0], [1, 2], [3]] ∧ 4 ≤ s.nv := by
  have hr : ∃ s, started (fun _ => 0) choosing = some s := ⟨_, rfl⟩
  obtain ⟨s, hs⟩ := hr
  have hr := started_reachable hs
  cases hs
  exact ⟨_, hr, rfl, by decide⟩

/-- `+!p : q(Y) <- -+r(Z); -X; !w(A)` with its variables. -/
example : Plan.vars ⟨.addition, .achievement, .lit "p" [] [], .term (.lit "q" [.var 0] []), 0, none, ""⟩
    [.replace (.lit "r" [.wild] []) (.lit "r" [.var 1] []), .remove (.var 2), .achieve (.lit "w" [.var 3] [])] = [0, 1, 2, 3] := rfl

/-- The plan of the example for C29 runs 30 instructions, with variables of the plan only. -/
example : ∃ (p : Plan) (body : List Stmt) (tr : Trace), tr.length = 30 ∧ (∃ x ∈ tr, x.1.vars ≠ []) ∧ ∀ x ∈ tr, ∀ v ∈ x.1.vars, v ∈ p.vars body := by
  have h : ∃ s s' tr p rest, started (fun _ => 0) loops = some s ∧ s.w.plists 0 = p :: rest ∧ 5 < s.w.nint ∧
      (s.w.ints 5).instr = some p.body ∧ historyOf 20 0 5 31 s = some (tr, s') ∧ tr.length = 30 ∧ tr.any (fun x => !x.1.vars.isEmpty) = true :=
    ⟨_, _, _, _, _, rfl, rfl, by decide, rfl, rfl, rfl, rfl⟩
  obtain ⟨s, s', tr, p, rest, h0, h1, h2, h3, h4, h5, h6⟩ := h
  have hr := started_reachable h0
  obtain ⟨src, k, c₀, hb⟩ := hr.codeOK.plans 0 p (by rw [h1]; exact List.mem_cons_self)
  obtain ⟨x, hx, h6⟩ := List.any_eq_true.1 h6
  exact ⟨p, _, tr, h5, ⟨x, hx, fun e => by simp [e] at h6⟩, C91_run hr hb h2 h3 (historyOf_history h4)⟩

end examples

end Verif
