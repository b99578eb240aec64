import Verif.Spec.StmtVars
import Verif.Lemmas.ReplNames
import Verif.Lemmas.Vars

/-! # Which variables belong to which plan -/

namespace Verif

mutual
theorem Stmt.vars_rename (ρ : VarId → VarId) : ∀ x : Stmt, (x.rename ρ).vars = x.vars.map ρ
  | .add t | .remove t | .test t | .achieve t | .achieveLater t => by simp [Stmt.rename, Stmt.vars, Term.vars_rename]
  | .replace p t => by simp [Stmt.rename, Stmt.vars, Term.vars_rename]
  | .query q => by simp [Stmt.rename, Stmt.vars, Query.vars_rename]
  | .forall_ q b | .while_ q b => by simp [Stmt.rename, Stmt.vars, Query.vars_rename, Stmt.varsL_rename ρ b]
  | .ite q a b => by simp [Stmt.rename, Stmt.vars, Query.vars_rename, Stmt.varsO_rename ρ a, Stmt.varsO_rename ρ b]
theorem Stmt.varsL_rename (ρ : VarId → VarId) : ∀ b : List Stmt, Stmt.varsL (Stmt.renameL ρ b) = (Stmt.varsL b).map ρ
  | [] => rfl
  | x :: xs => by simp [Stmt.renameL, Stmt.varsL, Stmt.vars_rename ρ x, Stmt.varsL_rename ρ xs]
theorem Stmt.varsO_rename (ρ : VarId → VarId) : ∀ b : Option (List Stmt), Stmt.varsO (Stmt.renameO ρ b) = (Stmt.varsO b).map ρ
  | none => rfl
  | some b => by simp [Stmt.renameO, Stmt.varsO, Stmt.varsL_rename ρ b]
end

mutual
theorem Stmt.lt_bound {v : VarId} : ∀ {x : Stmt}, v ∈ x.vars → v < x.bound
  | .add t, h | .remove t, h | .test t, h | .achieve t, h | .achieveLater t, h => Term.lt_bound (t := t) h
  | .replace p t, h => by
    simp only [Stmt.vars, List.mem_append] at h
    simp only [Stmt.bound]
    rcases h with h | h
    · exact Nat.lt_of_lt_of_le (Term.lt_bound h) (Nat.le_max_left ..)
    · exact Nat.lt_of_lt_of_le (Term.lt_bound h) (Nat.le_max_right ..)
  | .query q, h => Query.lt_bound (q := q) h
  | .forall_ q b, h | .while_ q b, h => by
    simp only [Stmt.vars, List.mem_append] at h
    simp only [Stmt.bound]
    rcases h with h | h
    · exact Nat.lt_of_lt_of_le (Query.lt_bound h) (Nat.le_max_left ..)
    · exact Nat.lt_of_lt_of_le (Stmt.lt_boundL h) (Nat.le_max_right ..)
  | .ite q a b, h => by
    simp only [Stmt.vars, List.mem_append] at h
    simp only [Stmt.bound]
    rcases h with (h | h) | h
    · exact Nat.lt_of_lt_of_le (Query.lt_bound h) (Nat.le_max_left ..)
    · exact Nat.lt_of_lt_of_le (Stmt.lt_boundO h) (Nat.le_trans (Nat.le_max_left ..) (Nat.le_max_right ..))
    · exact Nat.lt_of_lt_of_le (Stmt.lt_boundO h) (Nat.le_trans (Nat.le_max_right ..) (Nat.le_max_right ..))
theorem Stmt.lt_boundL {v : VarId} : ∀ {b : List Stmt}, v ∈ Stmt.varsL b → v < Stmt.boundL b
  | [], h => by cases h
  | x :: xs, h => by
    simp only [Stmt.varsL, List.mem_append] at h
    simp only [Stmt.boundL]
    rcases h with h | h
    · exact Nat.lt_of_lt_of_le (Stmt.lt_bound h) (Nat.le_max_left ..)
    · exact Nat.lt_of_lt_of_le (Stmt.lt_boundL h) (Nat.le_max_right ..)
theorem Stmt.lt_boundO {v : VarId} : ∀ {b : Option (List Stmt)}, v ∈ Stmt.varsO b → v < Stmt.boundO b
  | none, h => by cases h
  | some b, h => Stmt.lt_boundL (b := b) h
end

/-- The variables of a plan are in the interval reserved when it was built. -/
theorem BuiltFrom.vars {c : Code} {p : Plan} {src : PlanSrc} {k : Nat} {c₀ : Code} (h : BuiltFrom c p src k c₀) {v : VarId}
    (hv : v ∈ p.vars (Stmt.renameL (k + ·) src.body)) : k ≤ v ∧ v < k + src.bound := by
  rw [h.plan] at hv
  simp only [Plan.vars, List.mem_append, Term.vars_rename, Query.vars_rename, Stmt.varsL_rename, List.mem_map] at hv
  rcases hv with (⟨x, hx, rfl⟩ | ⟨x, hx, rfl⟩) | ⟨x, hx, rfl⟩
  · exact ⟨Nat.le_add_right _ _, Nat.add_lt_add_left (Nat.lt_of_lt_of_le (Term.lt_bound hx) (Nat.le_max_left ..)) _⟩
  · exact ⟨Nat.le_add_right _ _, Nat.add_lt_add_left (Nat.lt_of_lt_of_le (Query.lt_bound hx)
      (Nat.le_trans (Nat.le_max_left ..) (Nat.le_max_right ..))) _⟩
  · exact ⟨Nat.le_add_right _ _, Nat.add_lt_add_left (Nat.lt_of_lt_of_le (Stmt.lt_boundL hx)
      (Nat.le_trans (Nat.le_max_right ..) (Nat.le_max_right ..))) _⟩

/-- What is known about the plan whose body starts at an instruction: its source, its first variable, and the code before it. -/
structure Origin where
  src : PlanSrc
  k : Nat
  c₀ : Code

/-- The plans of the system, with their origins. -/
structure Owns (f : Nat → Origin) (s : QSt World) : Prop where
  built : ∀ r p, p ∈ s.w.plists r → BuiltFrom s.w.code p (f p.body).src (f p.body).k (f p.body).c₀
  below : ∀ r p, p ∈ s.w.plists r → (f p.body).k + (f p.body).src.bound ≤ s.nv
  apart : ∀ r p r' p', p ∈ s.w.plists r → p' ∈ s.w.plists r' → p.body < p'.body →
    (f p.body).k + (f p.body).src.bound ≤ (f p'.body).k

/-- Every plan has variables of its own. -/
def Apart (s : QSt World) : Prop := ∃ f, Owns f s

theorem Apart.mono {s s' : QSt World} (h : Apart s) (hv : s.nv ≤ s'.nv) (hc : s.w.code.Ext s'.w.code)
    (hp : ∀ r p, p ∈ s'.w.plists r → p ∈ s.w.plists r) : Apart s' := by
  obtain ⟨f, h⟩ := h
  exact ⟨f, fun r p h' => (h.built r p (hp r p h')).mono hc, fun r p h' => Nat.le_trans (h.below r p (hp r p h')) hv,
    fun r p r' p' h1 h2 => h.apart r p r' p' (hp r p h1) (hp r' p' h2)⟩

theorem Apart.same {s s' : QSt World} (h : Apart s) (hv : s.nv ≤ s'.nv) (hc : s'.w.code = s.w.code)
    (hp : s'.w.plists = s.w.plists) : Apart s' :=
  h.mono hv (hc ▸ .refl _) fun _ _ h => hp ▸ h

theorem BuiltFrom.body_lt {c : Code} {p : Plan} {src : PlanSrc} {k : Nat} {c₀ : Code} (h : BuiltFrom c p src k c₀) : p.body < c.size := by
  rw [h.plan]
  exact Nat.lt_of_lt_of_le (compileBody_size _ _) h.ext.size

theorem Apart.plan {s : QSt World} (h : Apart s) (a : Nat) (src : PlanSrc) : Apart (buildPlan a src s) := by
  obtain ⟨f, h⟩ := h
  have hext : s.w.code.Ext (buildPlan a src s).w.code := by rw [buildPlan_code]; exact compileBody_ext _ _
  have hnew : ∀ r p, p ∈ (buildPlan a src s).w.plists r →
      (BuiltFrom (buildPlan a src s).w.code p src s.nv s.w.code ∧ p.body = s.w.code.size) ∨
      (p ∈ s.w.plists r ∧ p.body < s.w.code.size) := by
    intro r p hp
    rcases buildPlan_plists hp with h' | h'
    · exact .inl ⟨h', by rw [h'.plan]⟩
    · exact .inr ⟨h', (h.built r p h').body_lt⟩
  refine ⟨fun b => if b = s.w.code.size then ⟨src, s.nv, s.w.code⟩ else f b, fun r p hp => ?_, fun r p hp => ?_,
    fun r p r' p' hp hp' hlt => ?_⟩
  · rcases hnew r p hp with ⟨h1, h2⟩ | ⟨h1, h2⟩
    · rw [if_pos h2]; exact h1
    · rw [if_neg (Nat.ne_of_lt h2)]; exact (h.built r p h1).mono hext
  · rcases hnew r p hp with ⟨h1, h2⟩ | ⟨h1, h2⟩
    · rw [if_pos h2]; exact Nat.le_refl _
    · rw [if_neg (Nat.ne_of_lt h2)]; exact Nat.le_trans (h.below r p h1) (Nat.le_add_right _ _)
  · rcases hnew r p hp with ⟨h1, h2⟩ | ⟨h1, h2⟩ <;> rcases hnew r' p' hp' with ⟨h3, h4⟩ | ⟨h3, h4⟩
    · omega
    · omega
    · rw [if_neg (Nat.ne_of_lt h2), if_pos h4]; exact h.below r p h1
    · rw [if_neg (Nat.ne_of_lt h2), if_neg (Nat.ne_of_lt h4)]; exact h.apart r p r' p' h1 h3 hlt

section
variable [Host]

theorem Apart.prim {w₀ : World} {s s' : QSt World} (h : Apart s) (hp : Prim w₀ s s') : Apart s' := by
  cases hp with
  | add | del => exact h.same (Nat.le_refl _) setBeliefs_code.1 setBeliefs_code.2
  | plan a src => exact h.plan a src
  | nv k hk => exact h.same hk rfl rfl
  | unplan r' keep =>
    refine h.mono (Nat.le_refl _) (.refl _) fun r p hp => ?_
    simp only [World.setPlist] at hp
    split at hp
    · next hr => subst hr; exact (List.mem_filter.1 hp).1
    · exact hp
  | _ => exact h.same (Nat.le_refl _) rfl rfl

theorem Apart.stable (w₀ : World) : Stable w₀ fun s => Base w₀ s.w ∧ Apart s where
  base _ h := h.1
  prim _ _ h hp := ⟨hp.base h.1, h.2.prim hp⟩

theorem callAll_apart {n a : Nat} {gt : GoalType} {ts : List Term} {s s' : QSt World} (hs : StacksOK s.w) (hw : Apart s)
    (h : (callAll n a gt ts s).leaves s') : Apart s' :=
  (callAll_keeps (Apart.stable s.w) ts s ⟨.refl hs.below, hw⟩ s' h).2

omit [Host] in
theorem addRules_apart {a : Nat} (rs : List (Rule Act)) {w : World} {s : QSt World} (h : Apart { s with w := w }) :
    Apart { s with w := rs.foldl (addRule a) w } := by
  induction rs generalizing w with
  | nil => exact h
  | cons r rs ih =>
    obtain ⟨f, e⟩ := addRule_rest (w := w) (a := a) (r := r)
    exact ih (h.same (Nat.le_refl _) (by dsimp only; rw [e]) (by dsimp only; rw [e]))

theorem buildAgent_apart {n : Nat} {src : AgentSrc} {base : String} {s s' : QSt World} (hs : StacksOK s.w) (hw : Apart s)
    (h : (buildAgent n src base s).leaves s') : Apart s' := by
  unfold Verif.buildAgent at h
  simp only at h
  have h1 : ∀ (rs : List (Rule Act)) (w : World), StacksOK w → StacksOK (rs.foldl (addRule s.w.nag) w) := by
    intro rs
    induction rs with
    | nil => exact fun _ h => h
    | cons r rs ih => exact fun w h => ih _ (h.addRule _ r)
  have h2 : ∀ (ps : List PlanSrc) (s₁ : QSt World), StacksOK s₁.w ∧ Apart s₁ →
      StacksOK (ps.foldl (fun s₁ p => buildPlan s.w.nag p s₁) s₁).w ∧ Apart (ps.foldl (fun s₁ p => buildPlan s.w.nag p s₁) s₁) := by
    intro ps
    induction ps with
    | nil => exact fun _ h => h
    | cons p ps ih =>
      have hp := fun s₁ => Prim.plan (w₀ := s₁.w) s₁ s.w.nag p
      exact fun s₁ h => ih _ ⟨(hp s₁).stacksOK h.1, h.2.plan _ _⟩
  have h3 := h2 src.plans { s with w := src.rules.foldl (addRule s.w.nag) (newAgent { name := makeName base (s.w.reg.map (·.1)) } s.w) }
    ⟨h1 _ _ (hs.newAgent _ rfl), addRules_apart _ (hw.same (Nat.le_refl _) rfl rfl)⟩
  rw [Res.leaves_bind] at h
  rcases h with ⟨e, h⟩ | ⟨_, s₁, h4, h⟩
  · exact callAll_apart h3.1 h3.2 (.inr ⟨e, h⟩)
  rw [Res.leaves_bind] at h
  have h5 := callAll_apart h3.1 h3.2 (.inl ⟨_, h4⟩)
  have h6 := callAll_stacksOK h3.1 (.inl ⟨_, h4⟩)
  rcases h with ⟨e, h⟩ | ⟨_, s₂, h7, h⟩
  · exact callAll_apart h6 h5 (.inr ⟨e, h⟩)
  rw [Res.leaves_ok] at h
  subst h
  exact (callAll_apart h6 h5 (.inl ⟨_, h7⟩)).same (Nat.le_refl _) rfl rfl

theorem buildMore_apart {n : Nat} {src : AgentSrc} {base : String} {proto : Nat} : ∀ {k : Nat} {s s' : QSt World},
    StacksOK s.w → Apart s → (buildMore n src base proto k s).leaves s' → Apart s'
  | 0, s, s', _, hw, h => by simp [Verif.buildMore] at h; exact h ▸ hw
  | k + 1, s, s', hs, hw, h => by
    unfold Verif.buildMore at h
    simp only [Res.leaves_bind, Res.leaves_ok] at h
    have h0 := hs.newAgent (⟨makeName base (s.w.reg.map (·.1)), (s.w.ags proto).beliefs, (s.w.ags proto).rules, (s.w.ags proto).plans, []⟩) rfl
    have h1 : Apart { s with w := newAgent ⟨makeName base (s.w.reg.map (·.1)), (s.w.ags proto).beliefs, (s.w.ags proto).rules,
        (s.w.ags proto).plans, []⟩ s.w } := hw.same (Nat.le_refl _) rfl rfl
    rcases h with ⟨e, h⟩ | ⟨_, s₁, h2, h⟩
    · exact callAll_apart h0 h1 (.inr ⟨e, h⟩)
    have h3 : StacksOK (Verif.register s.w.nag s₁.w) :=
      (callAll_stacksOK h0 (.inl ⟨_, h2⟩)).congr (w' := Verif.register s.w.nag s₁.w) (Nat.le_refl _) fun _ => rfl
    have h5 : Apart { s₁ with w := Verif.register s.w.nag s₁.w } := (callAll_apart h0 h1 (.inl ⟨_, h2⟩)).same (Nat.le_refl _) rfl rfl
    rcases h with ⟨e, h⟩ | ⟨_, s₂, h4, rfl⟩
    · exact buildMore_apart (s := { s₁ with w := Verif.register s.w.nag s₁.w }) h3 h5 (.inr ⟨e, h⟩)
    · exact buildMore_apart (s := { s₁ with w := Verif.register s.w.nag s₁.w }) h3 h5 (.inl ⟨_, h4⟩)

theorem buildAgents_apart {n k : Nat} {src : AgentSrc} {base₀ base : String} {s s' : QSt World} (hs : StacksOK s.w)
    (hw : Apart s) (h : (buildAgents n src k base₀ base s).leaves s') : Apart s' := by
  unfold Verif.buildAgents at h
  split at h
  · rw [Res.leaves_ok] at h; exact h ▸ hw
  · simp only [Res.leaves_bind, Res.leaves_ok] at h
    rcases h with ⟨e, h⟩ | ⟨_, s₁, h2, h⟩
    · exact buildAgent_apart hs hw (.inr ⟨e, h⟩)
    have h3 := buildAgent_apart hs hw (.inl ⟨_, h2⟩)
    have h4 := buildAgent_stacksOK hs (.inl ⟨_, h2⟩)
    rcases h with ⟨e, h⟩ | ⟨_, s₂, h5, rfl⟩
    · exact buildMore_apart h4 h3 (.inr ⟨e, h⟩)
    · exact buildMore_apart h4 h3 (.inl ⟨_, h5⟩)

theorem finish_nv {n a k i : Nat} {s s' : QSt World} (h : (finish n a k i s).leaves s') : s.nv ≤ s'.nv := by
  unfold finish at h
  simp only at h
  split at h
  · rw [Res.leaves_ok] at h
    subst h
    exact Nat.le_refl _
  · split at h
    · rw [Res.leaves_ok] at h; subst h; exact Nat.le_refl _
    · simp only [Res.leaves_err] at h; subst h; exact Nat.le_refl _
    · split at h
      · simp at h
      · next hx => simp only [Res.leaves_err] at h; subst h; exact freeze_nv_le _ _ _ _ _ (.inr ⟨_, hx⟩)
      · next hx =>
        have hm := freeze_nv_le _ _ _ _ _ (.inl ⟨_, hx⟩)
        split at h
        · simp at h
        · simp only [Res.leaves_err] at h; subst h; exact hm
        · split at h
          · rw [Res.leaves_ok] at h; subst h; exact hm
          · simp only [Res.leaves_err] at h; subst h; exact hm

theorem step_apart {n a : Nat} {s s' : QSt World} (hs : StacksOK s.w) (hw : Apart s) (h : (step n a s).leaves s') : Apart s' := by
  rcases step_spec n a s with ⟨k, _, h1⟩ | ⟨pre, i, st, post, k, w₁, h1, _, h2, h3⟩
  · rw [h1, Res.leaves_ok] at h
    subst h
    exact hw.same (Nat.le_refl _) rfl rfl
  · have hf : Frame s.w w₁ := (Frame.setStacks ..).trans h2.frame
    have h4 : Apart { s with w := w₁ } := hw.same (Nat.le_refl _) hf.code hf.plists
    rcases h3 with ⟨_, h3⟩ | ⟨pc, _, h3⟩
    · rw [h3] at h
      exact h4.same (finish_nv h) (finish_frame h).code (finish_frame h).plists
    · rw [h3] at h
      have hst : StacksOK w₁ := by
        have := hs.shrink (a := a) (sts := (s.w.ags a).intentions.dropWhile (·.isEmpty)) (by rw [flatten_dropWhile]; exact .refl _)
        cases h2 <;> exact this.congr (Nat.le_refl _) fun _ => rfl
      have hS : RunStable { w₁ with cur := a, curInt := i } i fun s => Base { w₁ with cur := a, curInt := i } s.w ∧ Apart s := {
        toStable := Apart.stable _
        run := fun s x h _ _ _ _ => ⟨h.1.setInt i x, h.2.same (Nat.le_refl _) rfl rfl⟩ }
      have hk := exec_keeps hS rfl (n := n) (a := a) (pc := pc)
        (s := { s with w := w₁ }) (fun s pc h => ⟨h.1.setInt i _, h.2.same (Nat.le_refl _) rfl rfl⟩)
        ⟨.refl hst.below, h4.same (Nat.le_refl _) rfl rfl⟩
      exact (hk s' h).2

theorem Reachable.apart {s : QSt World} (h : Reachable s) : Apart s := by
  induction h with
  | init clock => exact ⟨fun _ => ⟨⟨.addition, .achievement, .wild, .tru, [], none, ""⟩, 0, Code.empty⟩,
      fun r p h => by simp [World.init] at h, fun r p h => by simp [World.init] at h, fun r p _ _ h => by simp [World.init] at h⟩
  | build hr h ih => exact buildAgent_apart hr.stacksOK ih h
  | builds hr h ih => exact buildAgents_apart hr.stacksOK ih h
  | step hr h ih => exact step_apart hr.stacksOK ih h
  | sleep hr h ih => exact ih.prim (w₀ := World.init (fun _ => 0)) (sleep_prim h)
  | call hr h ih => exact (callNew_keeps (Apart.stable _) (gnext_keeps _) ⟨.refl hr.stacksOK.below, ih⟩ _ h).2

end

end Verif
