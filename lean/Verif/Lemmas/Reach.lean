import Verif.Lemmas.Step
import Verif.Lemmas.Beliefs

/-!
# Invariants of reachable states
-/

namespace Verif

/-- Only intentions, stacks, the time and the event log differ. -/
structure Frame (w w' : World) : Prop where
  ags : ∀ a, ∃ sts, w'.ags a = { w.ags a with intentions := sts }
  nag : w'.nag = w.nag
  reg : w'.reg = w.reg
  sets : w'.sets = w.sets
  nset : w'.nset = w.nset
  plists : w'.plists = w.plists
  nplist : w'.nplist = w.nplist
  code : w'.code = w.code
  out : w'.out = w.out

theorem Frame.refl (w : World) : Frame w w := ⟨fun _ => ⟨_, rfl⟩, rfl, rfl, rfl, rfl, rfl, rfl, rfl, rfl⟩

theorem Frame.ofAgs {w w' : World} (h : w'.ags = w.ags) (h1 : w'.nag = w.nag) (h2 : w'.reg = w.reg) (h3 : w'.sets = w.sets)
    (h4 : w'.nset = w.nset) (h5 : w'.plists = w.plists) (h6 : w'.nplist = w.nplist) (h7 : w'.code = w.code)
    (h8 : w'.out = w.out) : Frame w w' :=
  ⟨fun a => ⟨(w.ags a).intentions, by rw [h]⟩, h1, h2, h3, h4, h5, h6, h7, h8⟩

theorem Frame.trans {w w' w'' : World} (h : Frame w w') (h' : Frame w' w'') : Frame w w'' := by
  refine ⟨fun a => ?_, h'.nag.trans h.nag, h'.reg.trans h.reg, h'.sets.trans h.sets, h'.nset.trans h.nset, h'.plists.trans h.plists,
    h'.nplist.trans h.nplist, h'.code.trans h.code, h'.out.trans h.out⟩
  obtain ⟨_, h1⟩ := h.ags a
  obtain ⟨sts, h2⟩ := h'.ags a
  exact ⟨sts, by rw [h2, h1]⟩

theorem Frame.setStacks (w : World) (a : Nat) (sts : List (List Nat)) : Frame w (w.setStacks a sts) := by
  refine ⟨fun a' => ?_, rfl, rfl, rfl, rfl, rfl, rfl, rfl, rfl⟩
  simp only [World.setStacks, World.setAg]
  split
  · next h => subst h; exact ⟨sts, rfl⟩
  · exact ⟨_, rfl⟩

theorem Frame.setInt (w : World) (i : Nat) (x : Intention) : Frame w (w.setInt i x) :=
  .ofAgs rfl rfl rfl rfl rfl rfl rfl rfl rfl

/-- A property of worlds that is kept by the steps of agents. -/
structure StepInv [Host] (P : World → Prop) : Prop where
  frame : ∀ {w w'}, Frame w w' → P w → P w'
  prim : ∀ {w₀ s s'}, Prim w₀ s s' → P s.w → P s'.w

/-- A property of worlds that is kept by building single agents, too. -/
structure BuildInv [Host] (P : World → Prop) : Prop extends StepInv P where
  init : ∀ clock, P (World.init clock)
  agent : ∀ {w} name, P w → P (newAgent { name := name } w)
  rule : ∀ {w} a r, P w → P (addRule a w r)
  register : ∀ {w a}, a < w.nag → P w → P (register a w)

/-- A property of worlds that is kept by steps and by building single agents: the general
form, for properties of intentions, too. -/
structure WBuild [Host] (P : World → Prop) : Prop where
  prim : ∀ {w₀ s s'}, P w₀ → Base w₀ s.w → Prim w₀ s s' → P s.w → P s'.w
  step : ∀ {n a s s'}, StacksOK s.w → P s.w → (step n a s).leaves s' → P s'.w
  agent : ∀ {w} name, P w → P (newAgent { name := name } w)
  rule : ∀ {w} a r, P w → P (addRule a w r)
  register : ∀ {w a}, a < w.nag → P w → P (register a w)

/-- A property of worlds that is kept by everything that happens: the general form. -/
structure WInv [Host] (P : World → Prop) : Prop extends WBuild P where
  copy : ∀ {w} name a, P w → P (newAgent { name := name, beliefs := (w.ags a).beliefs, rules := (w.ags a).rules, plans := (w.ags a).plans } w)

/-- A property of worlds that is kept by everything that happens. -/
structure Inv [Host] (P : World → Prop) : Prop extends BuildInv P where
  copy : ∀ {w} name a, P w → P (newAgent { name := name, beliefs := (w.ags a).beliefs, rules := (w.ags a).rules, plans := (w.ags a).plans } w)

section
variable [Host] {P : World → Prop}

theorem StepInv.stable (hP : StepInv P) {w₀ : World} : Stable w₀ fun s => Base w₀ s.w ∧ P s.w where
  base _ h := h.1
  prim _ _ h hp := ⟨hp.base h.1, hP.prim hp h.2⟩

/-- Agents are created and registered by the environment only. -/
theorem Prim.agents {w₀ : World} {s s' : QSt World} (h : Prim w₀ s s') :
    s'.w.nag = s.w.nag ∧ s'.w.reg = s.w.reg ∧ ∀ a, (s'.w.ags a).name = (s.w.ags a).name := by
  have hset : ∀ (w : World) a g xs, (w.setBeliefs a g xs).nag = w.nag ∧ (w.setBeliefs a g xs).reg = w.reg ∧
      ∀ a', ((w.setBeliefs a g xs).ags a').name = (w.ags a').name := by
    intro w a g xs
    unfold World.setBeliefs
    split
    · exact ⟨rfl, rfl, fun _ => rfl⟩
    · refine ⟨rfl, rfl, fun a' => ?_⟩
      simp only [World.setAg, World.setSet]
      split
      · next h => rw [h]
      · rfl
  have hstk : ∀ (w : World) a sts a', ((w.setStacks a sts).ags a').name = (w.ags a').name := by
    intro w a sts a'
    simp only [World.setStacks, World.setAg]
    split
    · next h => rw [h]
    · rfl
  cases h with
  | add => exact hset ..
  | del => exact hset ..
  | drop => exact ⟨rfl, rfl, hstk _ _ _⟩
  | push => exact ⟨rfl, rfl, hstk _ _ _⟩
  | plan a src =>
    simp only [buildPlan]
    unfold World.addPlan
    split
    · exact ⟨rfl, rfl, fun _ => rfl⟩
    · refine ⟨rfl, rfl, fun a' => ?_⟩
      simp only [World.setAg, World.setPlist]
      split
      · next h => rw [h]
      · rfl
  | _ => exact ⟨rfl, rfl, fun _ => rfl⟩

/-- The environment's view of a world. -/
def SameAgents (w w' : World) : Prop := w'.nag = w.nag ∧ w'.reg = w.reg ∧ ∀ a, (w'.ags a).name = (w.ags a).name

theorem callAll_agents {n a : Nat} {gt : GoalType} {ts : List Term} {s s' : QSt World} (hs : StacksOK s.w)
    (h : (callAll n a gt ts s).leaves s') : SameAgents s.w s'.w := by
  have hst : Stable s.w fun s' => Base s.w s'.w ∧ SameAgents s.w s'.w :=
    ⟨fun _ _ h hp => ⟨hp.base h.1, hp.agents.1.trans h.2.1, hp.agents.2.1.trans h.2.2.1, fun a => (hp.agents.2.2 a).trans (h.2.2.2 a)⟩,
      fun _ h => h.1⟩
  exact (callAll_keeps hst ts s ⟨.refl hs.below, rfl, rfl, fun _ => rfl⟩ s' h).2

omit [Host] in
theorem SameAgents.refl (w : World) : SameAgents w w := ⟨rfl, rfl, fun _ => rfl⟩

omit [Host] in
theorem SameAgents.trans {w w' w'' : World} (h : SameAgents w w') (h' : SameAgents w' w'') : SameAgents w w'' :=
  ⟨h'.1.trans h.1, h'.2.1.trans h.2.1, fun a => (h'.2.2 a).trans (h.2.2 a)⟩

omit [Host] in
theorem addRule_agents (w : World) (a : Nat) (r : Rule Act) : SameAgents w (addRule a w r) := by
  unfold Verif.addRule
  split
  · refine ⟨rfl, rfl, fun a' => ?_⟩
    simp only [World.setAg]
    split
    · next h => rw [h]
    · rfl
  · exact .refl _

/-- The first part of `buildAgent`: rules and plans. -/
theorem prepare_agents (a : Nat) (src : AgentSrc) (s : QSt World) :
    SameAgents s.w (src.plans.foldl (fun s p => buildPlan a p s) { s with w := src.rules.foldl (addRule a) s.w }).w := by
  have h1 : ∀ (rs : List (Rule Act)) (w : World), SameAgents w (rs.foldl (addRule a) w) := by
    intro rs
    induction rs with
    | nil => exact fun w => .refl w
    | cons r rs ih => exact fun w => (addRule_agents w a r).trans (ih _)
  have h2 : ∀ (ps : List PlanSrc) (s : QSt World), SameAgents s.w (ps.foldl (fun s p => buildPlan a p s) s).w := by
    intro ps
    induction ps with
    | nil => exact fun s => .refl s.w
    | cons p ps ih => exact fun s => SameAgents.trans (Prim.plan (w₀ := s.w) s a p).agents (ih _)
  exact (h1 _ _).trans (h2 _ _)

theorem WBuild.stable (hP : WBuild P) {w₀ : World} (h₀ : P w₀) : Stable w₀ fun s => Base w₀ s.w ∧ P s.w where
  base _ h := h.1
  prim _ _ h hp := ⟨hp.base h.1, hP.prim h₀ h.1 hp h.2⟩

theorem WBuild.callAll (hP : WBuild P) {n a : Nat} {gt : GoalType} {ts : List Term} {s s' : QSt World} (hs : StacksOK s.w) (hw : P s.w)
    (h : (callAll n a gt ts s).leaves s') : P s'.w :=
  (callAll_keeps (hP.stable hw) ts s ⟨.refl hs.below, hw⟩ s' h).2

theorem WBuild.buildAgent (hP : WBuild P) {n : Nat} {src : AgentSrc} {base : String} {s s' : QSt World} (hs : StacksOK s.w) (hw : P s.w)
    (h : (buildAgent n src base s).leaves s') : P s'.w := by
  unfold Verif.buildAgent at h
  simp only at h
  have h1 : ∀ (rs : List (Rule Act)) (w : World), StacksOK w ∧ P w →
      StacksOK (rs.foldl (addRule s.w.nag) w) ∧ P (rs.foldl (addRule s.w.nag) w) := by
    intro rs
    induction rs with
    | nil => exact fun _ h => h
    | cons r rs ih => exact fun w h => ih _ ⟨h.1.addRule _ r, hP.rule _ r h.2⟩
  have h2 : ∀ (ps : List PlanSrc) (s₁ : QSt World), StacksOK s₁.w ∧ P s₁.w →
      StacksOK (ps.foldl (fun s₁ p => buildPlan s.w.nag p s₁) s₁).w ∧ P (ps.foldl (fun s₁ p => buildPlan s.w.nag p s₁) s₁).w := by
    intro ps
    induction ps with
    | nil => exact fun _ h => h
    | cons p ps ih =>
      have hp := fun s₁ => Prim.plan (w₀ := s₁.w) s₁ s.w.nag p
      exact fun s₁ h => ih _ ⟨(hp s₁).stacksOK h.1, hP.prim h.2 (.refl h.1.below) (hp s₁) h.2⟩
  have h3 := h2 src.plans { s with w := src.rules.foldl (addRule s.w.nag) (newAgent { name := makeName base (s.w.reg.map (·.1)) } s.w) }
    (h1 _ _ ⟨hs.newAgent _ rfl, hP.agent _ hw⟩)
  rw [Res.leaves_bind] at h
  rcases h with ⟨e, h⟩ | ⟨_, s₁, h4, h⟩
  · exact hP.callAll h3.1 h3.2 (.inr ⟨e, h⟩)
  rw [Res.leaves_bind] at h
  have h5 := hP.callAll h3.1 h3.2 (.inl ⟨_, h4⟩)
  have h6 := callAll_stacksOK h3.1 (.inl ⟨_, h4⟩)
  rcases h with ⟨e, h⟩ | ⟨_, s₂, h7, h⟩
  · exact hP.callAll h6 h5 (.inr ⟨e, h⟩)
  rw [Res.leaves_ok] at h
  subst h
  have h8 := ((prepare_agents s.w.nag src { s with w := newAgent { name := makeName base (s.w.reg.map (·.1)) } s.w }).trans
    (callAll_agents h3.1 (.inl ⟨_, h4⟩))).trans (callAll_agents h6 (.inl ⟨_, h7⟩))
  exact hP.register (by rw [h8.1]; exact Nat.lt_succ_self _) (hP.callAll h6 h5 (.inl ⟨_, h7⟩))

theorem WInv.buildMore (hP : WInv P) {n : Nat} {src : AgentSrc} {base : String} {proto : Nat} : ∀ {k : Nat} {s s' : QSt World},
    StacksOK s.w → P s.w → (buildMore n src base proto k s).leaves s' → P s'.w
  | 0, s, s', _, hw, h => by simp [Verif.buildMore] at h; exact h ▸ hw
  | k + 1, s, s', hs, hw, h => by
    unfold Verif.buildMore at h
    simp only [Res.leaves_bind, Res.leaves_ok] at h
    have h0 := hs.newAgent (⟨makeName base (s.w.reg.map (·.1)), (s.w.ags proto).beliefs, (s.w.ags proto).rules, (s.w.ags proto).plans, []⟩) rfl
    have h1 := hP.copy (makeName base (s.w.reg.map (·.1))) proto hw
    rcases h with ⟨e, h⟩ | ⟨_, s₁, h2, h⟩
    · exact hP.callAll h0 h1 (.inr ⟨e, h⟩)
    have h3 : StacksOK (Verif.register s.w.nag s₁.w) :=
      (callAll_stacksOK h0 (.inl ⟨_, h2⟩)).congr (w' := Verif.register s.w.nag s₁.w) (Nat.le_refl _) fun _ => rfl
    have h5 := hP.register (a := s.w.nag) (by rw [(callAll_agents h0 (.inl ⟨_, h2⟩)).1]; exact Nat.lt_succ_self _)
      (hP.callAll h0 h1 (.inl ⟨_, h2⟩))
    rcases h with ⟨e, h⟩ | ⟨_, s₂, h4, rfl⟩
    · exact hP.buildMore (s := { s₁ with w := Verif.register s.w.nag s₁.w }) h3 h5 (.inr ⟨e, h⟩)
    · exact hP.buildMore (s := { s₁ with w := Verif.register s.w.nag s₁.w }) h3 h5 (.inl ⟨_, h4⟩)

omit [Host] in
theorem Chosen1.frame {w w' : World} {k i : Nat} (h : Chosen1 w k i w') : Frame w w' := by
  cases h <;> exact .ofAgs rfl rfl rfl rfl rfl rfl rfl rfl rfl

theorem finish_frame {n a k i : Nat} {s s' : QSt World} (h : (finish n a k i s).leaves s') : Frame s.w s'.w := by
  unfold finish at h
  simp only at h
  split at h
  · rw [Res.leaves_ok] at h
    subst h
    exact .setStacks ..
  · split at h
    · rw [Res.leaves_ok] at h; subst h; exact .setStacks ..
    · simp only [Res.leaves_err] at h; subst h; exact .setStacks ..
    · split at h
      · simp at h
      · simp only [Res.leaves_err] at h; subst h; exact .setStacks ..
      · split at h
        · simp at h
        · simp only [Res.leaves_err] at h; subst h; exact (Frame.setStacks ..).trans (.setInt ..)
        · split at h
          · rw [Res.leaves_ok] at h; subst h; exact (Frame.setStacks ..).trans (.setInt ..)
          · simp only [Res.leaves_err] at h; subst h; exact (Frame.setStacks ..).trans (.setInt ..)

theorem StepInv.runStable (hP : StepInv P) {w₀ : World} {i : Nat} : RunStable w₀ i fun s => Base w₀ s.w ∧ P s.w where
  toStable := hP.stable
  run _ _ h _ _ _ _ := ⟨h.1.setInt i _, hP.frame (.setInt ..) h.2⟩

theorem StepInv.step (hP : StepInv P) {n a : Nat} {s s' : QSt World} (hs : StacksOK s.w) (hw : P s.w) (h : (step n a s).leaves s') : P s'.w := by
  rcases step_spec n a s with ⟨k, _, h1⟩ | ⟨pre, i, st, post, k, w₁, h1, _, h2, h3⟩
  · rw [h1, Res.leaves_ok] at h
    subst h
    exact hP.frame ((Frame.setStacks ..).trans (.ofAgs rfl rfl rfl rfl rfl rfl rfl rfl rfl)) hw
  · have h4 : P w₁ := hP.frame ((Frame.setStacks ..).trans h2.frame) hw
    rcases h3 with ⟨_, h3⟩ | ⟨pc, _, h3⟩
    · rw [h3] at h
      exact hP.frame (finish_frame h) h4
    · rw [h3] at h
      have hst : StacksOK w₁ := by
        have := hs.shrink (a := a) (sts := (s.w.ags a).intentions.dropWhile (·.isEmpty)) (by rw [flatten_dropWhile]; exact .refl _)
        cases h2 <;> exact this.congr (Nat.le_refl _) fun _ => rfl
      have hk := exec_keeps (hP.runStable (w₀ := { w₁ with cur := a, curInt := i }) (i := i)) rfl (n := n) (a := a) (pc := pc)
        (s := { s with w := w₁ }) (fun s pc h => ⟨h.1.setInt i _, hP.frame (.setInt ..) h.2⟩)
        ⟨.refl hst.below, hP.frame (w := w₁) (w' := { w₁ with cur := a, curInt := i }) (.ofAgs rfl rfl rfl rfl rfl rfl rfl rfl rfl) h4⟩
      exact (hk s' h).2

/-- Invariants hold in all reachable states: the general form. -/
theorem WInv.buildAgents (hP : WInv P) {n k : Nat} {src : AgentSrc} {base₀ base : String} {s s' : QSt World} (hs : StacksOK s.w)
    (hw : P s.w) (h : (buildAgents n src k base₀ base s).leaves s') : P s'.w := by
  unfold Verif.buildAgents at h
  split at h
  · rw [Res.leaves_ok] at h; exact h ▸ hw
  · simp only [Res.leaves_bind, Res.leaves_ok] at h
    rcases h with ⟨e, h⟩ | ⟨_, s₁, h2, h⟩
    · exact hP.buildAgent hs hw (.inr ⟨e, h⟩)
    have h3 := hP.buildAgent hs hw (.inl ⟨_, h2⟩)
    have h4 := buildAgent_stacksOK hs (.inl ⟨_, h2⟩)
    rcases h with ⟨e, h⟩ | ⟨_, s₂, h5, rfl⟩
    · exact hP.buildMore h4 h3 (.inr ⟨e, h⟩)
    · exact hP.buildMore h4 h3 (.inl ⟨_, h5⟩)

theorem WInv.sleep (hP : WInv P) {d : Rat} {s s' : QSt World} (hs : StacksOK s.w) (hw : P s.w) (h : (sleepUntil d s).leaves s') :
    P s'.w := hP.prim hw (.refl hs.below) (sleep_prim h) hw

theorem WInv.callNew (hP : WInv P) {n a : Nat} {tr : Trigger} {gt : GoalType} {t : Term} {delayed : Bool} {s s' : QSt World}
    (hs : StacksOK s.w) (hw : P s.w) (h : (callNew n (gnext n) a tr gt t delayed s).leaves s') : P s'.w :=
  (callNew_keeps (hP.stable hw) (gnext_keeps _) ⟨.refl hs.below, hw⟩ _ h).2

theorem Reachable.winv (hP : WInv P) (h₀ : ∀ clock, P (World.init clock)) {s : QSt World} (h : Reachable s) : P s.w := by
  induction h with
  | init clock => exact h₀ clock
  | build hr h ih => exact hP.buildAgent hr.stacksOK ih h
  | builds hr h ih => exact hP.buildAgents hr.stacksOK ih h
  | step hr h ih => exact hP.step hr.stacksOK ih h
  | sleep hr h ih => exact hP.sleep hr.stacksOK ih h
  | call hr h ih => exact hP.callNew hr.stacksOK ih h

theorem BuildInv.weak (hP : BuildInv P) : WBuild P where
  prim _ _ hp h := hP.prim hp h
  step := hP.step
  agent := hP.agent
  rule := hP.rule
  register := hP.register

theorem BuildInv.buildAgent (hP : BuildInv P) {n : Nat} {src : AgentSrc} {base : String} {s s' : QSt World} (hs : StacksOK s.w) (hw : P s.w)
    (h : (buildAgent n src base s).leaves s') : P s'.w := hP.weak.buildAgent hs hw h

/-- Invariants hold in all reachable states. -/
theorem Reachable.inv (hP : Inv P) {s : QSt World} (h : Reachable s) : P s.w :=
  h.winv ⟨hP.weak, hP.copy⟩ hP.init

omit [Host] in
theorem addRule_ags {w : World} {a : Nat} {r : Rule Act} (a' : Nat) :
    ∃ rs, (addRule a w r).ags a' = { w.ags a' with rules := rs } := by
  unfold addRule
  split
  · simp only [World.setAg]
    split
    · next h => subst h; exact ⟨_, rfl⟩
    · exact ⟨_, rfl⟩
  · exact ⟨_, rfl⟩

omit [Host] in
theorem addRule_rest {w : World} {a : Nat} {r : Rule Act} :
    ∃ f, addRule a w r = { w with ags := f } := by
  unfold addRule
  split <;> exact ⟨_, rfl⟩

theorem beliefsOK_inv : Inv BeliefsOK where
  init clock := ⟨by simp [World.init], by simp [World.init], by simp [World.init, World.beliefs], by simp [World.init, World.beliefs],
    by simp [World.init, World.beliefs]⟩
  frame h hw := hw.congr (fun a => by obtain ⟨_, h⟩ := h.ags a; rw [h]) h.sets (Nat.le_of_eq h.nset.symm)
  prim h hw := h.beliefsOK hw
  agent {w} name hw := by
    have hb : ∀ a g, ((newAgent { name := name } w).ags a).beliefs g = none ∨
        ((newAgent { name := name } w).ags a).beliefs g = (w.ags a).beliefs g := by
      intro a g; simp only [newAgent, World.setAg]; split
      · exact .inl rfl
      · exact .inr rfl
    have hs : ∀ {a g x}, x ∈ (newAgent { name := name } w).beliefs a g → x ∈ w.beliefs a g := by
      intro a g x
      unfold World.beliefs
      rcases hb a g with h | h <;> rw [h]
      · simp
      · exact id
    refine ⟨fun h => ?_, fun {a a' g g' r} h h' => ?_, fun h => hw.lits (hs h), fun h => hw.ground (hs h), fun {a g} => ?_⟩
    · rcases hb _ _ with h1 | h1 <;> rw [h1] at h
      · cases h
      · exact hw.lt h
    · rcases hb a g with h1 | h1 <;> rw [h1] at h <;> rcases hb a' g' with h2 | h2 <;> rw [h2] at h'
      · cases h
      · cases h
      · cases h'
      · exact hw.inj h h'
    · unfold World.beliefs
      rcases hb a g with h | h <;> rw [h]
      · simp
      · exact hw.set
  copy {w} name a hw := by
    have hb : ∀ a', ∃ a₁, ∀ g, ((newAgent { name := name, beliefs := (w.ags a).beliefs, rules := (w.ags a).rules, plans := (w.ags a).plans } w).ags a').beliefs g
        = (w.ags a₁).beliefs g := by
      intro a'; simp only [newAgent, World.setAg]; split
      · exact ⟨a, fun _ => rfl⟩
      · exact ⟨a', fun _ => rfl⟩
    have hs : ∀ a', ∃ a₁, ∀ g, (newAgent { name := name, beliefs := (w.ags a).beliefs, rules := (w.ags a).rules, plans := (w.ags a).plans } w).beliefs a' g
        = w.beliefs a₁ g := by
      intro a'
      obtain ⟨a₁, h⟩ := hb a'
      exact ⟨a₁, fun g => by unfold World.beliefs; rw [h]; rfl⟩
    refine ⟨fun {a g r} h => ?_, fun {a a' g g' r} h h' => ?_, fun {a g x} h => ?_, fun {a g x} h => ?_, fun {a g} => ?_⟩
    · obtain ⟨a₁, h1⟩ := hb a; rw [h1] at h; exact hw.lt h
    · obtain ⟨a₁, h1⟩ := hb a; rw [h1] at h
      obtain ⟨a₂, h2⟩ := hb a'; rw [h2] at h'
      exact hw.inj h h'
    · obtain ⟨a₁, h1⟩ := hs a; rw [h1] at h; exact hw.lits h
    · obtain ⟨a₁, h1⟩ := hs a; rw [h1] at h; exact hw.ground h
    · obtain ⟨a₁, h1⟩ := hs a; rw [h1]; exact hw.set
  rule {w} a r hw := by
    obtain ⟨f, h⟩ := addRule_rest (w := w) (a := a) (r := r)
    refine hw.congr (fun a' => ?_) (by rw [h]) (by rw [h]; exact Nat.le_refl _)
    obtain ⟨rs, h'⟩ := addRule_ags (w := w) (a := a) (r := r) a'
    rw [h']
  register a hw := hw.congr (fun _ => rfl) rfl (Nat.le_refl _)

end

end Verif
