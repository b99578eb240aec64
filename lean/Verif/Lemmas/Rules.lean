import Verif.Lemmas.RunInv
import Verif.Lemmas.Env
import Verif.Spec.Rules

/-!
# Lemmas: the rules of agents
-/

namespace Verif

theorem setBeliefs_keepRules (w : World) (a : Nat) (g : String × Nat) (xs : List Term) (a' : Nat) :
    ((w.setBeliefs a g xs).ags a').rules = (w.ags a').rules ∧ (w.setBeliefs a g xs).nag = w.nag := by
  unfold World.setBeliefs
  split
  · exact ⟨rfl, rfl⟩
  · refine ⟨?_, rfl⟩
    simp only [World.setAg, World.setSet]
    split
    · next h => rw [h]
    · rfl

theorem setStacks_keepRules (w : World) (a : Nat) (sts : List (List Nat)) (a' : Nat) :
    ((w.setStacks a sts).ags a').rules = (w.ags a').rules := by
  simp only [World.setStacks, World.setAg]
  split
  · next h => rw [h]
  · rfl

theorem buildPlan_keepRules (a : Nat) (p : PlanSrc) (s : QSt World) (a' : Nat) :
    ((buildPlan a p s).w.ags a').rules = (s.w.ags a').rules ∧ (buildPlan a p s).w.nag = s.w.nag := by
  simp only [buildPlan]
  unfold World.addPlan
  split
  · exact ⟨rfl, rfl⟩
  · refine ⟨?_, rfl⟩
    simp only [World.setAg, World.setPlist]
    split
    · next h => rw [h]
    · rfl

theorem buildPlans_keepRules (a : Nat) : ∀ (ps : List PlanSrc) (s : QSt World) (a' : Nat),
    ((ps.foldl (fun s p => buildPlan a p s) s).w.ags a').rules = (s.w.ags a').rules ∧
      (ps.foldl (fun s p => buildPlan a p s) s).w.nag = s.w.nag
  | [], _, _ => ⟨rfl, rfl⟩
  | p :: ps, s, a' => by
    rw [List.foldl_cons]
    have h := buildPlans_keepRules a ps (buildPlan a p s) a'
    have h' := buildPlan_keepRules a p s a'
    exact ⟨h.1.trans h'.1, h.2.trans h'.2⟩

theorem addRule_rules (w : World) (a : Nat) (r : Rule Act) (a' : Nat) (g : String × Nat) :
    ((addRule a w r).ags a').rules g = (w.ags a').rules g ++ (if a' = a then [r].filter (·.isFor g) else []) ∧
      (addRule a w r).nag = w.nag := by
  unfold addRule Rule.isFor
  split
  · next f as xs hr =>
    refine ⟨?_, rfl⟩
    simp only [World.setAg, hr, List.filter_cons, List.filter_nil, beq_iff_eq]
    by_cases h : a' = a
    · subst h
      simp only [if_true]
      by_cases h' : g = (f, as.length)
      · rw [if_pos h', if_pos h'.symm]
      · rw [if_neg h', if_neg (Ne.symm h'), List.append_nil]
    · simp only [if_neg h, List.append_nil]
  · next hr =>
    refine ⟨?_, rfl⟩
    split
    · rw [List.filter_cons_of_neg, List.filter_nil, List.append_nil]
      split
      · next f as xs h => exact absurd h (hr f as xs)
      · nofun
    · rw [List.append_nil]

theorem addRules_rules (a : Nat) (g : String × Nat) (a' : Nat) : ∀ (rs : List (Rule Act)) (w : World),
    ((rs.foldl (addRule a) w).ags a').rules g = (w.ags a').rules g ++ (if a' = a then rs.filter (·.isFor g) else []) ∧
      (rs.foldl (addRule a) w).nag = w.nag
  | [], w => ⟨by simp, rfl⟩
  | r :: rs, w => by
    rw [List.foldl_cons]
    have h := addRules_rules a g a' rs (addRule a w r)
    have h' := addRule_rules w a r a' g
    refine ⟨?_, h.2.trans h'.2⟩
    rw [h.1, h'.1, List.append_assoc]
    split
    · rw [show r :: rs = [r] ++ rs from rfl, List.filter_append]
    · rfl

section
variable [Host]

/-- Steps and messages leave the rules of all agents as they are. -/
theorem rules_inv (N : Nat) (R : Nat → String × Nat → List (Rule Act)) : StepInv fun w => w.nag = N ∧ ∀ a, (w.ags a).rules = R a where
  frame hf h := ⟨hf.nag.trans h.1, fun a => by obtain ⟨sts, h1⟩ := hf.ags a; rw [h1]; exact h.2 a⟩
  prim hp h := by
    cases hp with
    | add | del => exact ⟨(setBeliefs_keepRules _ _ _ _ 0).2.trans h.1, fun a => (setBeliefs_keepRules ..).1.trans (h.2 a)⟩
    | drop | push => exact ⟨h.1, fun a => (setStacks_keepRules ..).trans (h.2 a)⟩
    | plan => exact ⟨(buildPlan_keepRules _ _ _ 0).2.trans h.1, fun a => (buildPlan_keepRules ..).1.trans (h.2 a)⟩
    | _ => exact h

theorem callAll_rules {n a : Nat} {gt : GoalType} {ts : List Term} {s s' : QSt World} (hs : StacksOK s.w)
    (h : (callAll n a gt ts s).leaves s') : s'.w.nag = s.w.nag ∧ ∀ a, (s'.w.ags a).rules = (s.w.ags a).rules :=
  (callAll_keeps (rules_inv s.w.nag fun a => (s.w.ags a).rules).stable ts s ⟨.refl hs.below, rfl, fun _ => rfl⟩ s' h).2

/-- Building an agent adds one agent, with the rules of the program; the rules of all others stay. -/
theorem buildAgent_rules {n : Nat} {src : AgentSrc} {base : String} {s s' : QSt World} (hs : StacksOK s.w)
    (h : (buildAgent n src base s).leaves s') :
    s'.w.nag = s.w.nag + 1 ∧ ∀ a g, (s'.w.ags a).rules g = if a = s.w.nag then src.rules.filter (·.isFor g) else (s.w.ags a).rules g := by
  unfold Verif.buildAgent at h
  simp only at h
  have hst : StacksOK (src.plans.foldl (fun s₁ p => buildPlan s.w.nag p s₁)
      { s with w := src.rules.foldl (addRule s.w.nag) (newAgent { name := makeName base (s.w.reg.map (·.1)) } s.w) }).w :=
    prepare_stacksOK _ src (s := { s with w := newAgent { name := makeName base (s.w.reg.map (·.1)) } s.w }) (hs.newAgent _ rfl)
  have h0 : ∀ a g, ((src.plans.foldl (fun s₁ p => buildPlan s.w.nag p s₁)
      { s with w := src.rules.foldl (addRule s.w.nag) (newAgent { name := makeName base (s.w.reg.map (·.1)) } s.w) }).w.ags a).rules g =
        (if a = s.w.nag then src.rules.filter (·.isFor g) else (s.w.ags a).rules g) ∧
      (src.plans.foldl (fun s₁ p => buildPlan s.w.nag p s₁)
        { s with w := src.rules.foldl (addRule s.w.nag) (newAgent { name := makeName base (s.w.reg.map (·.1)) } s.w) }).w.nag = s.w.nag + 1 := by
    intro a g
    obtain ⟨h1, h2⟩ := buildPlans_keepRules s.w.nag src.plans
      { s with w := src.rules.foldl (addRule s.w.nag) (newAgent { name := makeName base (s.w.reg.map (·.1)) } s.w) } a
    obtain ⟨h3, h4⟩ := addRules_rules s.w.nag g a src.rules (newAgent { name := makeName base (s.w.reg.map (·.1)) } s.w)
    rw [h1, h2]
    refine ⟨?_, h4⟩
    rw [h3]
    simp only [newAgent, World.setAg]
    split <;> simp
  rw [Res.leaves_bind] at h
  rcases h with ⟨e, h⟩ | ⟨_, s₁, h4, h⟩
  · obtain ⟨h5, h6⟩ := callAll_rules hst (.inr ⟨e, h⟩)
    exact ⟨h5.trans (h0 0 ("", 0)).2, fun a g => by rw [h6 a]; exact (h0 a g).1⟩
  rw [Res.leaves_bind] at h
  have h5 := callAll_stacksOK hst (.inl ⟨_, h4⟩)
  obtain ⟨h6, h7⟩ := callAll_rules hst (.inl ⟨_, h4⟩)
  rcases h with ⟨e, h⟩ | ⟨_, s₂, h8, h⟩
  · obtain ⟨h8, h9⟩ := callAll_rules h5 (.inr ⟨e, h⟩)
    exact ⟨(h8.trans h6).trans (h0 0 ("", 0)).2, fun a g => by rw [h9 a, h7 a]; exact (h0 a g).1⟩
  rw [Res.leaves_ok] at h
  subst h
  obtain ⟨h8, h9⟩ := callAll_rules h5 (.inl ⟨_, h8⟩)
  exact ⟨(h8.trans h6).trans (h0 0 ("", 0)).2, fun a g => by
    change (s₂.w.ags a).rules g = _
    rw [h9 a, h7 a]; exact (h0 a g).1⟩

theorem buildAgent_index {n : Nat} {src : AgentSrc} {base : String} {s s' : QSt World} {a : Nat}
    (h : buildAgent n src base s = .ok a s') : a = s.w.nag := by
  unfold Verif.buildAgent at h
  obtain ⟨_, _, _, h⟩ := Res.bind_eq_ok.1 h
  obtain ⟨_, _, _, h⟩ := Res.bind_eq_ok.1 h
  cases h
  rfl

/-- The copies made by `build_agents` have the rules of the first one. -/
theorem buildMore_rules {n : Nat} {src : AgentSrc} {base : String} {proto : Nat} : ∀ {k : Nat} {s s' : QSt World},
    StacksOK s.w → proto < s.w.nag → (buildMore n src base proto k s).leaves s' →
    s.w.nag ≤ s'.w.nag ∧ ∀ a, a < s'.w.nag → (s'.w.ags a).rules = (s.w.ags (if a < s.w.nag then a else proto)).rules
  | 0, s, s', _, _, h => by
    simp [Verif.buildMore] at h
    subst h
    exact ⟨Nat.le_refl _, fun a ha => by rw [if_pos ha]⟩
  | k + 1, s, s', hs, hp, h => by
    unfold Verif.buildMore at h
    simp only [Res.leaves_bind, Res.leaves_ok] at h
    have h0 := hs.newAgent (⟨makeName base (s.w.reg.map (·.1)), (s.w.ags proto).beliefs, (s.w.ags proto).rules, (s.w.ags proto).plans, []⟩) rfl
    have key : ∀ s₁ : QSt World, s₁.w.nag = s.w.nag + 1 → (∀ a, (s₁.w.ags a).rules = ((newAgent ⟨makeName base (s.w.reg.map (·.1)), (s.w.ags proto).beliefs, (s.w.ags proto).rules, (s.w.ags proto).plans, []⟩ s.w).ags a).rules) →
        ∀ a, a < s.w.nag + 1 → (s₁.w.ags a).rules = (s.w.ags (if a < s.w.nag then a else proto)).rules := by
      intro s₁ _ h2 a ha
      rw [h2]
      simp only [newAgent, World.setAg]
      by_cases e : a = s.w.nag
      · subst e; simp
      · have : a < s.w.nag := by omega
        simp [e, this]
    rcases h with ⟨e, h⟩ | ⟨_, s₁, h2, h⟩
    · obtain ⟨h1, h2⟩ := callAll_rules h0 (.inr ⟨e, h⟩)
      exact ⟨Nat.le_trans (Nat.le_succ _) (Nat.le_of_eq h1.symm), fun a ha => key s' h1 h2 a (Nat.lt_of_lt_of_eq ha h1)⟩
    obtain ⟨h4, h5⟩ := callAll_rules h0 (.inl ⟨_, h2⟩)
    have h4 : s₁.w.nag = s.w.nag + 1 := h4
    have h3 : StacksOK (Verif.register s.w.nag s₁.w) :=
      (callAll_stacksOK h0 (.inl ⟨_, h2⟩)).congr (w' := Verif.register s.w.nag s₁.w) (Nat.le_refl _) fun _ => rfl
    have h6 : (buildMore n src base proto k { s₁ with w := Verif.register s.w.nag s₁.w }).leaves s' := by
      rcases h with ⟨e, h⟩ | ⟨_, s₂, h, rfl⟩
      · exact .inr ⟨e, h⟩
      · exact .inl ⟨_, h⟩
    obtain ⟨h7, h8⟩ := buildMore_rules (s := { s₁ with w := Verif.register s.w.nag s₁.w }) h3
      (by change proto < s₁.w.nag; omega) h6
    have h7 : s₁.w.nag ≤ s'.w.nag := h7
    refine ⟨by omega, fun a ha => ?_⟩
    have h8 : (s'.w.ags a).rules = (s₁.w.ags (if a < s₁.w.nag then a else proto)).rules := h8 a ha
    rw [h8, h4]
    by_cases e : a < s.w.nag + 1
    · rw [if_pos e]
      exact key s₁ h4 h5 a e
    · rw [if_neg e, if_neg (by omega : ¬a < s.w.nag), key s₁ h4 h5 proto (by omega), if_pos hp]

/-- Building agents adds agents with the rules of the program; the rules of all others stay. -/
theorem buildAgents_rules {n k : Nat} {src : AgentSrc} {base₀ base : String} {s s' : QSt World} (hs : StacksOK s.w)
    (h : (buildAgents n src k base₀ base s).leaves s') :
    s.w.nag ≤ s'.w.nag ∧ ∀ a g, a < s'.w.nag →
      (s'.w.ags a).rules g = if s.w.nag ≤ a then src.rules.filter (·.isFor g) else (s.w.ags a).rules g := by
  unfold Verif.buildAgents at h
  split at h
  · rw [Res.leaves_ok] at h
    subst h
    exact ⟨Nat.le_refl _, fun a g ha => by rw [if_neg (by omega)]⟩
  · rename_i k
    simp only [Res.leaves_bind, Res.leaves_ok] at h
    have one : ∀ s₁ : QSt World, s₁.w.nag = s.w.nag + 1 →
        (∀ a g, (s₁.w.ags a).rules g = if a = s.w.nag then src.rules.filter (·.isFor g) else (s.w.ags a).rules g) →
        ∀ a g, a < s.w.nag + 1 → (s₁.w.ags a).rules g = if s.w.nag ≤ a then src.rules.filter (·.isFor g) else (s.w.ags a).rules g := by
      intro s₁ _ h a g ha
      rw [h]
      by_cases e : a = s.w.nag
      · rw [if_pos e, if_pos (by omega)]
      · rw [if_neg e, if_neg (by omega)]
    rcases h with ⟨e, h⟩ | ⟨a₀, s₁, h2, h⟩
    · obtain ⟨h1, h2⟩ := buildAgent_rules hs (.inr ⟨e, h⟩)
      exact ⟨by omega, fun a g ha => one s' h1 h2 a g (by omega)⟩
    obtain ⟨h3, h4⟩ := buildAgent_rules hs (.inl ⟨_, h2⟩)
    have ha : a₀ = s.w.nag := buildAgent_index h2
    subst ha
    have h6 : (buildMore n src base s.w.nag k s₁).leaves s' := by
      rcases h with ⟨e, h⟩ | ⟨_, s₂, h, rfl⟩
      · exact .inr ⟨e, h⟩
      · exact .inl ⟨_, h⟩
    have h6 := buildMore_rules (buildAgent_stacksOK hs (.inl ⟨_, h2⟩)) (by omega) h6
    refine ⟨by omega, fun a g ha => ?_⟩
    rw [h6.2 a ha]
    by_cases e : a < s₁.w.nag
    · rw [if_pos e]
      exact one s₁ h3 h4 a g (by omega)
    · rw [if_neg e, if_pos (by omega), h4, if_pos rfl]

/-- The rules of an agent never change. -/
theorem Later.rules {s s' : QSt World} (h : Later s s') (hr : Reachable s) :
    s.w.nag ≤ s'.w.nag ∧ ∀ a, a < s.w.nag → (s'.w.ags a).rules = (s.w.ags a).rules := by
  have key : ∀ {s s₁ s' : QSt World}, (s.w.nag ≤ s₁.w.nag ∧ ∀ a, a < s.w.nag → (s₁.w.ags a).rules = (s.w.ags a).rules) →
      (s₁.w.nag ≤ s'.w.nag ∧ ∀ a, a < s₁.w.nag → (s'.w.ags a).rules = (s₁.w.ags a).rules) →
      s.w.nag ≤ s'.w.nag ∧ ∀ a, a < s.w.nag → (s'.w.ags a).rules = (s.w.ags a).rules := fun h h' =>
    ⟨Nat.le_trans h.1 h'.1, fun a ha => (h'.2 a (Nat.lt_of_lt_of_le ha h.1)).trans (h.2 a ha)⟩
  have same : ∀ {s s₁ : QSt World}, (s₁.w.nag = s.w.nag ∧ ∀ a, (s₁.w.ags a).rules = (s.w.ags a).rules) →
      s.w.nag ≤ s₁.w.nag ∧ ∀ a, a < s.w.nag → (s₁.w.ags a).rules = (s.w.ags a).rules := fun h =>
    ⟨Nat.le_of_eq h.1.symm, fun a _ => h.2 a⟩
  induction h with
  | refl => exact ⟨Nat.le_refl _, fun _ _ => rfl⟩
  | build h _ ih =>
    obtain ⟨h1, h2⟩ := buildAgent_rules hr.stacksOK h
    exact key ⟨by omega, fun a ha => funext fun g => by rw [h2, if_neg (by omega)]⟩ (ih (.build hr h))
  | builds h _ ih =>
    obtain ⟨h1, h2⟩ := buildAgents_rules hr.stacksOK h
    exact key ⟨by omega, fun a ha => funext fun g => by rw [h2 a g (by omega), if_neg (by omega)]⟩ (ih (.builds hr h))
  | @step s n a s₁ s' h _ ih =>
    exact key (same ((rules_inv s.w.nag fun a => (s.w.ags a).rules).step hr.stacksOK ⟨rfl, fun _ => rfl⟩ h)) (ih (.step hr h))
  | @sleep s d s₁ s' h _ ih =>
    exact key (same ((rules_inv s.w.nag fun a => (s.w.ags a).rules).prim (sleep_prim (w₀ := s.w) h) ⟨rfl, fun _ => rfl⟩)) (ih (.sleep hr h))
  | @call s n a tr gt t delayed s₁ s' h _ ih =>
    exact key (same (callNew_keeps (rules_inv s.w.nag fun a => (s.w.ags a).rules).stable (gnext_keeps _)
      ⟨.refl hr.stacksOK.below, rfl, fun _ => rfl⟩ _ h).2) (ih (.call hr h))

end

end Verif
