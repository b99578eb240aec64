import Std.Data.String.ToNat
import Verif.Spec.Env
import Verif.Lemmas.Reach

/-!
# Lemmas: the environment
-/

namespace Verif

/-! ## Names -/

theorem makeNameGo_used {base : String} {used : List String} : ∀ {k i : Nat}, makeNameGo base used k i ∈ used →
    ∀ j, j ≤ k → base ++ toString (i + j) ∈ used
  | 0, i, h, j, hj => by
    obtain rfl : j = 0 := by omega
    exact h
  | k + 1, i, h, j, hj => by
    unfold makeNameGo at h
    split at h
    · next hi =>
      rcases Nat.eq_zero_or_pos j with rfl | hj'
      · exact hi
      · have := makeNameGo_used h (j - 1) (by omega)
        rwa [show i + 1 + (j - 1) = i + j by omega] at this
    · next hi => exact absurd h hi

theorem makeNameGo_first {base : String} {used : List String} : ∀ {k i : Nat},
    ∃ l, i ≤ l ∧ makeNameGo base used k i = base ++ toString l ∧ ∀ j, i ≤ j → j < l → base ++ toString j ∈ used
  | 0, i => ⟨i, Nat.le_refl _, rfl, fun j h h' => by omega⟩
  | k + 1, i => by
    unfold makeNameGo
    split
    · next hi =>
      obtain ⟨l, h1, h2, h3⟩ := makeNameGo_first (base := base) (used := used) (k := k) (i := i + 1)
      refine ⟨l, by omega, h2, fun j h h' => ?_⟩
      rcases Nat.eq_or_lt_of_le h with rfl | h
      · exact hi
      · exact h3 j h h'
    · exact ⟨i, Nat.le_refl _, rfl, fun j h h' => by omega⟩

theorem makeNameGo_fresh {base : String} {used : List String} : makeNameGo base used used.length 1 ∉ used := by
  intro h
  have h1 := makeNameGo_used h
  have h2 : ((List.range (used.length + 1)).map fun j => base ++ toString (1 + j)).Nodup := by
    unfold List.Nodup
    rw [List.pairwise_map]
    refine List.Pairwise.imp (R := (· ≠ ·)) ?_ List.nodup_range
    intro a b hab he
    refine hab ?_
    rw [String.append_right_inj] at he
    have := Nat.repr_injective he
    omega
  have h3 := h2.length_le_of_subset (l₂ := used) (by
    intro x hx
    simp only [List.mem_map, List.mem_range] at hx
    obtain ⟨j, hj, rfl⟩ := hx
    exact h1 j (by omega))
  simp at h3
  omega

theorem makeName_spec (base : String) (used : List String) : FreshName used base (makeName base used) := by
  have h : ∀ b, b ≠ "" → FreshName used b (if b ∈ used then makeNameGo b used used.length 1 else b) := by
    intro b hb
    split
    · next hu =>
      obtain ⟨l, h1, h2, h3⟩ := makeNameGo_first (base := b) (used := used) (k := used.length) (i := 1)
      rw [h2]
      refine .numbered hb hu h1 ?_ h3
      rw [← h2]
      exact makeNameGo_fresh
    · next hu => exact .plain hb hu
  unfold makeName
  by_cases hb : base = ""
  · subst hb
    exact .agent (h "agent" (by decide))
  · simp only [hb, if_false]
    exact h base hb

theorem FreshName.fresh {used : List String} {base name : String} (h : FreshName used base name) : name ∉ used := by
  induction h with
  | agent _ ih => exact ih
  | plain _ h => exact h
  | numbered _ _ _ h _ => exact h

/-! ## The registry -/

theorem dictSet_new {β : Type} {k : String} {v : β} : ∀ {d : List (String × β)}, k ∉ d.map (·.1) → dictSet k v d = d ++ [(k, v)]
  | [], _ => rfl
  | (k', v') :: rest, h => by
    simp only [List.map_cons, List.mem_cons, not_or] at h
    rw [dictSet, if_neg (Ne.symm h.1), dictSet_new h.2]
    rfl

theorem mem_dictSet {β : Type} {k : String} {v : β} {x : String × β} : ∀ {d : List (String × β)}, x ∈ dictSet k v d → x = (k, v) ∨ x ∈ d
  | [], h => by simpa [dictSet] using h
  | (k', v') :: rest, h => by
    unfold dictSet at h
    split at h
    · next hk =>
      rcases List.mem_cons.1 h with h | h
      · exact .inl (by rw [h, hk])
      · exact .inr (by simp [h])
    · rcases List.mem_cons.1 h with h | h
      · exact .inr (by simp [h])
      · rcases mem_dictSet h with h | h
        · exact .inl h
        · exact .inr (by simp [h])

theorem dictSet_keys {β : Type} {k : String} {v : β} : ∀ {d : List (String × β)},
    (dictSet k v d).map (·.1) = if k ∈ d.map (·.1) then d.map (·.1) else d.map (·.1) ++ [k]
  | [] => rfl
  | (k', v') :: rest => by
    unfold dictSet
    by_cases hk : k' = k
    · subst hk; simp
    · rw [if_neg hk, List.map_cons, dictSet_keys]
      have : k ≠ k' := Ne.symm hk
      simp only [List.map_cons, List.mem_cons, this, false_or]
      split <;> simp

section
variable [Host]

omit [Host] in
theorem regOK_congr {w w' : World} (h : RegOK w) (hs : SameAgents w w') : RegOK w' :=
  ⟨by rw [hs.2.1]; exact h.keys, fun hm => by rw [hs.2.1] at hm; rw [hs.2.2, hs.1]; exact h.named hm⟩

omit [Host] in
theorem regOK_new {w : World} (x : Agent) (h : RegOK w) : RegOK (newAgent x w) := by
  refine ⟨h.keys, fun {name a} hm => ?_⟩
  have := h.named hm
  refine ⟨?_, Nat.lt_succ_of_lt this.2⟩
  simp only [newAgent, World.setAg]
  rw [if_neg (by omega)]
  exact this.1

omit [Host] in
theorem Frame.agents {w w' : World} (h : Frame w w') : SameAgents w w' :=
  ⟨h.nag, h.reg, fun a => by obtain ⟨_, h⟩ := h.ags a; rw [h]⟩

theorem regOK_inv : Inv RegOK where
  init clock := ⟨by simp [World.init], by simp [World.init]⟩
  frame h hw := regOK_congr hw h.agents
  prim h hw := regOK_congr hw h.agents
  agent name hw := regOK_new _ hw
  copy name a hw := regOK_new _ hw
  rule {w} a r hw := regOK_congr hw (addRule_agents w a r)
  register {w a} ha hw := by
    refine ⟨?_, fun {name b} hm => ?_⟩
    · simp only [Verif.register, dictSet_keys]
      split
      · exact hw.keys
      · next h =>
        rw [List.nodup_append]
        exact ⟨hw.keys, by simp, fun x hx y hy => by simp at hy; subst hy; exact fun he => h (he ▸ hx)⟩
    · rcases mem_dictSet hm with h | h
      · cases h
        exact ⟨rfl, ha⟩
      · exact hw.named h

theorem sameAgents_inv (w : World) : StepInv (SameAgents w) where
  frame h hw := hw.trans h.agents
  prim h hw := hw.trans h.agents

theorem step_agents {n a : Nat} {s s' : QSt World} (hs : StacksOK s.w) (h : (step n a s).leaves s') : SameAgents s.w s'.w :=
  (sameAgents_inv s.w).step hs (.refl _) h

theorem callNew_agents {n a : Nat} {tr : Trigger} {gt : GoalType} {t : Term} {delayed : Bool} {s s' : QSt World} (hs : StacksOK s.w)
    (h : (callNew n (gnext n) a tr gt t delayed s).leaves s') : SameAgents s.w s'.w :=
  ((callNew_keeps (sameAgents_inv s.w).stable (gnext_keeps n) ⟨.refl hs.below, .refl _⟩) s' h).2

omit [Host] in
/-- No agent is registered twice. -/
theorem RegOK.values {w : World} (h : RegOK w) : (w.reg.map (·.2)).Nodup := by
  have h1 := h.keys
  unfold List.Nodup at h1 ⊢
  rw [List.pairwise_map] at h1 ⊢
  refine h1.imp_of_mem fun {x y} hx hy hne he => hne ?_
  obtain ⟨k, v⟩ := x
  obtain ⟨k', v'⟩ := y
  dsimp at he
  subst he
  rw [← (h.named hx).1, ← (h.named hy).1]

theorem callNew_envOK {n a : Nat} {tr : Trigger} {gt : GoalType} {m : Term} {s s' : QSt World} {r : Bool} (h : EnvOK s.w)
    (hc : callNew n (gnext n) a tr gt m false s = .ok r s') : EnvOK s'.w := by
  have hb : Base s.w s.w := .refl h.stacks.below
  exact ⟨((callNew_keeps beliefsOK_stable (gnext_keeps n) ⟨hb, h.beliefs⟩).of_ok hc).2,
    ((callNew_keeps stacksOK_stable (gnext_keeps n) ⟨hb, h.stacks⟩).of_ok hc).2,
    ((callNew_keeps regOK_inv.stable (gnext_keeps n) ⟨hb, h.reg⟩).of_ok hc).2⟩

/-! ## Building agents -/

omit [Host] in
theorem Res.bind_eq_err {σ α β : Type} {r : Res σ α} {f : α → σ → Res σ β} {e : Err} {s' : σ} :
    r.bind f = .err e s' ↔ r = .err e s' ∨ ∃ a s, r = .ok a s ∧ f a s = .err e s' := by
  cases r with
  | ok a s => simp only [Res.bind, reduceCtorEq, false_or, Res.ok.injEq]; exact ⟨fun h => ⟨a, s, ⟨rfl, rfl⟩, h⟩, fun ⟨_, _, ⟨rfl, rfl⟩, h⟩ => h⟩
  | err => simp [Res.bind]
  | oof => simp [Res.bind]

/-- One more agent is registered. -/
structure Registered (base : String) (a : Nat) (w w' : World) : Prop where
  new : a = w.nag
  nag : w'.nag = w.nag + 1
  name : FreshName (w.reg.map (·.1)) base (w'.ags a).name
  reg : w'.reg = w.reg ++ [((w'.ags a).name, a)]
  names : ∀ b, b < w.nag → (w'.ags b).name = (w.ags b).name

omit [Host] in
theorem registered {base : String} {w w₁ : World} {x : Agent} (hx : x.name = makeName base (w.reg.map (·.1))) (h : SameAgents (newAgent x w) w₁) :
    Registered base w.nag w (register w.nag w₁) := by
  obtain ⟨h1, h2, h3⟩ := h
  have hn : (w₁.ags w.nag).name = makeName base (w.reg.map (·.1)) := by
    rw [h3, ← hx]
    simp [newAgent, World.setAg]
  have hf := makeName_spec base (w.reg.map (·.1))
  refine ⟨rfl, h1, ?_, ?_, fun b hb => ?_⟩
  · show FreshName _ _ (w₁.ags w.nag).name
    rw [hn]; exact hf
  · show dictSet _ _ w₁.reg = _ ++ [((w₁.ags w.nag).name, w.nag)]
    rw [hn, h2]
    exact dictSet_new hf.fresh
  · show (w₁.ags b).name = _
    rw [h3]
    simp only [newAgent, World.setAg]
    rw [if_neg (by omega)]

theorem prepare_stacksOK (a : Nat) (src : AgentSrc) {s : QSt World} (hs : StacksOK s.w) :
    StacksOK (src.plans.foldl (fun s p => buildPlan a p s) { s with w := src.rules.foldl (addRule a) s.w }).w := by
  have h1 : ∀ (rs : List (Rule Act)) (w : World), StacksOK w → StacksOK (rs.foldl (addRule a) w) := by
    intro rs
    induction rs with
    | nil => exact fun _ h => h
    | cons r rs ih => exact fun w h => ih _ (h.addRule _ r)
  have h2 : ∀ (ps : List PlanSrc) (s : QSt World), StacksOK s.w → StacksOK (ps.foldl (fun s p => buildPlan a p s) s).w := by
    intro ps
    induction ps with
    | nil => exact fun _ h => h
    | cons p ps ih => exact fun s h => ih _ ((Prim.plan (w₀ := s.w) s a p).stacksOK h)
  exact h2 _ _ (h1 _ _ hs)

/-- The registry after leaving `buildAgent`. -/
theorem buildAgent_reg {n : Nat} {src : AgentSrc} {base : String} {s s' : QSt World} (hs : StacksOK s.w) :
    (∀ a, buildAgent n src base s = .ok a s' → Registered base a s.w s'.w) ∧
    (∀ e, buildAgent n src base s = .err e s' → SameAgents (newAgent { name := makeName base (s.w.reg.map (·.1)) } s.w) s'.w) := by
  have h0 := hs.newAgent { name := makeName base (s.w.reg.map (·.1)) } rfl
  have h1 := prepare_stacksOK s.w.nag src (s := { s with w := newAgent { name := makeName base (s.w.reg.map (·.1)) } s.w }) h0
  have h2 := prepare_agents s.w.nag src { s with w := newAgent { name := makeName base (s.w.reg.map (·.1)) } s.w }
  unfold buildAgent
  simp only [Res.bind_eq_ok, Res.bind_eq_err]
  constructor
  · rintro a ⟨_, s₁, h3, _, s₂, h4, h5⟩
    cases h5
    have h6 := callAll_stacksOK h1 (.inl ⟨_, h3⟩)
    exact registered rfl ((h2.trans (callAll_agents h1 (.inl ⟨_, h3⟩))).trans (callAll_agents h6 (.inl ⟨_, h4⟩)))
  · rintro e (h | ⟨_, s₁, h3, h | ⟨_, _, _, h⟩⟩)
    · exact h2.trans (callAll_agents h1 (.inr ⟨_, h⟩))
    · have h6 := callAll_stacksOK h1 (.inl ⟨_, h3⟩)
      exact (h2.trans (callAll_agents h1 (.inl ⟨_, h3⟩))).trans (callAll_agents h6 (.inr ⟨_, h⟩))
    · cases h

/-- Agents are registered one after the other. -/
inductive RegisteredAll (base : String) : List Nat → World → World → Prop where
  | nil {w} : RegisteredAll base [] w w
  | cons {a as w w₁ w'} : Registered base a w w₁ → RegisteredAll base as w₁ w' → RegisteredAll base (a :: as) w w'

/-- Agents may have been added. -/
structure Extends (w w' : World) : Prop where
  reg : ∃ more, w'.reg = w.reg ++ more
  nag : w.nag ≤ w'.nag
  names : ∀ b, b < w.nag → (w'.ags b).name = (w.ags b).name

omit [Host] in
theorem Extends.refl (w : World) : Extends w w := ⟨⟨[], by simp⟩, Nat.le_refl _, fun _ _ => rfl⟩

omit [Host] in
theorem Extends.trans {w w' w'' : World} (h : Extends w w') (h' : Extends w' w'') : Extends w w'' := by
  obtain ⟨m, h1⟩ := h.reg
  obtain ⟨m', h2⟩ := h'.reg
  exact ⟨⟨m ++ m', by rw [h2, h1, List.append_assoc]⟩, Nat.le_trans h.nag h'.nag,
    fun b hb => (h'.names b (Nat.lt_of_lt_of_le hb h.nag)).trans (h.names b hb)⟩

omit [Host] in
theorem SameAgents.extends {w w' : World} (h : SameAgents w w') : Extends w w' :=
  ⟨⟨[], by rw [h.2.1]; simp⟩, Nat.le_of_eq h.1.symm, fun b _ => h.2.2 b⟩

omit [Host] in
theorem Registered.extends {base : String} {a : Nat} {w w' : World} (h : Registered base a w w') : Extends w w' :=
  ⟨⟨_, h.reg⟩, by rw [h.nag]; omega, h.names⟩

omit [Host] in
theorem Extends.new (x : Agent) (w : World) : Extends w (newAgent x w) :=
  ⟨⟨[], by simp [newAgent, World.setAg]⟩, Nat.le_succ _, fun b hb => by
    simp only [newAgent, World.setAg]
    rw [if_neg (by omega)]⟩

theorem buildAgent_extends {n : Nat} {src : AgentSrc} {base : String} {s s' : QSt World} (hs : StacksOK s.w)
    (h : (buildAgent n src base s).leaves s') : Extends s.w s'.w := by
  rcases h with ⟨a, h⟩ | ⟨e, h⟩
  · exact ((buildAgent_reg hs).1 a h).extends
  · exact (Extends.new _ _).trans ((buildAgent_reg hs).2 e h).extends

theorem buildMore_reg {n : Nat} {src : AgentSrc} {base : String} {proto : Nat} : ∀ {k : Nat} {s s' : QSt World}, StacksOK s.w →
    (∀ as, buildMore n src base proto k s = .ok as s' → as.length = k ∧ RegisteredAll base as s.w s'.w) ∧
    (∀ e, buildMore n src base proto k s = .err e s' → Extends s.w s'.w)
  | 0, s, s', hs => by
    simp only [buildMore]
    refine ⟨fun as h => ?_, fun e h => by cases h⟩
    cases h
    exact ⟨rfl, .nil⟩
  | k + 1, s, s', hs => by
    have h0 := hs.newAgent ⟨makeName base (s.w.reg.map (·.1)), (s.w.ags proto).beliefs, (s.w.ags proto).rules, (s.w.ags proto).plans, []⟩ rfl
    unfold buildMore
    simp only [Res.bind_eq_ok, Res.bind_eq_err]
    constructor
    · rintro as ⟨_, s₁, h1, as', s₂, h2, h3⟩
      cases h3
      have h4 := registered (base := base) rfl (callAll_agents h0 (.inl ⟨_, h1⟩))
      have h5 := (callAll_stacksOK h0 (.inl ⟨_, h1⟩)).congr (w' := register s.w.nag s₁.w) (Nat.le_refl _) fun _ => rfl
      obtain ⟨h6, h7⟩ := (buildMore_reg (s := { s₁ with w := register s.w.nag s₁.w }) h5).1 _ h2
      exact ⟨by simp [h6], .cons h4 h7⟩
    · rintro e (h | ⟨_, s₁, h1, h | ⟨_, _, _, h⟩⟩)
      · exact (Extends.new _ _).trans (callAll_agents h0 (.inr ⟨_, h⟩)).extends
      · have h4 := registered (base := base) rfl (callAll_agents h0 (.inl ⟨_, h1⟩))
        have h5 := (callAll_stacksOK h0 (.inl ⟨_, h1⟩)).congr (w' := register s.w.nag s₁.w) (Nat.le_refl _) fun _ => rfl
        exact h4.extends.trans ((buildMore_reg (s := { s₁ with w := register s.w.nag s₁.w }) h5).2 _ h)
      · cases h

omit [Host] in
theorem RegisteredAll.extends {base : String} {as : List Nat} {w w' : World} (h : RegisteredAll base as w w') : Extends w w' := by
  induction h with
  | nil => exact .refl _
  | cons h _ ih => exact h.extends.trans ih

omit [Host] in
theorem RegisteredAll.reg {base : String} {as : List Nat} {w w' : World} (h : RegisteredAll base as w w') :
    as = List.range' w.nag as.length ∧ w'.reg = w.reg ++ as.map fun a => ((w'.ags a).name, a) := by
  induction h with
  | nil => simp
  | cons h h' ih =>
    obtain ⟨ih1, ih2⟩ := ih
    refine ⟨?_, ?_⟩
    · rw [List.length_cons, List.range'_succ, ← h.nag, ← ih1, h.new]
    · rw [ih2, h.reg, ← h'.extends.names _ (by rw [h.nag, h.new]; omega)]
      simp

theorem buildAgents_extends {n : Nat} {src : AgentSrc} {k : Nat} {base₀ base : String} {s s' : QSt World} (hs : StacksOK s.w)
    (h : (buildAgents n src k base₀ base s).leaves s') : Extends s.w s'.w := by
  unfold buildAgents at h
  split at h
  · rw [Res.leaves_ok] at h; exact h ▸ .refl _
  · simp only [Res.leaves_bind, Res.leaves_ok] at h
    rcases h with ⟨e, h⟩ | ⟨_, s₁, h2, h⟩
    · exact buildAgent_extends hs (.inr ⟨e, h⟩)
    · have h3 := buildAgent_extends hs (.inl ⟨_, h2⟩)
      have h4 := buildAgent_stacksOK hs (.inl ⟨_, h2⟩)
      rcases h with ⟨e, h⟩ | ⟨_, s₂, h5, rfl⟩
      · exact h3.trans ((buildMore_reg h4).2 _ h)
      · exact h3.trans ((buildMore_reg h4).1 _ h5).2.extends

theorem Later.reachable {s s' : QSt World} (h : Later s s') (hr : Reachable s) : Reachable s' := by
  induction h with
  | refl => exact hr
  | build h _ ih => exact ih (hr.build h)
  | builds h _ ih => exact ih (hr.builds h)
  | step h _ ih => exact ih (hr.step h)
  | sleep h _ ih => exact ih (hr.sleep h)
  | call h _ ih => exact ih (hr.call h)

theorem Later.winv {P : World → Prop} (hP : WInv P) {s s' : QSt World} (h : Later s s') (hr : Reachable s) (hw : P s.w) : P s'.w := by
  induction h with
  | refl => exact hw
  | build h _ ih => exact ih (hr.build h) (hP.buildAgent hr.stacksOK hw h)
  | builds h _ ih => exact ih (hr.builds h) (hP.buildAgents hr.stacksOK hw h)
  | step h _ ih => exact ih (hr.step h) (hP.step hr.stacksOK hw h)
  | sleep h _ ih => exact ih (hr.sleep h) (hP.sleep hr.stacksOK hw h)
  | call h _ ih => exact ih (hr.call h) (hP.callNew hr.stacksOK hw h)

theorem Later.extends {s s' : QSt World} (h : Later s s') (hr : Reachable s) : Extends s.w s'.w := by
  induction h with
  | refl => exact .refl _
  | build h _ ih => exact (buildAgent_extends hr.stacksOK h).trans (ih (hr.build h))
  | builds h _ ih => exact (buildAgents_extends hr.stacksOK h).trans (ih (hr.builds h))
  | step h _ ih => exact (step_agents hr.stacksOK h).extends.trans (ih (hr.step h))
  | sleep h _ ih => exact SameAgents.extends (sleep_prim (w₀ := World.init fun _ => 0) h).agents |>.trans (ih (hr.sleep h))
  | call h _ ih => exact (callNew_agents hr.stacksOK h).extends.trans (ih (hr.call h))

end

end Verif
