import Verif.Lemmas.Env
import Verif.Props.Messages
import Verif.Props.Beliefs

/-!
# C37, C38: building agents
-/

namespace Verif

section
variable [Host]

/-! ## C37: names -/

/-- **C37.** In every reachable state, the registry maps different names to different
existing agents, each under its own name. -/
theorem C37_reachable {s : QSt World} (hr : Reachable s) : RegOK s.w ∧ (s.w.reg.map (·.2)).Nodup :=
  ⟨hr.inv regOK_inv, (hr.inv regOK_inv).values⟩

/-- **C37.** `build_agent` makes one new agent.  Its name is the given one, or the first of
the numbered names that is not in use; it is registered under this name, which is not the
name of any registered agent; all other registrations are kept. -/
theorem C37_build {n : Nat} {src : AgentSrc} {base : String} {s s' : QSt World} {a : Nat} (hr : Reachable s)
    (h : buildAgent n src base s = .ok a s') :
    a = s.w.nag ∧ FreshName (s.w.reg.map (·.1)) base (s'.w.ags a).name ∧ (s'.w.ags a).name ∉ s.w.reg.map (·.1) ∧
      s'.w.reg = s.w.reg ++ [((s'.w.ags a).name, a)] ∧ s'.w.reg.lookup (s'.w.ags a).name = some a := by
  have h1 := (buildAgent_reg hr.stacksOK).1 a h
  refine ⟨h1.new, h1.name, h1.name.fresh, h1.reg, ?_⟩
  have h2 : ((s'.w.ags a).name, a) ∈ s'.w.reg := by rw [h1.reg]; simp
  obtain ⟨name, h3⟩ := ((hr.build (.inl ⟨_, h⟩)).inv regOK_inv |>.lookup a).1 (List.mem_map.2 ⟨_, h2, rfl⟩)
  have h4 := ((hr.build (.inl ⟨_, h⟩)).inv regOK_inv).named (lookup_mem h3)
  rw [h4.1]
  exact h3

/-- **C37.** `build_agents` makes `k` new agents and registers them under `k` different new
names; all other registrations are kept. -/
theorem C37_builds {n : Nat} {src : AgentSrc} {k : Nat} {base₀ base : String} {s s' : QSt World} {as : List Nat} (hr : Reachable s)
    (h : buildAgents n src k base₀ base s = .ok as s') :
    as.length = k ∧ as = List.range' s.w.nag k ∧ s'.w.reg = s.w.reg ++ as.map (fun a => ((s'.w.ags a).name, a)) ∧
      (as.map fun a => (s'.w.ags a).name).Nodup ∧ ∀ a ∈ as, (s'.w.ags a).name ∉ s.w.reg.map (·.1) := by
  have key : as.length = k ∧ as = List.range' s.w.nag as.length ∧ s'.w.reg = s.w.reg ++ as.map (fun a => ((s'.w.ags a).name, a)) := by
    unfold buildAgents at h
    split at h
    · cases h; simp
    · simp only [Res.bind_eq_ok] at h
      obtain ⟨a, s₁, h1, as', s₂, h2, h3⟩ := h
      cases h3
      have h4 := (buildAgent_reg hr.stacksOK).1 a h1
      have h5 := buildAgent_stacksOK hr.stacksOK (.inl ⟨_, h1⟩)
      obtain ⟨h6, h7⟩ := (buildMore_reg h5).1 _ h2
      obtain ⟨h8, h9⟩ := h7.reg
      refine ⟨by simp [h6], ?_, ?_⟩
      · rw [List.length_cons, List.range'_succ, ← h4.nag, ← h8, h4.new]
      · rw [h9, h4.reg, ← h7.extends.names _ (by rw [h4.nag, h4.new]; omega)]
        simp
  obtain ⟨h1, h2, h3⟩ := key
  refine ⟨h1, h1 ▸ h2, h3, ?_⟩
  have h4 := ((hr.builds (.inl ⟨_, h⟩)).inv regOK_inv).keys
  rw [h3, List.map_append, List.map_map, List.nodup_append] at h4
  exact ⟨h4.2.1, fun a ha hm => h4.2.2 _ hm _ (List.mem_map.2 ⟨a, ha, rfl⟩) rfl⟩

/-- **C37.** Agents stay registered under their names, whatever happens later. -/
theorem C37_stays {s s' : QSt World} (hr : Reachable s) (h : Later s s') {name : String} {a : Nat} (ha : s.w.reg.lookup name = some a) :
    s'.w.reg.lookup name = some a ∧ (s'.w.ags a).name = name ∧ ∃ more, s'.w.reg = s.w.reg ++ more := by
  have h1 := h.extends hr
  obtain ⟨h2, h3⟩ := (hr.inv regOK_inv).named (lookup_mem ha)
  obtain ⟨more, hm⟩ := h1.reg
  refine ⟨?_, (h1.names a h3).trans h2, more, hm⟩
  rw [hm, List.lookup_append, ha]
  rfl

/-! ## C38: separate beliefs -/

omit [Host] in
theorem setBeliefs_noSharing {w : World} (hw : BeliefsOK w) (h : NoSharing w) {a : Nat} {g : String × Nat} {xs : List Term} :
    NoSharing (w.setBeliefs a g xs) := by
  rintro b b' g' hne ⟨r, h1, h2⟩
  rw [setBeliefs_ref] at h1 h2
  split at h1
  · next e1 =>
    rw [if_neg (fun e2 => hne (e1.1.trans e2.1.symm))] at h2
    cases h1
    exact Nat.lt_irrefl _ (hw.lt h2)
  · split at h2
    · cases h2
      exact Nat.lt_irrefl _ (hw.lt h1)
    · exact h b b' g' hne ⟨r, h1, h2⟩

omit [Host] in
theorem NoSharing.congr {w w' : World} (h : NoSharing w) (hb : ∀ a, (w'.ags a).beliefs = (w.ags a).beliefs) : NoSharing w' := by
  rintro b b' g' hne ⟨r, h1, h2⟩
  rw [hb] at h1 h2
  exact h b b' g' hne ⟨r, h1, h2⟩

theorem noSharing_inv : BuildInv fun w => BeliefsOK w ∧ NoSharing w where
  init clock := ⟨beliefsOK_inv.init clock, by rintro a a' g _ ⟨r, h, _⟩; simp [World.init] at h⟩
  frame h hw := ⟨beliefsOK_inv.frame h hw.1, hw.2.congr fun a => by obtain ⟨_, h⟩ := h.ags a; rw [h]⟩
  prim h hw := by
    refine ⟨h.beliefsOK hw.1, ?_⟩
    rcases h.beliefs with ⟨h1, _, _⟩ | ⟨a, f, as, xs, _, h1⟩ | ⟨a, g, xs, _, h1⟩
    · exact hw.2.congr h1
    · rw [h1]; exact setBeliefs_noSharing hw.1 hw.2
    · rw [h1]; exact setBeliefs_noSharing hw.1 hw.2
  agent {w} name hw := by
    refine ⟨beliefsOK_inv.agent name hw.1, ?_⟩
    rintro b b' g' hne ⟨r, h1, h2⟩
    simp only [newAgent, World.setAg] at h1 h2
    split at h1
    · simp at h1
    · split at h2
      · simp at h2
      · exact hw.2 b b' g' hne ⟨r, h1, h2⟩
  rule {w} a r hw := by
    refine ⟨beliefsOK_inv.rule a r hw.1, hw.2.congr fun a' => ?_⟩
    obtain ⟨rs, h'⟩ := addRule_ags (w := w) (a := a) (r := r) a'
    rw [h']
  register ha hw := ⟨beliefsOK_inv.register ha hw.1, hw.2.congr fun _ => rfl⟩

theorem Singly.reachable {s : QSt World} (h : Singly s) : Reachable s := by
  induction h with
  | init clock => exact .init clock
  | build _ h ih => exact ih.build h
  | step _ h ih => exact ih.step h
  | sleep _ h ih => exact ih.sleep h
  | call _ h ih => exact ih.call h

/-- **C38, partial.** If all agents are built with `build_agent`, no two agents ever share
beliefs.  (With `build_agents`, they do: `C38_shared`.) -/
theorem C38_separate_partial {s : QSt World} (h : Singly s) : NoSharing s.w := by
  have : BeliefsOK s.w ∧ NoSharing s.w := by
    induction h with
    | init clock => exact noSharing_inv.init clock
    | build hs h ih => exact noSharing_inv.buildAgent hs.reachable.stacksOK ih h
    | step hs h ih => exact noSharing_inv.step hs.reachable.stacksOK ih h
    | sleep _ h ih => exact noSharing_inv.prim (sleep_prim (w₀ := World.init fun _ => 0) h) ih
    | call hs h ih =>
      exact (callNew_keeps (noSharing_inv.stable) (gnext_keeps _) ⟨.refl hs.reachable.stacksOK.below, ih⟩ _ h).2
  exact this.2

/-- **C38, partial.** Separate beliefs stay separate in the course of a step. -/
theorem C38_during_partial {w₀ : World} {s s' : QSt World} (hw : BeliefsOK s.w) (h : NoSharing s.w) (hp : Prim w₀ s s') : NoSharing s'.w :=
  (noSharing_inv.prim hp ⟨hw, h⟩).2

theorem addBelief_err {n a : Nat} {t : Term} {s s' : QSt World} {e : Err} (h : addBelief n a t s = .err e s') : s' = s := by
  unfold addBelief at h
  split at h <;> first | (cases h; rfl) | skip
  simp only [Res.bind_eq_err] at h
  rcases h with h | ⟨_, _, h1, h⟩
  · cases hg : grounded n s.b.scope t <;> simp [hg, Res.lift] at h
    exact h.2.symm
  · rw [Res.lift_eq_ok] at h1
    obtain ⟨_, rfl⟩ := h1
    split at h <;> cases h
    rfl

omit [Host] in
theorem onB_w {α : Type} {f : BSt → Res BSt α} {s s' : QSt World} (h : (s.onB f).leaves s') : s'.w = s.w := by
  unfold QSt.onB at h
  split at h
  · rw [Res.leaves_ok] at h; rw [← h]
  · rw [Res.leaves_err] at h; rw [← h]
  · simp at h

theorem findBelief_w {n c : Nat} {t : Term} : ∀ {xs : List Term} {s s' : QSt World}, (findBelief n c t xs s).leaves s' → s'.w = s.w
  | [], s, s', h => by
    rw [findBelief, Res.leaves_ok] at h
    rw [← h]
  | x :: xs, s, s', h => by
    rw [findBelief, Res.leaves_bind] at h
    rcases h with ⟨e, h⟩ | ⟨ok, s₁, h1, h⟩
    · exact onB_w (s := { s with b := s.b.pushCp c }) (.inr ⟨e, h⟩)
    have h2 := onB_w (s := { s with b := s.b.pushCp c }) (.inl ⟨_, h1⟩)
    split at h
    · rw [Res.leaves_ok] at h
      rw [← h]; exact h2
    · rw [Res.leaves_bind] at h
      rcases h with ⟨e, h⟩ | ⟨_, s₂, h3, h⟩
      · exact (findBelief_w (.inr ⟨e, h⟩)).trans h2
      · rw [Res.leaves_ok] at h
        rw [← h]
        exact (findBelief_w (.inl ⟨_, h3⟩)).trans h2

theorem removeBelief_err {n a : Nat} {t : Term} {s s' : QSt World} {e : Err} (h : removeBelief n a t s = .err e s') : s'.w = s.w := by
  unfold removeBelief at h
  simp only [Res.bind_eq_err] at h
  rcases h with h | ⟨_, _, h1, h⟩
  · cases hg : evaluate n s.b.scope t <;> simp [hg, Res.lift] at h
    rw [h.2]
  · rw [Res.lift_eq_ok] at h1
    obtain ⟨_, rfl⟩ := h1
    split at h
    · rw [Res.bind_eq_err] at h
      rcases h with h | ⟨o, s₂, _, h⟩
      · exact findBelief_w (s := { s with b := s.b.newCp.2 }) (.inr ⟨e, h⟩)
      · split at h <;> cases h
    · cases h; rfl

/-- **C38, partial.** When beliefs are separate, adding or removing a belief of agent `a` is
not visible in any other agent. -/
theorem C38_change_partial {n a : Nat} {tr : Trigger} {gt : GoalType} {t : Term} {s s' : QSt World} (hw : BeliefsOK s.w) (hs : NoSharing s.w)
    (h : (callBeliefs n a tr gt t s).leaves s') {a' : Nat} (ha : a' ≠ a) (g : String × Nat) : s'.w.beliefs a' g = s.w.beliefs a' g := by
  have hset : ∀ g' xs, (s.w.setBeliefs a g' xs).beliefs a' g = s.w.beliefs a' g :=
    fun g' xs => setBeliefs_other hw (.inr ⟨ha, hs a a' g' (Ne.symm ha)⟩)
  unfold callBeliefs at h
  split at h
  · rw [Res.leaves_bind] at h
    rcases h with ⟨e, h⟩ | ⟨_, s₁, h1, h⟩
    · rw [addBelief_err h]
    · rw [Res.leaves_ok] at h
      subst h
      obtain ⟨f, as, xs, _, rfl⟩ := addBelief_ok h1
      exact hset _ _
  · rcases h with ⟨r, h⟩ | ⟨e, h⟩
    · obtain ⟨f, as, xs, _, _, h⟩ := removeBelief_ok h
      cases r with
      | false => rw [h.1]
      | true =>
        obtain ⟨_, _, _, _, _, h, _⟩ := h
        rw [h]
        exact hset _ _
    · rw [removeBelief_err h]
  · rw [Res.leaves_ok] at h
    rw [h]

/-- **C38, partial.** When beliefs are separate, `.abolish` is not visible in any other
agent. -/
theorem C38_abolish_partial {n : Nat} {rec : Rec} {t : Term} {s s' : QSt World} {o : Option ActGen} (hw : BeliefsOK s.w) (hs : NoSharing s.w)
    (h : actNext n rec (.start .abolish t) s = .ok o s') {a' : Nat} (ha : a' ≠ s.w.cur) (g : String × Nat) :
    s'.w.beliefs a' g = s.w.beliefs a' g := by
  obtain ⟨q, f, as, xs, m, _, _, _, _, _, _, h1⟩ := C22_abolish_partial hw h
  exact h1 a' g (.inr ⟨ha, hs _ _ _ (Ne.symm ha)⟩)

end

/-! ## Examples and witnesses -/

section examples
attribute [local instance] exactHost

/-- The program `p(0). !go. +!go <- +p(1).` -/
def believer : AgentSrc where
  plans := [simplePlan "go" [.add (.lit "p" [.num 1] [])]]
  beliefs := [.lit "p" [.num 0] []]
  goals := [goalNamed "go"]

/-- **C38 is false of the code.**  Two agents made by `build_agents` running `believer`: when
agent 1 adds `p(1)`, agent 0 believes it, too. -/
theorem C38_shared : ∃ s s' : QSt World, Reachable s ∧ step 20 1 s = .ok true s' ∧
    s.w.reg = [("a", 0), ("b", 1)] ∧ s.w.beliefs 0 ("p", 1) = [.lit "p" [.num 0] []] ∧
    s'.w.beliefs 1 ("p", 1) = [.lit "p" [.num 0] [], .lit "p" [.num 1] []] ∧
    s'.w.beliefs 0 ("p", 1) = [.lit "p" [.num 0] [], .lit "p" [.num 1] []] := by
  have h : ∃ as s s₁ s', buildAgents 20 believer 2 "a" "b" ⟨BSt.init, 0, World.init fun _ => 0⟩ = .ok as s ∧
      step 20 1 s = .ok true s₁ ∧ step 20 1 s₁ = .ok true s' ∧
      s₁.w.reg = [("a", 0), ("b", 1)] ∧ s₁.w.beliefs 0 ("p", 1) = [.lit "p" [.num 0] []] ∧
      s'.w.beliefs 1 ("p", 1) = [.lit "p" [.num 0] [], .lit "p" [.num 1] []] ∧
      s'.w.beliefs 0 ("p", 1) = [.lit "p" [.num 0] [], .lit "p" [.num 1] []] := ⟨_, _, _, _, rfl, rfl, rfl, rfl, rfl, rfl, rfl⟩
  obtain ⟨as, s, s₁, s', h1, h2, h3, h4⟩ := h
  exact ⟨s₁, s', ((Reachable.init _).builds (.inl ⟨_, h1⟩)).step (.inl ⟨_, h2⟩), h3, h4⟩

/-- C37: three agents made by `build_agents`, the first one registered as `a`, the others as
`b` and `b1`. -/
example : ∃ s s' : QSt World, ∃ as, Reachable s ∧ buildAgents 20 { plans := [simplePlan "go" []] } 3 "a" "b" s = .ok as s' ∧
    as = [0, 1, 2] ∧ s'.w.reg = [("a", 0), ("b", 1), ("b1", 2)] := ⟨_, _, _, .init fun _ => 0, rfl, rfl, rfl⟩

/-- C37: the name `b2` for one more `b`; `agent` for an agent without a name. -/
example : FreshName ["a", "b", "b1"] "b" "b2" ∧ FreshName ["a", "b", "b1"] "" "agent" := by
  refine ⟨.numbered (i := 2) (by decide) (by decide) (by decide) (by decide) fun j h1 h2 => ?_, .agent (.plain (by decide) (by decide))⟩
  obtain rfl : j = 1 := by omega
  decide

/-- C37: a step and one more agent later, `b` is still agent 1. -/
example : ∃ s s' : QSt World, Reachable s ∧ Later s s' ∧ s.w.reg.lookup "b" = some 1 ∧ s'.w.reg.lookup "b" = some 1 ∧ s'.w.nag = s.w.nag + 1 := by
  have h : ∃ as s s₁ a s', buildAgents 20 { plans := [simplePlan "go" []], goals := [goalNamed "go"] } 2 "a" "b" ⟨BSt.init, 0, World.init fun _ => 0⟩ = .ok as s ∧
      step 20 1 s = .ok true s₁ ∧ buildAgent 20 {} "b" s₁ = .ok a s' ∧ s.w.reg.lookup "b" = some 1 ∧ s'.w.reg.lookup "b" = some 1 ∧
      s'.w.nag = s.w.nag + 1 := ⟨_, _, _, _, _, rfl, rfl, rfl, rfl, rfl, rfl⟩
  obtain ⟨as, s, s₁, a, s', h1, h2, h3, h4⟩ := h
  exact ⟨s, s', (Reachable.init _).builds (.inl ⟨_, h1⟩), .step (.inl ⟨_, h2⟩) (.build (.inl ⟨_, h3⟩) .refl), h4⟩

/-- C38: two agents made by `build_agent`, both believing `p(0)`; the beliefs are separate. -/
example : ∃ s : QSt World, Singly s ∧ s.w.beliefs 0 ("p", 1) = [.lit "p" [.num 0] []] ∧ s.w.beliefs 1 ("p", 1) = [.lit "p" [.num 0] []] ∧
    ∃ s', callBeliefs 20 1 .addition .belief (.lit "p" [.num 1] []) s = .ok true s' ∧
      s'.w.beliefs 1 ("p", 1) = [.lit "p" [.num 0] [], .lit "p" [.num 1] []] ∧ s'.w.beliefs 0 ("p", 1) = [.lit "p" [.num 0] []] := by
  have h : ∃ a b s s₁ s', buildAgent 20 { beliefs := [.lit "p" [.num 0] []] } "a" ⟨BSt.init, 0, World.init fun _ => 0⟩ = .ok a s ∧
      buildAgent 20 { beliefs := [.lit "p" [.num 0] []] } "b" s = .ok b s₁ ∧
      s₁.w.beliefs 0 ("p", 1) = [.lit "p" [.num 0] []] ∧ s₁.w.beliefs 1 ("p", 1) = [.lit "p" [.num 0] []] ∧
      callBeliefs 20 1 .addition .belief (.lit "p" [.num 1] []) s₁ = .ok true s' ∧
      s'.w.beliefs 1 ("p", 1) = [.lit "p" [.num 0] [], .lit "p" [.num 1] []] ∧ s'.w.beliefs 0 ("p", 1) = [.lit "p" [.num 0] []] :=
    ⟨_, _, _, _, _, rfl, rfl, rfl, rfl, rfl, rfl, rfl⟩
  obtain ⟨a, b, s, s₁, s', h1, h2, h3, h4, h5⟩ := h
  exact ⟨s₁, ((Singly.init _).build (.inl ⟨_, h1⟩)).build (.inl ⟨_, h2⟩), h3, h4, s', h5⟩

end examples

end Verif
