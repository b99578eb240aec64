import Verif.Lemmas.Keeps
import Verif.Spec.Beliefs

/-!
# Lemmas about belief bases
-/

namespace Verif

@[simp] theorem World.setAg_same {w : World} {a : Nat} {x : Agent} : (w.setAg a x).ags a = x := by simp [World.setAg]

theorem World.setAg_ags {w : World} {a a' : Nat} {x : Agent} :
    (w.setAg a x).ags a' = if a' = a then x else w.ags a' := rfl

theorem setBeliefs_ref {w : World} {a : Nat} {g : String × Nat} {xs : List Term} {a' : Nat} {g' : String × Nat} :
    ((w.setBeliefs a g xs).ags a').beliefs g' =
      if a' = a ∧ g' = g ∧ (w.ags a).beliefs g = none then some w.nset else (w.ags a').beliefs g' := by
  unfold World.setBeliefs
  cases h : (w.ags a).beliefs g with
  | some r => simp [World.setSet]
  | none =>
    simp only [World.setAg, World.setSet]
    split
    · next ha =>
      subst ha
      by_cases hg : g' = g <;> simp [hg]
    · next ha => simp [ha]

theorem setBeliefs_nset {w : World} {a : Nat} {g : String × Nat} {xs : List Term} :
    w.nset ≤ (w.setBeliefs a g xs).nset := by
  unfold World.setBeliefs
  split
  · exact Nat.le_refl _
  · exact Nat.le_succ _

/-- The set that `setBeliefs` writes to. -/
theorem setBeliefs_sets {w : World} {a : Nat} {g : String × Nat} {xs : List Term} {r : Nat} :
    (w.setBeliefs a g xs).sets r = if r = ((w.ags a).beliefs g).getD w.nset then xs else w.sets r := by
  unfold World.setBeliefs
  cases h : (w.ags a).beliefs g <;> simp [World.setAg, World.setSet]

/-- The agent itself sees the new set. -/
theorem setBeliefs_self {w : World} {a : Nat} {g : String × Nat} {xs : List Term} :
    (w.setBeliefs a g xs).beliefs a g = xs := by
  unfold World.beliefs
  rw [setBeliefs_ref]
  cases h : (w.ags a).beliefs g with
  | none => simp [setBeliefs_sets, h]
  | some r => simp [setBeliefs_sets, h]

theorem setBeliefs_shares {w : World} {a a' : Nat} {g : String × Nat} {xs : List Term} (h : Shares w a a' g) :
    (w.setBeliefs a g xs).beliefs a' g = xs := by
  obtain ⟨r, h1, h2⟩ := h
  unfold World.beliefs
  rw [setBeliefs_ref]
  simp [h1, h2, setBeliefs_sets]

/-- Nobody else does, and the other predicates do not change. -/
theorem setBeliefs_other {w : World} (hw : BeliefsOK w) {a : Nat} {g : String × Nat} {xs : List Term} {a' : Nat}
    {g' : String × Nat} (h : g' ≠ g ∨ a' ≠ a ∧ ¬ Shares w a a' g) :
    (w.setBeliefs a g xs).beliefs a' g' = w.beliefs a' g' := by
  unfold World.beliefs
  rw [setBeliefs_ref, if_neg (by rcases h with h | h <;> simp [h])]
  cases h2 : (w.ags a').beliefs g' with
  | none => rfl
  | some r =>
    simp only [setBeliefs_sets]
    rw [if_neg]
    intro hr
    cases h1 : (w.ags a).beliefs g with
    | none => rw [h1] at hr; have := hw.lt h2; simp at hr; omega
    | some r' =>
      rw [h1] at hr; simp at hr; subst hr
      rcases h with h | h
      · exact h (hw.inj h2 h1)
      · obtain rfl := hw.inj h2 h1
        exact h.2 ⟨r, h1, h2⟩

theorem setBeliefs_ok {w : World} (hw : BeliefsOK w) {a : Nat} {g : String × Nat} {xs : List Term}
    (h1 : ∀ x ∈ xs, ∃ f as ys, x = .lit f as ys ∧ g = (f, as.length)) (h2 : ∀ x ∈ xs, x.Ground)
    (h3 : xs.Pairwise fun x y => pyEqB x y = false) : BeliefsOK (w.setBeliefs a g xs) := by
  have key : ∀ a' g', (w.setBeliefs a g xs).beliefs a' g' = w.beliefs a' g' ∨
      g' = g ∧ (w.setBeliefs a g xs).beliefs a' g' = xs := by
    intro a' g'
    by_cases hg : g' = g
    · subst hg
      by_cases ha : a' = a
      · subst ha; exact .inr ⟨rfl, setBeliefs_self⟩
      · by_cases hs : Shares w a a' g'
        · exact .inr ⟨rfl, setBeliefs_shares hs⟩
        · exact .inl (setBeliefs_other hw (.inr ⟨ha, hs⟩))
    · exact .inl (setBeliefs_other hw (.inl hg))
  refine ⟨?_, ?_, ?_, ?_, ?_⟩
  · intro a' g' r h
    rw [setBeliefs_ref] at h
    split at h
    · next hc =>
      simp at h; subst h
      unfold World.setBeliefs
      simp [hc.2.2]
    · exact Nat.lt_of_lt_of_le (hw.lt h) setBeliefs_nset
  · intro a₁ a₂ g₁ g₂ r h h'
    rw [setBeliefs_ref] at h h'
    split at h <;> split at h'
    · next c c' => rw [c.2.1, c'.2.1]
    · simp at h; subst h; exact absurd (hw.lt h') (Nat.lt_irrefl _)
    · simp at h'; subst h'; exact absurd (hw.lt h) (Nat.lt_irrefl _)
    · exact hw.inj h h'
  · intro a' g' x hx
    rcases key a' g' with h | ⟨rfl, h⟩ <;> rw [h] at hx
    · exact hw.lits hx
    · exact h1 x hx
  · intro a' g' x hx
    rcases key a' g' with h | ⟨rfl, h⟩ <;> rw [h] at hx
    · exact hw.ground hx
    · exact h2 x hx
  · intro a' g'
    rcases key a' g' with h | ⟨rfl, h⟩ <;> rw [h]
    · exact hw.set
    · exact h3

/-- What `pySetAdd` does. -/
theorem mem_pySetAdd {s : List Term} {x y : Term} :
    y ∈ pySetAdd s x ↔ y ∈ s ∨ y = x ∧ ∀ z ∈ s, pyEqB z x = false := by
  unfold pySetAdd
  split
  · next h =>
    simp only [List.any_eq_true] at h
    obtain ⟨z, hz, h⟩ := h
    constructor
    · exact .inl
    · rintro (h' | ⟨_, h'⟩)
      · exact h'
      · rw [h' z hz] at h; simp at h
  · next h =>
    simp only [List.any_eq_true, not_exists, not_and] at h
    simp only [List.mem_append, List.mem_singleton]
    constructor
    · rintro (h' | h')
      · exact .inl h'
      · exact .inr ⟨h', fun z hz => by simpa using h z hz⟩
    · rintro (h' | h')
      · exact .inl h'
      · exact .inr h'.1

theorem pySetAdd_pairwise {s : List Term} {x : Term} (h : s.Pairwise fun x y => pyEqB x y = false) :
    (pySetAdd s x).Pairwise fun x y => pyEqB x y = false := by
  unfold pySetAdd
  split
  · exact h
  · next hx =>
    simp only [List.any_eq_true, not_exists, not_and] at hx
    rw [List.pairwise_append]
    exact ⟨h, by simp, fun a ha b hb => by simp at hb; subst hb; simpa using hx a ha⟩

/-- The belief sets depend only on part of the world. -/
theorem BeliefsOK.congr {w w' : World} (hw : BeliefsOK w) (h1 : ∀ a, (w'.ags a).beliefs = (w.ags a).beliefs)
    (h2 : w'.sets = w.sets) (h3 : w.nset ≤ w'.nset) : BeliefsOK w' := by
  have hb : ∀ a g, w'.beliefs a g = w.beliefs a g := fun a g => by simp [World.beliefs, h1, h2]
  refine ⟨fun h => ?_, fun h h' => ?_, fun h => ?_, fun h => ?_, ?_⟩
  · rw [h1] at h; exact Nat.lt_of_lt_of_le (hw.lt h) h3
  · rw [h1] at h h'; exact hw.inj h h'
  · rw [hb] at h; exact hw.lits h
  · rw [hb] at h; exact hw.ground h
  · intro a g; rw [hb]; exact hw.set

theorem addPlan_beliefs {w : World} {a a' : Nat} {k : PlanKey} {p : Plan} :
    ((w.addPlan a k p).ags a').beliefs = (w.ags a').beliefs ∧ (w.addPlan a k p).sets = w.sets ∧
      (w.addPlan a k p).nset = w.nset := by
  unfold World.addPlan
  split
  · exact ⟨rfl, rfl, rfl⟩
  · refine ⟨?_, rfl, rfl⟩
    simp only [World.setAg, World.setPlist]
    split
    · next h => subst h; rfl
    · rfl

section
variable [Host]

/-- The belief part of the world after an atomic change. -/
theorem Prim.beliefs {w₀ : World} {s s' : QSt World} (h : Prim w₀ s s') :
    ((∀ a, (s'.w.ags a).beliefs = (s.w.ags a).beliefs) ∧ s'.w.sets = s.w.sets ∧ s'.w.nset = s.w.nset) ∨
    (∃ a f as xs, Settled (.lit f as xs) ∧ s'.w =
      s.w.setBeliefs a (f, as.length) (pySetAdd (s.w.beliefs a (f, as.length)) (.lit f as xs))) ∨
    ∃ a g xs, xs.Sublist (s.w.beliefs a g) ∧ s'.w = s.w.setBeliefs a g xs := by
  cases h with
  | b | nv | cur | tick | out | newInt | event | wake | wait | unplan | fill => exact .inl ⟨fun _ => rfl, rfl, rfl⟩
  | add a f as xs h => exact .inr (.inl ⟨a, f, as, xs, h, rfl⟩)
  | del a g xs h => exact .inr (.inr ⟨a, g, xs, h, rfl⟩)
  | drop a sts | push a i j sts =>
    refine .inl ⟨fun a' => ?_, rfl, rfl⟩
    simp only [World.setStacks, World.setAg]
    split
    · next h => subst h; rfl
    · rfl
  | plan a src => exact .inl ⟨fun a' => addPlan_beliefs.1, (addPlan_beliefs (a' := 0)).2.1, (addPlan_beliefs (a' := 0)).2.2⟩

theorem Prim.beliefsOK {w₀ : World} {s s' : QSt World} (hw : BeliefsOK s.w) (h : Prim w₀ s s') : BeliefsOK s'.w := by
  rcases h.beliefs with ⟨h1, h2, h3⟩ | ⟨a, f, as, xs, h1, h2⟩ | ⟨a, g, xs, h1, h2⟩
  · exact hw.congr h1 h2 (by omega)
  · rw [h2]
    refine setBeliefs_ok hw ?_ ?_ (pySetAdd_pairwise hw.set)
    · intro x hx
      rcases mem_pySetAdd.1 hx with hx | ⟨rfl, _⟩
      · exact hw.lits hx
      · exact ⟨f, as, xs, rfl, rfl⟩
    · intro x hx
      rcases mem_pySetAdd.1 hx with hx | ⟨rfl, _⟩
      · exact hw.ground hx
      · exact h1.1
  · rw [h2]
    exact setBeliefs_ok hw (fun x hx => hw.lits (h1.subset hx)) (fun x hx => hw.ground (h1.subset hx)) (hw.set.sublist h1)

theorem beliefsOK_stable {w₀ : World} : Stable w₀ fun s => Base w₀ s.w ∧ BeliefsOK s.w where
  prim _ _ h hp := ⟨hp.base h.1, hp.beliefsOK h.2⟩
  base _ h := h.1

end

end Verif
