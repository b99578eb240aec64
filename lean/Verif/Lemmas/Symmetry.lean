import Verif.Spec.Bindings
import Verif.Lemmas.Unify
import Verif.Lemmas.Fuel

/-!
# Lemmas: unification is symmetric

`Unifies l r sc a sc'` describes unification without fuel and without preferring one of the
sides: where two unbound variables meet, either can be bound.  Runs of `unify` are described by
it, and it determines the answer, and the bindings up to their direction.
-/

namespace Verif

/-! ## Chains of variables -/

theorem EndsAt.det {sc : Scope} {x z z' : VarId} (h : EndsAt sc x z) (h' : EndsAt sc x z') : z = z' := by
  induction h with
  | stop h =>
    cases h' with
    | stop _ => rfl
    | step h1 _ => exact absurd h1 (h _)
  | step h _ ih =>
    cases h' with
    | stop h1 => exact absurd h (h1 _)
    | step h1 h2 =>
      rw [h] at h1
      cases h1
      exact ih h2

theorem EndsAt.end_ {sc : Scope} {x z : VarId} (h : EndsAt sc x z) : ∀ y, sc z ≠ some (.var y) := by
  induction h with
  | stop h => exact h
  | step _ _ ih => exact ih

theorem EndsAt.last {sc : Scope} {x z : VarId} (h : EndsAt sc x z) : EndsAt sc z z := .stop h.end_

theorem endsAt_free {sc : Scope} {x : VarId} (h : sc x = none) : EndsAt sc x x := .stop (by simp [h])

theorem Joined.symm {sc : Scope} {x y : VarId} : Joined sc x y → Joined sc y x := fun ⟨z, h, h'⟩ => ⟨z, h', h⟩

theorem Joined.trans {sc : Scope} {x y z : VarId} : Joined sc x y → Joined sc y z → Joined sc x z
  | ⟨_, h1, h2⟩, ⟨_, h3, h4⟩ => ⟨_, h1, h2.det h3 ▸ h4⟩

theorem Joined.left {sc : Scope} {x y : VarId} : Joined sc x y → Joined sc x x := fun h => h.trans h.symm

theorem EndsAt.joined {sc : Scope} {x z : VarId} (h : EndsAt sc x z) : Joined sc x z := ⟨z, h, h.last⟩

/-- Unbound variables are joined only with themselves. -/
theorem Joined.free {sc : Scope} {x y : VarId} (h : Joined sc x y) (hx : sc x = none) (hy : sc y = none) : x = y := by
  obtain ⟨z, h1, h2⟩ := h
  rw [h1.det (endsAt_free hx)] at h2
  exact h2.det (endsAt_free hy)

theorem Bears.det {sc : Scope} {x : VarId} {o o' : Option Term} : Bears sc x o → Bears sc x o' → o = o'
  | ⟨_, h1, h2⟩, ⟨_, h3, h4⟩ => by rw [← h2, ← h4, h1.det h3]

theorem Bears.joined {sc : Scope} {x y : VarId} {o : Option Term} (h : Joined sc x y) : Bears sc x o → Bears sc y o
  | ⟨_, h1, h2⟩ => by
    obtain ⟨z, h3, h4⟩ := h
    exact ⟨z, h4, h3.det h1 ▸ h2⟩

theorem SameBindings.refl (sc : Scope) : SameBindings sc sc := ⟨fun _ _ => .rfl, fun _ _ => .rfl, fun _ _ => rfl⟩

theorem SameBindings.symm {sc sc' : Scope} (h : SameBindings sc sc') : SameBindings sc' sc :=
  ⟨fun x y => (h.joined x y).symm, fun x o => (h.bears x o).symm, fun x hx => (h.circle x fun h' => hx ((h.joined x x).1 h')).symm⟩

/-! ### Binding an unbound variable -/

section
variable {sc : Scope} {x : VarId}

theorem endsAt_set_term {t : Term} (hx : sc x = none) (ht : ∀ y, t ≠ .var y) {u z : VarId} : EndsAt (sc.set x t) u z ↔ EndsAt sc u z := by
  constructor
  · intro h
    induction h with
    | @stop u h =>
      refine .stop fun y e => ?_
      have := h y
      unfold Scope.set at this
      split at this
      · next hu => rw [hu, hx] at e; cases e
      · exact this e
    | @step u y z h _ ih =>
      unfold Scope.set at h
      split at h
      · exact absurd (Option.some.inj h) (ht y)
      · exact .step h ih
  · intro h
    induction h with
    | @stop u h =>
      refine .stop fun y e => ?_
      unfold Scope.set at e
      split at e
      · exact ht y (Option.some.inj e)
      · exact h y e
    | @step u y z h _ ih =>
      have : u ≠ x := by rintro rfl; rw [hx] at h; cases h
      exact .step (by simp [Scope.set, this, h]) ih

theorem joined_set_term {t : Term} (hx : sc x = none) (ht : ∀ y, t ≠ .var y) {u v : VarId} : Joined (sc.set x t) u v ↔ Joined sc u v := by
  simp only [Joined, endsAt_set_term hx ht]

theorem bears_set_term {t : Term} (hx : sc x = none) (ht : ∀ y, t ≠ .var y) {u : VarId} {o : Option Term} :
    Bears (sc.set x t) u o ↔ (Joined sc u x ∧ o = some t) ∨ (¬Joined sc u x ∧ Bears sc u o) := by
  simp only [Bears, endsAt_set_term hx ht]
  constructor
  · rintro ⟨z, h1, h2⟩
    unfold Scope.set at h2
    split at h2
    · next hz => subst hz; exact .inl ⟨h1.joined, h2.symm⟩
    · next hz =>
      refine .inr ⟨fun h => hz ?_, z, h1, h2⟩
      obtain ⟨w, h3, h4⟩ := h
      rw [h1.det h3]
      exact h4.det (endsAt_free hx)
  · rintro (⟨⟨z, h1, h2⟩, rfl⟩ | ⟨h, z, h1, h2⟩)
    · cases h2.det (endsAt_free hx)
      exact ⟨x, h1, by simp [Scope.set]⟩
    · refine ⟨z, h1, ?_⟩
      have : z ≠ x := by rintro rfl; exact h h1.joined
      simp [Scope.set, this, h2]

theorem endsAt_set_var {y : VarId} (hx : sc x = none) (hy : sc y = none) (hne : x ≠ y) {u z : VarId} :
    EndsAt (sc.set x (.var y)) u z ↔ (EndsAt sc u x ∧ z = y) ∨ (EndsAt sc u z ∧ z ≠ x) := by
  have hy' : EndsAt (sc.set x (.var y)) y y := .stop fun w => by simp [Scope.set, hne.symm, hy]
  constructor
  · intro h
    induction h with
    | @stop u h =>
      have hu : u ≠ x := by rintro rfl; exact h y (by simp [Scope.set])
      refine .inr ⟨.stop fun w e => h w ?_, hu⟩
      simp [Scope.set, hu, e]
    | @step u w z h hw ih =>
      unfold Scope.set at h
      split at h
      · next hu =>
        subst hu
        cases h
        exact .inl ⟨endsAt_free hx, hw.det hy'⟩
      · rcases ih with ⟨h1, h2⟩ | ⟨h1, h2⟩
        · exact .inl ⟨.step h h1, h2⟩
        · exact .inr ⟨.step h h1, h2⟩
  · rintro (⟨h, rfl⟩ | ⟨h, hz⟩)
    · generalize hw : x = w at h
      induction h with
      | stop h => subst hw; exact .step (by simp [Scope.set]) hy'
      | @step u v w h _ ih =>
        have : u ≠ x := by rintro rfl; rw [hx] at h; cases h
        exact .step (y := v) (by simp [Scope.set, hw ▸ this, h]) (ih hw)
    · induction h with
      | @stop u h => exact .stop fun w e => h w (by simpa [Scope.set, hz] using e)
      | @step u v w h _ ih =>
        have : u ≠ x := by rintro rfl; rw [hx] at h; cases h
        exact .step (by simp [Scope.set, this, h]) (ih hz)

theorem joined_set_var {y : VarId} (hx : sc x = none) (hy : sc y = none) (hne : x ≠ y) {u v : VarId} :
    Joined (sc.set x (.var y)) u v ↔ Joined sc u v ∨ ((Joined sc u x ∨ Joined sc u y) ∧ (Joined sc v x ∨ Joined sc v y)) := by
  have toEnd : ∀ {w z}, Joined sc w z → sc z = none → EndsAt sc w z := by
    rintro w z ⟨a, h1, h2⟩ hz
    cases h2.det (endsAt_free hz)
    exact h1
  simp only [Joined, endsAt_set_var hx hy hne]
  constructor
  · rintro ⟨z, ⟨h1, h2⟩ | ⟨h1, h2⟩, ⟨h3, h4⟩ | ⟨h3, h4⟩⟩
    · exact .inl ⟨x, h1, h3⟩
    · subst h2
      exact .inr ⟨.inl h1.joined, .inr h3.joined⟩
    · subst h4
      exact .inr ⟨.inr h1.joined, .inl h3.joined⟩
    · exact .inl ⟨z, h1, h3⟩
  · rintro (⟨z, h1, h2⟩ | ⟨h1, h2⟩)
    · by_cases hz : z = x
      · subst hz; exact ⟨y, .inl ⟨h1, rfl⟩, .inl ⟨h2, rfl⟩⟩
      · exact ⟨z, .inr ⟨h1, hz⟩, .inr ⟨h2, hz⟩⟩
    · refine ⟨y, ?_, ?_⟩
      · exact h1.imp (fun h => ⟨toEnd h hx, rfl⟩) fun h => ⟨toEnd h hy, hne.symm⟩
      · exact h2.imp (fun h => ⟨toEnd h hx, rfl⟩) fun h => ⟨toEnd h hy, hne.symm⟩

theorem bears_set_var {y : VarId} (hx : sc x = none) (hy : sc y = none) (hne : x ≠ y) {u : VarId} {o : Option Term} :
    Bears (sc.set x (.var y)) u o ↔ Bears sc u o := by
  simp only [Bears, endsAt_set_var hx hy hne]
  constructor
  · rintro ⟨z, ⟨h1, rfl⟩ | ⟨h1, h2⟩, h3⟩
    · refine ⟨x, h1, ?_⟩
      rw [hx, ← h3]
      simp [Scope.set, hne.symm, hy]
    · exact ⟨z, h1, by simpa [Scope.set, h2] using h3⟩
  · rintro ⟨z, h1, h2⟩
    by_cases hz : z = x
    · subst hz
      exact ⟨y, .inl ⟨h1, rfl⟩, by simp [Scope.set, hne.symm, hy, ← h2, hx]⟩
    · exact ⟨z, .inr ⟨h1, hz⟩, by simpa [Scope.set, hz] using h2⟩

end

/-- Both scopes bind a variable to the same term. -/
theorem SameBindings.term {sc sc' : Scope} (h : SameBindings sc sc') {x x' : VarId} (hx : sc x = none) (hx' : sc' x' = none)
    (hj : Joined sc x x') {t : Term} (ht : ∀ y, t ≠ .var y) : SameBindings (sc.set x t) (sc'.set x' t) := by
  have hjx : ∀ u, Joined sc u x ↔ Joined sc' u x' := fun u => by
    rw [← h.joined]
    exact ⟨fun k => k.trans hj, fun k => k.trans hj.symm⟩
  refine ⟨fun u v => ?_, fun u o => ?_, fun u hu => ?_⟩
  · rw [joined_set_term hx ht, joined_set_term hx' ht, h.joined]
  · rw [bears_set_term hx ht, bears_set_term hx' ht, hjx, h.bears]
  · rw [joined_set_term hx ht] at hu
    have h1 : u ≠ x := by rintro rfl; exact hu (endsAt_free hx).joined
    have h2 : u ≠ x' := by rintro rfl; exact hu hj.symm.left
    simp [Scope.set, h1, h2, h.circle u hu]

/-- Both scopes make two variables equal, in any direction. -/
theorem SameBindings.var {sc sc' : Scope} (h : SameBindings sc sc') {x y x' y' : VarId} (hx : sc x = none) (hy : sc y = none) (hne : x ≠ y)
    (hx' : sc' x' = none) (hy' : sc' y' = none) (hne' : x' ≠ y')
    (hj : (Joined sc x x' ∧ Joined sc y y') ∨ (Joined sc x y' ∧ Joined sc y x')) :
    SameBindings (sc.set x (.var y)) (sc'.set x' (.var y')) := by
  have hjx : ∀ u, (Joined sc u x ∨ Joined sc u y) ↔ (Joined sc' u x' ∨ Joined sc' u y') := fun u => by
    rw [← h.joined, ← h.joined]
    rcases hj with ⟨h1, h2⟩ | ⟨h1, h2⟩
    · exact ⟨Or.imp (fun k => k.trans h1) fun k => k.trans h2, Or.imp (fun k => k.trans h1.symm) fun k => k.trans h2.symm⟩
    · exact ⟨fun k => k.symm.imp (fun k => k.trans h2) fun k => k.trans h1, fun k => k.symm.imp (fun k => k.trans h1.symm) fun k => k.trans h2.symm⟩
  refine ⟨fun u v => ?_, fun u o => ?_, fun u hu => ?_⟩
  · rw [joined_set_var hx hy hne, joined_set_var hx' hy' hne', h.joined, hjx, hjx]
  · rw [bears_set_var hx hy hne, bears_set_var hx' hy' hne', h.bears]
  · rw [joined_set_var hx hy hne] at hu
    have hu1 : ¬Joined sc u u := fun k => hu (.inl k)
    have h1 : u ≠ x := by rintro rfl; exact hu1 (endsAt_free hx).joined
    have h2 : u ≠ x' := by
      rintro rfl
      exact hu1 ((h.joined _ _).2 (endsAt_free hx').joined)
    simp [Scope.set, h1, h2, h.circle u hu1]

section
variable [Arith]

/-! ## Evaluation -/

omit [Arith] in
theorem deref_ends {sc : Scope} : ∀ (n : Nat) {x : VarId} {t : Term}, deref n sc (.var x) = .ok t →
    ∃ z, EndsAt sc x z ∧ ((sc z = none ∧ t = .var z) ∨ (sc z = some t ∧ ∀ y, t ≠ .var y))
  | 0, _, _, h => by cases h
  | n + 1, x, t, h => by
    rw [deref] at h
    cases hx : sc x with
    | none => rw [hx] at h; cases h; exact ⟨x, endsAt_free hx, .inl ⟨hx, rfl⟩⟩
    | some s =>
      simp only [hx] at h
      by_cases hs : ∃ y, s = .var y
      · obtain ⟨y, rfl⟩ := hs
        obtain ⟨z, h1, h2⟩ := deref_ends n h
        exact ⟨z, .step hx h1, h2⟩
      · have hs' : ∀ y, s ≠ .var y := fun y e => hs ⟨y, e⟩
        have : t = s := by
          cases n with
          | zero => cases h
          | succ n =>
            rw [deref] at h
            · cases h; rfl
            · intro y; exact hs' y
        subst this
        refine ⟨x, .stop fun y e => ?_, .inr ⟨hx, hs'⟩⟩
        rw [hx] at e
        exact hs' y (Option.some.inj e)

/-- The same result of evaluation: the same term, or variables that have been made equal. -/
def SameTerm (sc sc' : Scope) (t t' : Term) : Prop :=
  (t = t' ∧ ∀ y, t ≠ .var y) ∨ ∃ x x', t = .var x ∧ t' = .var x' ∧ sc x = none ∧ sc' x' = none ∧ Joined sc x x'

omit [Arith] in
theorem mapL_same {f g : Term → Ev Term} : ∀ {ts us vs : List Term}, (∀ t u v, f t = .ok u → g t = .ok v → u = v) →
    Ev.mapL f ts = .ok us → Ev.mapL g ts = .ok vs → us = vs
  | [], _, _, _, h1, h2 => by
    simp only [Ev.mapL] at h1 h2
    cases h1; cases h2; rfl
  | t :: ts, us, vs, h, h1, h2 => by
    simp only [Ev.mapL] at h1 h2
    obtain ⟨u, e1, h1⟩ := Ev.bind_eq_ok.1 h1
    obtain ⟨v, e2, h2⟩ := Ev.bind_eq_ok.1 h2
    obtain ⟨us', e3, rfl⟩ := Ev.map_eq_ok.1 h1
    obtain ⟨vs', e4, rfl⟩ := Ev.map_eq_ok.1 h2
    rw [h t u v e1 e2, mapL_same h e3 e4]

theorem evaluate_var {sc : Scope} {n : Nat} {x : VarId} {t : Term} (h : evaluate (n + 1) sc (.var x) = .ok t) :
    ∃ z, EndsAt sc x z ∧ ((sc z = none ∧ t = .var z) ∨ ∃ s, sc z = some s ∧ (∀ y, s ≠ .var y) ∧ evaluate n sc s = .ok t) := by
  rw [evaluate] at h
  cases hx : sc x with
  | none => simp only [hx] at h; cases h; exact ⟨x, endsAt_free hx, .inl ⟨hx, rfl⟩⟩
  | some s =>
    simp only [hx] at h
    obtain ⟨u, h1, h2⟩ := Ev.bind_eq_ok.1 h
    obtain ⟨z, h3, ⟨h4, rfl⟩ | ⟨h4, h5⟩⟩ := deref_ends _ h1
    · refine ⟨z, h3, .inl ⟨h4, ?_⟩⟩
      cases n with
      | zero => cases h2
      | succ n =>
        rw [evaluate] at h2
        simp only [h4] at h2
        cases h2; rfl
    · exact ⟨z, h3, .inr ⟨u, h4, h5, h2⟩⟩

theorem grounded_var {sc : Scope} {n : Nat} {x : VarId} {t : Term} (h : grounded (n + 1) sc (.var x) = .ok t) :
    ∃ z s, EndsAt sc x z ∧ sc z = some s ∧ (∀ y, s ≠ .var y) ∧ grounded n sc s = .ok t := by
  rw [grounded] at h
  cases hx : sc x with
  | none => simp only [hx] at h; cases h
  | some s =>
    simp only [hx] at h
    obtain ⟨u, h1, h2⟩ := Ev.bind_eq_ok.1 h
    obtain ⟨z, h3, ⟨h4, rfl⟩ | ⟨h4, h5⟩⟩ := deref_ends _ h1
    · cases n with
      | zero => cases h2
      | succ n =>
        rw [grounded] at h2
        simp only [h4] at h2
        cases h2
    · exact ⟨z, u, h3, h4, h5, h2⟩

omit [Arith] in
theorem unFunc_var {op : UnOp} {x : VarId} {t : Term} : unFunc op (.var x) ≠ .ok t := by
  cases op <;> exact nofun

theorem binFunc_var {op : BinOp} {x : VarId} {t r : Term} : binFunc op (.var x) r ≠ .ok t := by
  unfold binFunc
  split
  · exact nofun
  · split <;> exact nofun

theorem binFunc_var' {op : BinOp} {x : VarId} {t l : Term} : binFunc op l (.var x) ≠ .ok t := by
  unfold binFunc
  split
  · split
    · next h => cases h
    · exact nofun
  · split
    · split
      · next h => cases h
      · exact nofun
    · exact nofun

omit [Arith] in
theorem unFunc_shape {op : UnOp} {t v : Term} (h : unFunc op t = .ok v) : (∃ b, v = .bool b) ∨ ∃ q, v = .num q := by
  unfold unFunc at h
  split at h <;> cases h
  · exact .inl ⟨_, rfl⟩
  · exact .inr ⟨_, rfl⟩
  · exact .inr ⟨_, rfl⟩

theorem binFunc_shape {op : BinOp} {l r v : Term} (h : binFunc op l r = .ok v) : (∃ b, v = .bool b) ∨ ∃ q, v = .num q := by
  unfold binFunc at h
  split at h
  · split at h <;> cases h
    exact .inl ⟨_, rfl⟩
  · split at h
    · split at h
      · split at h <;> cases h
        exact .inr ⟨_, rfl⟩
      · cases h
    · cases h

omit [Arith] in
theorem sameTerm_of {sc sc' : Scope} {t : Term} (h : ∀ y, t ≠ .var y) : SameTerm sc sc' t t := .inl ⟨rfl, h⟩

mutual
/-- Evaluation gives the same in scopes with the same bindings. -/
theorem evaluate_same {sc sc' : Scope} (hs : SameBindings sc sc') : ∀ (n : Nat) {t t₁ t₂ : Term},
    evaluate n sc t = .ok t₁ → evaluate n sc' t = .ok t₂ → SameTerm sc sc' t₁ t₂
  | 0, _, _, _, h, _ => by cases h
  | n + 1, .var x, t₁, t₂, h, h' => by
    obtain ⟨z, h1, h2⟩ := evaluate_var h
    obtain ⟨z', h1', h2'⟩ := evaluate_var h'
    have e : sc z = sc' z' := ((hs.bears x _).1 ⟨z, h1, rfl⟩).det ⟨z', h1', rfl⟩
    rcases h2 with ⟨h3, rfl⟩ | ⟨s, h3, h4, h5⟩
    · rcases h2' with ⟨h3', rfl⟩ | ⟨s, h3', _⟩
      · exact .inr ⟨z, z', rfl, rfl, h3, h3', h1.joined.symm.trans ((hs.joined _ _).2 h1'.joined)⟩
      · rw [h3, h3'] at e; cases e
    · rcases h2' with ⟨h3', rfl⟩ | ⟨s', h3', _, h5'⟩
      · rw [h3, h3'] at e; cases e
      · rw [h3, h3'] at e
        cases e
        exact evaluate_same hs n h5 h5'
  | n + 1, .un op t, t₁, t₂, h, h' => by
    rw [evaluate] at h h'
    obtain ⟨u, h1, h2⟩ := Ev.bind_eq_ok.1 h
    obtain ⟨u', h1', h2'⟩ := Ev.bind_eq_ok.1 h'
    rcases evaluate_same hs n h1 h1' with ⟨rfl, _⟩ | ⟨x, _, rfl, _⟩
    · rw [h2] at h2'
      cases h2'
      refine sameTerm_of fun y e => ?_
      subst e
      rcases unFunc_shape h2 with ⟨_, e⟩ | ⟨_, e⟩ <;> cases e
    · exact absurd h2 unFunc_var
  | n + 1, .bin op l r, t₁, t₂, h, h' => by
    rw [evaluate] at h h'
    obtain ⟨u, h1, h2⟩ := Ev.bind_eq_ok.1 h
    obtain ⟨u', h1', h2'⟩ := Ev.bind_eq_ok.1 h'
    obtain ⟨v, h3, h4⟩ := Ev.bind_eq_ok.1 h2
    obtain ⟨v', h3', h4'⟩ := Ev.bind_eq_ok.1 h2'
    have su := evaluate_same hs n h1 h1'
    have sv := evaluate_same hs n h3 h3'
    split at h4
    · next hc =>
      rw [if_pos hc] at h4'
      obtain ⟨w, h5, h6⟩ := Ev.bind_eq_ok.1 h4
      obtain ⟨w', h5', h6'⟩ := Ev.bind_eq_ok.1 h4'
      obtain ⟨q, h7, h8⟩ := Ev.bind_eq_ok.1 h6
      obtain ⟨q', h7', h8'⟩ := Ev.bind_eq_ok.1 h6'
      have ew : w = w' := by
        rcases su with ⟨rfl, _⟩ | ⟨x, _, rfl, rfl, hx, _⟩
        · exact grounded_same hs n h5 h5'
        · cases n with
          | zero => cases h5
          | succ n => rw [grounded, hx] at h5; cases h5
      have eq : q = q' := by
        rcases sv with ⟨rfl, _⟩ | ⟨x, _, rfl, rfl, hx, _⟩
        · exact grounded_same hs n h7 h7'
        · cases n with
          | zero => cases h7
          | succ n => rw [grounded, hx] at h7; cases h7
      subst ew; subst eq
      rw [h8] at h8'
      cases h8'
      obtain ⟨b, _, rfl⟩ := Ev.map_eq_ok.1 h8
      exact sameTerm_of nofun
    · next hc =>
      rw [if_neg hc] at h4'
      rcases su with ⟨rfl, _⟩ | ⟨x, _, rfl, _⟩
      · rcases sv with ⟨rfl, _⟩ | ⟨x, _, rfl, _⟩
        · rw [h4] at h4'
          cases h4'
          refine sameTerm_of fun y e => ?_
          subst e
          rcases binFunc_shape h4 with ⟨_, e⟩ | ⟨_, e⟩ <;> cases e
        · exact absurd h4 binFunc_var'
      · exact absurd h4 binFunc_var
  | n + 1, .bool _, _, _, h, h' => by rw [evaluate] at h h' <;> first | (cases h; cases h'; exact sameTerm_of nofun) | exact nofun
  | n + 1, .num _, _, _, h, h' => by rw [evaluate] at h h' <;> first | (cases h; cases h'; exact sameTerm_of nofun) | exact nofun
  | n + 1, .str _, _, _, h, h' => by rw [evaluate] at h h' <;> first | (cases h; cases h'; exact sameTerm_of nofun) | exact nofun
  | n + 1, .lit .., _, _, h, h' => by rw [evaluate] at h h' <;> first | (cases h; cases h'; exact sameTerm_of nofun) | exact nofun
  | n + 1, .tup _, _, _, h, h' => by rw [evaluate] at h h' <;> first | (cases h; cases h'; exact sameTerm_of nofun) | exact nofun
  | n + 1, .cons .., _, _, h, h' => by rw [evaluate] at h h' <;> first | (cases h; cases h'; exact sameTerm_of nofun) | exact nofun
  | n + 1, .wild, _, _, h, h' => by rw [evaluate] at h h' <;> first | (cases h; cases h'; exact sameTerm_of nofun) | exact nofun

/-- So does grounding. -/
theorem grounded_same {sc sc' : Scope} (hs : SameBindings sc sc') : ∀ (n : Nat) {t t₁ t₂ : Term},
    grounded n sc t = .ok t₁ → grounded n sc' t = .ok t₂ → t₁ = t₂
  | 0, _, _, _, h, _ => by cases h
  | n + 1, .var x, t₁, t₂, h, h' => by
    obtain ⟨z, s, h1, h2, _, h3⟩ := grounded_var h
    obtain ⟨z', s', h1', h2', _, h3'⟩ := grounded_var h'
    have e : sc z = sc' z' := ((hs.bears x _).1 ⟨z, h1, rfl⟩).det ⟨z', h1', rfl⟩
    rw [h2, h2'] at e
    cases e
    exact grounded_same hs n h3 h3'
  | n + 1, .un op t, t₁, t₂, h, h' => by
    rw [grounded] at h h'
    obtain ⟨u, h1, h2⟩ := Ev.bind_eq_ok.1 h
    obtain ⟨u', h1', h2'⟩ := Ev.bind_eq_ok.1 h'
    rcases evaluate_same hs n h1 h1' with ⟨rfl, _⟩ | ⟨x, _, rfl, rfl, hx, _⟩
    · exact grounded_same hs n h2 h2'
    · cases n with
      | zero => cases h2
      | succ n => rw [grounded, hx] at h2; cases h2
  | n + 1, .bin op l r, t₁, t₂, h, h' => by
    rw [grounded] at h h'
    obtain ⟨u, h1, h2⟩ := Ev.bind_eq_ok.1 h
    obtain ⟨u', h1', h2'⟩ := Ev.bind_eq_ok.1 h'
    rcases evaluate_same hs n h1 h1' with ⟨rfl, _⟩ | ⟨x, _, rfl, rfl, hx, _⟩
    · exact grounded_same hs n h2 h2'
    · cases n with
      | zero => cases h2
      | succ n => rw [grounded, hx] at h2; cases h2
  | n + 1, .lit f as ns, t₁, t₂, h, h' => by
    rw [grounded] at h h'
    obtain ⟨us, h1, h2⟩ := Ev.bind_eq_ok.1 h
    obtain ⟨us', h1', h2'⟩ := Ev.bind_eq_ok.1 h'
    obtain ⟨vs, h3, h4⟩ := Ev.bind_eq_ok.1 h2
    obtain ⟨vs', h3', h4'⟩ := Ev.bind_eq_ok.1 h2'
    cases h4; cases h4'
    rw [mapL_same (fun t u v => grounded_same hs n) h1 h1', mapL_same (fun t u v => grounded_same hs n) h3 h3']
  | n + 1, .cons a b, t₁, t₂, h, h' => by
    rw [grounded] at h h'
    obtain ⟨us, h1, h2⟩ := Ev.bind_eq_ok.1 h
    obtain ⟨us', h1', h2'⟩ := Ev.bind_eq_ok.1 h'
    obtain ⟨vs, h3, h4⟩ := Ev.bind_eq_ok.1 h2
    obtain ⟨vs', h3', h4'⟩ := Ev.bind_eq_ok.1 h2'
    cases h4; cases h4'
    rw [grounded_same hs n h1 h1', grounded_same hs n h3 h3']
  | n + 1, .tup xs, t₁, t₂, h, h' => by
    rw [grounded] at h h'
    obtain ⟨us, h1, rfl⟩ := Ev.map_eq_ok.1 h
    obtain ⟨us', h1', rfl⟩ := Ev.map_eq_ok.1 h'
    rw [mapL_same (fun t u v => grounded_same hs n) h1 h1']
  | n + 1, .bool _, _, _, h, h' => by rw [grounded] at h h' <;> first | (cases h; cases h'; rfl) | exact nofun
  | n + 1, .num _, _, _, h, h' => by rw [grounded] at h h' <;> first | (cases h; cases h'; rfl) | exact nofun
  | n + 1, .str _, _, _, h, h' => by rw [grounded] at h h' <;> first | (cases h; cases h'; rfl) | exact nofun
  | n + 1, .wild, _, _, h, h' => by rw [grounded] at h; cases h
end

/-- The term evaluates to the second one. -/
def Weak (sc : Scope) (t t' : Term) : Prop := ∃ n, evaluate n sc t = .ok t'

theorem Weak.same {sc sc' : Scope} (hs : SameBindings sc sc') {t t₁ t₂ : Term} (h : Weak sc t t₁) (h' : Weak sc' t t₂) :
    SameTerm sc sc' t₁ t₂ := by
  obtain ⟨n, h⟩ := h
  obtain ⟨m, h'⟩ := h'
  have mono : ∀ {sc : Scope} {n k : Nat} {v : Term}, evaluate n sc t = .ok v → n ≤ k → evaluate k sc t = .ok v := by
    intro sc n k v h hk
    rw [← h]
    exact Ev.mono (f := fun n => evaluate n sc t) (fun n => evaluate_succ n sc t) hk (by simp [h])
  exact evaluate_same hs (max n m) (mono h (by omega)) (mono h' (by omega))

theorem Weak.free {sc : Scope} {t : Term} {x : VarId} (h : Weak sc t (.var x)) : sc x = none := by
  rcases h.same (SameBindings.refl sc) h with ⟨_, h⟩ | ⟨_, _, e, _, h, _⟩
  · exact absurd rfl (h x)
  · cases e; exact h

/-- No variable is bound to a wildcard. -/
def NoneWild (sc : Scope) : Prop := ∀ x, sc x ≠ some .wild

theorem evaluate_wild {sc : Scope} (hw : NoneWild sc) : ∀ (n : Nat) {t : Term}, evaluate n sc t = .ok .wild → t = .wild
  | 0, _, h => by cases h
  | n + 1, t, h => by
    cases t with
    | var x =>
      obtain ⟨z, _, ⟨_, e⟩ | ⟨s, h1, _, h2⟩⟩ := evaluate_var h
      · cases e
      · rw [evaluate_wild hw n h2] at h1
        exact absurd h1 (hw z)
    | un op t =>
      rw [evaluate] at h
      obtain ⟨u, h1, h2⟩ := Ev.bind_eq_ok.1 h
      rcases unFunc_shape h2 with ⟨_, e⟩ | ⟨_, e⟩ <;> cases e
    | bin op l r =>
      rw [evaluate] at h
      obtain ⟨u, h1, h2⟩ := Ev.bind_eq_ok.1 h
      obtain ⟨v, h3, h4⟩ := Ev.bind_eq_ok.1 h2
      split at h4
      · obtain ⟨w, h5, h6⟩ := Ev.bind_eq_ok.1 h4
        obtain ⟨q, h7, h8⟩ := Ev.bind_eq_ok.1 h6
        obtain ⟨b, _, e⟩ := Ev.map_eq_ok.1 h8
        cases e
      · rcases binFunc_shape h4 with ⟨_, e⟩ | ⟨_, e⟩ <;> cases e
    | wild => rfl
    | _ => rw [evaluate] at h <;> first | cases h | exact nofun

theorem Weak.wild {sc : Scope} (hw : NoneWild sc) {t : Term} (h : Weak sc t .wild) : t = .wild := evaluate_wild hw _ h.choose_spec

/-! ## The relation -/

/-- What remains to be unified, if the terms (neither variables nor wildcards nor expressions)
have the same structure at the top. -/
def pieces : Term → Term → Option (List Term × List Term)
  | .bool p, .bool q => if p = q then some ([], []) else none
  | .num p, .num q => if p = q then some ([], []) else none
  | .str s, .str t => if s = t then some ([], []) else none
  | .lit f as _, .lit g bs _ => if f = g ∧ as.length = bs.length then some (as, bs) else none
  | .tup xs, .tup ys => if xs.length = ys.length then some (xs, ys) else none
  | .cons h t, .cons h' t' => some ([h, t], [h', t'])
  | .cons h t, .tup (x :: xs) => some ([h, t], [x, .tup xs])
  | .tup (x :: xs), .cons h t => some ([x, .tup xs], [h, t])
  | _, _ => none

omit [Arith] in
theorem pieces_symm (l r : Term) : pieces r l = (pieces l r).map Prod.swap := by
  cases l <;> cases r <;> simp only [pieces, Option.map_none]
  case bool.bool p q => cases p <;> cases q <;> rfl
  case num.num p q =>
    by_cases h : p = q
    · simp [h]
    · simp [h, Ne.symm h]
  case str.str p q =>
    by_cases h : p = q
    · simp [h]
    · simp [h, Ne.symm h]
  case lit.lit f as _ g bs _ =>
    by_cases h : f = g ∧ as.length = bs.length
    · simp [h.1, h.2]
    · rw [if_neg h, if_neg fun h' => h ⟨h'.1.symm, h'.2.symm⟩]; rfl
  case tup.tup xs ys =>
    by_cases h : xs.length = ys.length
    · simp [h]
    · simp [h, Ne.symm h]
  case cons.cons => rfl
  case cons.tup xs => cases xs <;> rfl
  case tup.cons xs _ _ => cases xs <;> rfl

/-- An answer with its bindings, or lists that remain to be unified. -/
inductive Meeting where
  | done (a : Bool) (sc : Scope)
  | more (ls rs : List Term)

/-- What unification does with evaluated terms that are not wildcards. -/
inductive Meets : Term → Term → Scope → Meeting → Prop where
  | same {x sc} : Meets (.var x) (.var x) sc (.done true sc)
  | linkL {x y sc} : x ≠ y → Meets (.var x) (.var y) sc (.done true (sc.set x (.var y)))
  | linkR {x y sc} : x ≠ y → Meets (.var x) (.var y) sc (.done true (sc.set y (.var x)))
  | bindL {x t sc} : (∀ y, t ≠ .var y) → Meets (.var x) t sc (.done true (sc.set x t))
  | bindR {x t sc} : (∀ y, t ≠ .var y) → Meets t (.var x) sc (.done true (sc.set x t))
  | clash {l r sc} : (∀ y, l ≠ .var y) → (∀ y, r ≠ .var y) → pieces l r = none → Meets l r sc (.done false sc)
  | deep {l r sc ls rs} : (∀ y, l ≠ .var y) → (∀ y, r ≠ .var y) → pieces l r = some (ls, rs) → Meets l r sc (.more ls rs)

mutual
/-- Unification, without preferring a side. -/
inductive Unifies : Term → Term → Scope → Bool → Scope → Prop where
  | wildL {r sc} : Unifies .wild r sc true sc
  | wildR {l sc} : Unifies l .wild sc true sc
  | done {l r l' r' sc a sc'} : Weak sc l l' → Weak sc r r' → l' ≠ .wild → r' ≠ .wild → Meets l' r' sc (.done a sc') → Unifies l r sc a sc'
  | more {l r l' r' sc a sc' ls rs} : Weak sc l l' → Weak sc r r' → l' ≠ .wild → r' ≠ .wild → Meets l' r' sc (.more ls rs) →
      UnifiesL ls rs sc a sc' → Unifies l r sc a sc'
/-- Unification of lists, from left to right, until one pair does not unify. -/
inductive UnifiesL : List Term → List Term → Scope → Bool → Scope → Prop where
  | nil {sc} : UnifiesL [] [] sc true sc
  | stop {l r ls rs sc sc'} : Unifies l r sc false sc' → UnifiesL (l :: ls) (r :: rs) sc false sc'
  | cons {l r ls rs sc sc' a sc''} : Unifies l r sc true sc' → UnifiesL ls rs sc' a sc'' → UnifiesL (l :: ls) (r :: rs) sc a sc''
end

/-- Swapping the sides. -/
def Meeting.swap : Meeting → Meeting
  | .done a sc => .done a sc
  | .more ls rs => .more rs ls

omit [Arith] in
theorem Meets.symm {l r : Term} {sc : Scope} {o : Meeting} (h : Meets l r sc o) : Meets r l sc o.swap := by
  cases h with
  | same => exact .same
  | linkL h => exact .linkR h.symm
  | linkR h => exact .linkL h.symm
  | bindL h => exact .bindR h
  | bindR h => exact .bindL h
  | clash h1 h2 h3 => exact .clash h2 h1 (by rw [pieces_symm, h3]; rfl)
  | deep h1 h2 h3 => exact .deep h2 h1 (by rw [pieces_symm, h3]; rfl)

mutual
theorem Unifies.symm {l r : Term} {sc : Scope} {a : Bool} {sc' : Scope} : Unifies l r sc a sc' → Unifies r l sc a sc'
  | .wildL => .wildR
  | .wildR => .wildL
  | .done h1 h2 h3 h4 h5 => .done h2 h1 h4 h3 h5.symm
  | .more h1 h2 h3 h4 h5 h6 => .more h2 h1 h4 h3 h5.symm h6.symm
theorem UnifiesL.symm {ls rs : List Term} {sc : Scope} {a : Bool} {sc' : Scope} : UnifiesL ls rs sc a sc' → UnifiesL rs ls sc a sc'
  | .nil => .nil
  | .stop h => .stop h.symm
  | .cons h h' => .cons h.symm h'.symm
end

/-- The same outcome. -/
def SameMeeting (sc sc' : Scope) : Meeting → Meeting → Prop
  | .done a s, .done a' s' => a = a' ∧ SameBindings s s'
  | .more ls rs, .more ls' rs' => ls = ls' ∧ rs = rs' ∧ SameBindings sc sc'
  | _, _ => False

omit [Arith] in
theorem Meets.same_meeting {sc sc' : Scope} (hs : SameBindings sc sc') {l r l' r' : Term} {o o' : Meeting}
    (hl : SameTerm sc sc' l l') (hr : SameTerm sc sc' r r') (h : Meets l r sc o) (h' : Meets l' r' sc' o') :
    SameMeeting sc sc' o o' := by
  rcases hl with ⟨rfl, nl⟩ | ⟨x, x', rfl, rfl, hx, hx', jx⟩ <;> rcases hr with ⟨rfl, nr⟩ | ⟨y, y', rfl, rfl, hy, hy', jy⟩
  · cases h with
    | same => exact absurd rfl (nl _)
    | linkL => exact absurd rfl (nl _)
    | linkR => exact absurd rfl (nl _)
    | bindL => exact absurd rfl (nl _)
    | bindR => exact absurd rfl (nr _)
    | clash _ _ h1 =>
      cases h' with
      | same => exact absurd rfl (nl _)
      | linkL => exact absurd rfl (nl _)
      | linkR => exact absurd rfl (nl _)
      | bindL => exact absurd rfl (nl _)
      | bindR => exact absurd rfl (nr _)
      | clash => exact ⟨rfl, hs⟩
      | deep _ _ h2 => rw [h1] at h2; cases h2
    | deep _ _ h1 =>
      cases h' with
      | same => exact absurd rfl (nl _)
      | linkL => exact absurd rfl (nl _)
      | linkR => exact absurd rfl (nl _)
      | bindL => exact absurd rfl (nl _)
      | bindR => exact absurd rfl (nr _)
      | clash _ _ h2 => rw [h1] at h2; cases h2
      | deep _ _ h2 => rw [h1] at h2; cases h2; exact ⟨rfl, rfl, hs⟩
  · have e : o = .done true (sc.set y l) := by
      cases h with
      | bindR _ => rfl
      | clash _ h => exact absurd rfl (h _)
      | deep _ h => exact absurd rfl (h _)
      | bindL _ => exact absurd rfl (nl _)
      | _ => exact absurd rfl (nl _)
    have e' : o' = .done true (sc'.set y' l) := by
      cases h' with
      | bindR _ => rfl
      | clash _ h => exact absurd rfl (h _)
      | deep _ h => exact absurd rfl (h _)
      | bindL _ => exact absurd rfl (nl _)
      | _ => exact absurd rfl (nl _)
    subst e; subst e'
    exact ⟨rfl, hs.term hy hy' jy nl⟩
  · have e : o = .done true (sc.set x r) := by
      cases h with
      | bindL _ => rfl
      | clash h _ => exact absurd rfl (h _)
      | deep h _ => exact absurd rfl (h _)
      | bindR _ => exact absurd rfl (nr _)
      | _ => exact absurd rfl (nr _)
    have e' : o' = .done true (sc'.set x' r) := by
      cases h' with
      | bindL _ => rfl
      | clash h _ => exact absurd rfl (h _)
      | deep h _ => exact absurd rfl (h _)
      | bindR _ => exact absurd rfl (nr _)
      | _ => exact absurd rfl (nr _)
    subst e; subst e'
    exact ⟨rfl, hs.term hx hx' jx nr⟩
  · by_cases hxy : x = y
    · subst hxy
      have hxy' : x' = y' := by
        have := (hs.joined _ _).1 (jx.symm.trans jy)
        exact this.free hx' hy'
      subst hxy'
      have e : o = .done true sc := by
        cases h with
        | same => rfl
        | linkL h => exact absurd rfl h
        | linkR h => exact absurd rfl h
        | bindL h => exact absurd rfl (h _)
        | bindR h => exact absurd rfl (h _)
        | clash h => exact absurd rfl (h _)
        | deep h => exact absurd rfl (h _)
      have e' : o' = .done true sc' := by
        cases h' with
        | same => rfl
        | linkL h => exact absurd rfl h
        | linkR h => exact absurd rfl h
        | bindL h => exact absurd rfl (h _)
        | bindR h => exact absurd rfl (h _)
        | clash h => exact absurd rfl (h _)
        | deep h => exact absurd rfl (h _)
      subst e; subst e'
      exact ⟨rfl, hs⟩
    · have hxy' : x' ≠ y' := by
        rintro rfl
        exact hxy ((jx.trans jy.symm).free hx hy)
      have e : o = .done true (sc.set x (.var y)) ∨ o = .done true (sc.set y (.var x)) := by
        cases h with
        | same => exact absurd rfl hxy
        | linkL h => exact .inl rfl
        | linkR h => exact .inr rfl
        | bindL h => exact absurd rfl (h _)
        | bindR h => exact absurd rfl (h _)
        | clash h => exact absurd rfl (h _)
        | deep h => exact absurd rfl (h _)
      have e' : o' = .done true (sc'.set x' (.var y')) ∨ o' = .done true (sc'.set y' (.var x')) := by
        cases h' with
        | same => exact absurd rfl hxy'
        | linkL h => exact .inl rfl
        | linkR h => exact .inr rfl
        | bindL h => exact absurd rfl (h _)
        | bindR h => exact absurd rfl (h _)
        | clash h => exact absurd rfl (h _)
        | deep h => exact absurd rfl (h _)
      rcases e with rfl | rfl <;> rcases e' with rfl | rfl
      · exact ⟨rfl, hs.var hx hy hxy hx' hy' hxy' (.inl ⟨jx, jy⟩)⟩
      · exact ⟨rfl, hs.var hx hy hxy hy' hx' (Ne.symm hxy') (.inr ⟨jx, jy⟩)⟩
      · exact ⟨rfl, hs.var hy hx (Ne.symm hxy) hx' hy' hxy' (.inr ⟨jy, jx⟩)⟩
      · exact ⟨rfl, hs.var hy hx (Ne.symm hxy) hy' hx' (Ne.symm hxy') (.inl ⟨jy, jx⟩)⟩

theorem weak_wild {sc : Scope} {t : Term} (h : Weak sc .wild t) : t = .wild := by
  obtain ⟨n, h⟩ := h
  cases n with
  | zero => cases h
  | succ n => rw [evaluate] at h <;> first | (cases h; rfl) | exact nofun

mutual
/-- The relation determines the answer, and the bindings up to their direction. -/
theorem Unifies.det {l r : Term} {sc sc' s s' : Scope} {a a' : Bool} (hs : SameBindings sc sc') (h' : Unifies l r sc' a' s') :
    Unifies l r sc a s → a = a' ∧ SameBindings s s'
  | .wildL => by
    cases h' with
    | wildL => exact ⟨rfl, hs⟩
    | wildR => exact ⟨rfl, hs⟩
    | done h _ n _ _ => exact absurd (weak_wild h) n
    | more h _ n _ _ _ => exact absurd (weak_wild h) n
  | .wildR => by
    cases h' with
    | wildL => exact ⟨rfl, hs⟩
    | wildR => exact ⟨rfl, hs⟩
    | done _ h _ n _ => exact absurd (weak_wild h) n
    | more _ h _ n _ _ => exact absurd (weak_wild h) n
  | .done h1 h2 n1 n2 h3 => by
    cases h' with
    | wildL => exact absurd (weak_wild h1) n1
    | wildR => exact absurd (weak_wild h2) n2
    | done k1 k2 _ _ k3 => exact h3.same_meeting hs (h1.same hs k1) (h2.same hs k2) k3
    | more k1 k2 _ _ k3 _ => exact (h3.same_meeting hs (h1.same hs k1) (h2.same hs k2) k3).elim
  | .more h1 h2 n1 n2 h3 h4 => by
    cases h' with
    | wildL => exact absurd (weak_wild h1) n1
    | wildR => exact absurd (weak_wild h2) n2
    | done k1 k2 _ _ k3 => exact (h3.same_meeting hs (h1.same hs k1) (h2.same hs k2) k3).elim
    | more k1 k2 _ _ k3 k4 =>
      obtain ⟨e1, e2, _⟩ := h3.same_meeting hs (h1.same hs k1) (h2.same hs k2) k3
      exact UnifiesL.det hs (e1 ▸ e2 ▸ k4) h4
theorem UnifiesL.det {ls rs : List Term} {sc sc' s s' : Scope} {a a' : Bool} (hs : SameBindings sc sc') (h' : UnifiesL ls rs sc' a' s') :
    UnifiesL ls rs sc a s → a = a' ∧ SameBindings s s'
  | .nil => by cases h'; exact ⟨rfl, hs⟩
  | .stop h => by
    cases h' with
    | stop k => exact Unifies.det hs k h
    | cons k _ => have := (Unifies.det hs k h).1; cases this
  | .cons h1 h2 => by
    cases h' with
    | stop k => have := (Unifies.det hs k h1).1; cases this
    | cons k1 k2 => exact UnifiesL.det (Unifies.det hs k1 h1).2 k2 h2
end

/-! ## Runs of `unify` -/

theorem Unifies.left {sc sc' : Scope} {a : Bool} {l t r : Term} (ht : t ≠ .wild) (hw : ∀ t', Weak sc t t' → Weak sc l t')
    (h : Unifies t r sc a sc') : Unifies l r sc a sc' := by
  cases h with
  | wildL => exact absurd rfl ht
  | wildR => exact .wildR
  | done h1 h2 h3 h4 h5 => exact .done (hw _ h1) h2 h3 h4 h5
  | more h1 h2 h3 h4 h5 h6 => exact .more (hw _ h1) h2 h3 h4 h5 h6

theorem weak_deref {sc : Scope} {n : Nat} {x : VarId} {s t t' : Term} (hx : sc x = some s) (h : deref n sc (.var x) = .ok t)
    (ht : Weak sc t t') : Weak sc (.var x) t' := by
  obtain ⟨m, ht⟩ := ht
  refine ⟨max n m + 1, ?_⟩
  rw [evaluate]
  simp only [hx]
  refine Ev.bind_eq_ok.2 ⟨t, ?_, ?_⟩
  · rw [← h]
    exact Ev.mono (f := fun n => deref n sc (.var x)) (fun n => deref_succ n sc _) (by omega) (by simp [h])
  · rw [← ht]
    exact Ev.mono (f := fun n => evaluate n sc t) (fun n => evaluate_succ n sc t) (by omega) (by simp [ht])

theorem weak_self {sc : Scope} {t : Term} (hv : ∀ x, t = .var x → sc x = none) (hu : ∀ op s, t ≠ .un op s) (hb : ∀ op l r, t ≠ .bin op l r) :
    Weak sc t t := by
  refine ⟨1, ?_⟩
  cases t with
  | var x => rw [evaluate, hv x rfl]
  | un op s => exact absurd rfl (hu op s)
  | bin op l r => exact absurd rfl (hb op l r)
  | _ => rw [evaluate] <;> exact nofun

theorem weak_atom {sc : Scope} {v t : Term} (hv : (∃ b, v = .bool b) ∨ ∃ q, v = .num q) (h : Weak sc v t) : t = v := by
  obtain ⟨n, h⟩ := h
  cases n with
  | zero => cases h
  | succ n =>
    rcases hv with ⟨_, rfl⟩ | ⟨_, rfl⟩ <;> (rw [evaluate] at h <;> first | (cases h; rfl) | exact nofun)

/-- What is shown of a run of `unify`. -/
def Related (rec : Term → Term → BSt → Res BSt Bool) : Prop :=
  ∀ l r b a b', NoneWild b.scope → rec l r b = .ok a b' → Unifies l r b.scope a b'.scope ∧ NoneWild b'.scope

omit [Arith] in
theorem noneWild_set {sc : Scope} {x : VarId} {t : Term} (h : NoneWild sc) (ht : t ≠ .wild) : NoneWild (sc.set x t) := by
  intro y
  unfold Scope.set
  split
  · exact fun e => ht (Option.some.inj e)
  · exact h y

theorem unifyAll_related {rec : Term → Term → BSt → Res BSt Bool} (hr : Related rec) : ∀ (ls rs : List Term) (b : BSt) {a : Bool} {b' : BSt},
    NoneWild b.scope → ls.length = rs.length → unifyAll rec ls rs b = .ok a b' → UnifiesL ls rs b.scope a b'.scope ∧ NoneWild b'.scope
  | [], [], b, a, b', hw, _, h => by
    rw [unifyAll] at h <;> first | (cases h; exact ⟨.nil, hw⟩) | exact nofun
  | [], _ :: _, _, _, _, _, hl, _ => by cases hl
  | _ :: _, [], _, _, _, _, hl, _ => by cases hl
  | l :: ls, r :: rs, b, a, b', hw, hl, h => by
    rw [unifyAll] at h
    obtain ⟨ok, b1, h1, h2⟩ := Res.bind_eq_ok.1 h
    obtain ⟨u1, w1⟩ := hr _ _ _ _ _ hw h1
    cases ok with
    | false => cases h2; exact ⟨.stop u1, w1⟩
    | true =>
      obtain ⟨u2, w2⟩ := unifyAll_related hr ls rs b1 w1 (by simpa using hl) h2
      exact ⟨.cons u1 u2, w2⟩

theorem pair_related {rec : Term → Term → BSt → Res BSt Bool} (hr : Related rec) {h t h' t' : Term} {b b' : BSt} {a : Bool}
    (hw : NoneWild b.scope) (e : ((rec h h' b).bind fun ok b => if ok then rec t t' b else .ok false b) = .ok a b') :
    UnifiesL [h, t] [h', t'] b.scope a b'.scope ∧ NoneWild b'.scope := by
  obtain ⟨ok, b1, h1, h2⟩ := Res.bind_eq_ok.1 e
  obtain ⟨u1, w1⟩ := hr _ _ _ _ _ hw h1
  cases ok with
  | false => cases h2; exact ⟨.stop u1, w1⟩
  | true =>
    obtain ⟨u2, w2⟩ := hr _ _ _ _ _ w1 h2
    refine ⟨.cons u1 ?_, w2⟩
    cases a with
    | false => exact .stop u2
    | true => exact .cons u2 .nil

omit [Arith] in
theorem bindVar_term {x : VarId} {t : Term} {b b' : BSt} {u : Unit} (ht : ∀ y, t ≠ .var y) (h : bindVar x t b = .ok u b') :
    b'.scope = b.scope.set x t := by
  cases t with
  | var y => exact absurd rfl (ht y)
  | _ =>
    simp only [bindVar] at h
    split at h
    · cases h
    · cases h; rfl

theorem varUnify_related {n : Nat} {rec : Term → Term → BSt → Res BSt Bool} (hr : Related rec) {x : VarId} {r : Term} {b b' : BSt} {a : Bool}
    (hw : NoneWild b.scope) (h : varUnify n rec x r b = .ok a b') : Unifies (.var x) r b.scope a b'.scope ∧ NoneWild b'.scope := by
  unfold varUnify at h
  cases hx : b.scope x with
  | some s =>
    simp only [hx] at h
    obtain ⟨t, b1, h0, h2⟩ := Res.bind_eq_ok.1 h
    obtain ⟨h1, rfl⟩ := Res.lift_eq_ok.1 h0
    obtain ⟨u, w⟩ := hr _ _ _ _ _ hw h2
    refine ⟨u.left ?_ fun t' => weak_deref hx h1, w⟩
    rintro rfl
    obtain ⟨z, _, ⟨_, e⟩ | ⟨e, _⟩⟩ := deref_ends _ h1
    · cases e
    · exact hw z e
  | none =>
    have wx : Weak b.scope (.var x) (.var x) := weak_self (by rintro _ e; cases e; exact hx) nofun nofun
    by_cases hwild : r = .wild
    · subst hwild
      simp only [hx] at h
      cases h
      exact ⟨.wildR, hw⟩
    · have h' : ((Res.lift (evaluate n b.scope r) b).bind fun t b => (bindVar x t b).bind fun _ b => .ok true b) = .ok a b' := by
        cases r <;> first | exact absurd rfl hwild | (simp only [hx] at h; exact h)
      obtain ⟨t, b1, h0, h2⟩ := Res.bind_eq_ok.1 h'
      obtain ⟨h1, rfl⟩ := Res.lift_eq_ok.1 h0
      obtain ⟨_, b2, h3, h4⟩ := Res.bind_eq_ok.1 h2
      cases h4
      have wr : Weak b.scope r t := ⟨n, h1⟩
      have nt : t ≠ .wild := by
        rintro rfl
        exact hwild (wr.wild hw)
      by_cases hv : ∃ y, t = .var y
      · obtain ⟨y, rfl⟩ := hv
        simp only [bindVar] at h3
        split at h3
        · next e =>
          subst e
          cases h3
          exact ⟨.done wx wr nofun nofun .same, hw⟩
        · next e =>
          simp only [hx] at h3
          cases h3
          exact ⟨.done wx wr nofun nofun (.linkL (Ne.symm e)), noneWild_set hw nofun⟩
      · have hv' : ∀ y, t ≠ .var y := fun y e => hv ⟨y, e⟩
        rw [bindVar_term hv' h3]
        exact ⟨.done wx wr nofun nt (.bindL hv'), noneWild_set hw nt⟩

/-- A variable on the right, found by evaluating the right side. -/
theorem Unifies.right_var {sc sc' : Scope} {a : Bool} {l r : Term} {y : VarId} (hw : Weak sc r (.var y)) (h : Unifies (.var y) l sc a sc') :
    Unifies l r sc a sc' := by
  refine (Unifies.left (t := .var y) nofun (fun t' ht => ?_) h).symm
  have := hw.free
  obtain ⟨n, ht⟩ := ht
  cases n with
  | zero => cases ht
  | succ n =>
    rw [evaluate, this] at ht
    cases ht
    exact hw

theorem litUnify_related {n : Nat} {rec : Term → Term → BSt → Res BSt Bool} (hr : Related rec) {f : String} {as ns : List Term} {r : Term} {b b' : BSt}
    {a : Bool} (hw : NoneWild b.scope) (h : litUnify n rec f as ns r b = .ok a b') :
    Unifies (.lit f as ns) r b.scope a b'.scope ∧ NoneWild b'.scope := by
  unfold litUnify at h
  obtain ⟨t, b1, h0, h2⟩ := Res.bind_eq_ok.1 h
  obtain ⟨h1, rfl⟩ := Res.lift_eq_ok.1 h0
  have wl : Weak b.scope (.lit f as ns) (.lit f as ns) := weak_self nofun nofun nofun
  have wr : Weak b.scope r t := ⟨n, h1⟩
  cases t with
  | var y =>
    obtain ⟨u, w⟩ := varUnify_related hr hw h2
    exact ⟨u.right_var wr, w⟩
  | wild =>
    cases h2
    rw [wr.wild hw]
    exact ⟨.wildR, hw⟩
  | lit g bs ms =>
    simp only at h2
    split at h2
    · next e =>
      cases h2
      exact ⟨.done wl wr nofun nofun (.clash nofun nofun (by rw [pieces, if_neg fun k => e k.1])), hw⟩
    · next e =>
      split at h2
      · next e' =>
        cases h2
        exact ⟨.done wl wr nofun nofun (.clash nofun nofun (by rw [pieces, if_neg fun k => e' k.2])), hw⟩
      · next e' =>
        obtain ⟨u, w⟩ := unifyAll_related hr _ _ _ hw (Decidable.not_not.1 e') h2
        exact ⟨.more wl wr nofun nofun (.deep nofun nofun (by rw [pieces, if_pos ⟨Decidable.not_not.1 e, Decidable.not_not.1 e'⟩])) u, w⟩
  | _ =>
    cases h2
    exact ⟨.done wl wr nofun nofun (.clash nofun nofun rfl), hw⟩

theorem consUnify_related {n : Nat} {rec : Term → Term → BSt → Res BSt Bool} (hr : Related rec) {x xs : Term} {r : Term} {b b' : BSt}
    {a : Bool} (hw : NoneWild b.scope) (h : consUnify n rec x xs r b = .ok a b') :
    Unifies (.cons x xs) r b.scope a b'.scope ∧ NoneWild b'.scope := by
  unfold consUnify at h
  obtain ⟨t, b1, h0, h2⟩ := Res.bind_eq_ok.1 h
  obtain ⟨h1, rfl⟩ := Res.lift_eq_ok.1 h0
  have wl : Weak b.scope (.cons x xs) (.cons x xs) := weak_self nofun nofun nofun
  have wr : Weak b.scope r t := ⟨n, h1⟩
  cases t with
  | var y =>
    obtain ⟨u, w⟩ := varUnify_related hr hw h2
    exact ⟨u.right_var wr, w⟩
  | wild =>
    cases h2
    rw [wr.wild hw]
    exact ⟨.wildR, hw⟩
  | cons y ys =>
    obtain ⟨u, w⟩ := pair_related hr hw h2
    exact ⟨.more wl wr nofun nofun (.deep nofun nofun rfl) u, w⟩
  | tup ys =>
    cases ys with
    | nil =>
      cases h2
      exact ⟨.done wl wr nofun nofun (.clash nofun nofun rfl), hw⟩
    | cons y ys =>
      obtain ⟨u, w⟩ := pair_related hr hw h2
      exact ⟨.more wl wr nofun nofun (.deep nofun nofun rfl) u, w⟩
  | _ =>
    cases h2
    exact ⟨.done wl wr nofun nofun (.clash nofun nofun rfl), hw⟩

theorem evaluate_expr {sc : Scope} {n : Nat} {t v : Term} (ht : (∃ op s, t = .un op s) ∨ ∃ op l r, t = .bin op l r)
    (h : evaluate n sc t = .ok v) : (∃ b, v = .bool b) ∨ ∃ q, v = .num q := by
  cases n with
  | zero => cases h
  | succ n =>
    rcases ht with ⟨op, s, rfl⟩ | ⟨op, l, r, rfl⟩
    · rw [evaluate] at h
      obtain ⟨u, _, h2⟩ := Ev.bind_eq_ok.1 h
      exact unFunc_shape h2
    · rw [evaluate] at h
      obtain ⟨u, h1, h2⟩ := Ev.bind_eq_ok.1 h
      obtain ⟨v, h3, h4⟩ := Ev.bind_eq_ok.1 h2
      split at h4
      · obtain ⟨w, h5, h6⟩ := Ev.bind_eq_ok.1 h4
        obtain ⟨q, h7, h8⟩ := Ev.bind_eq_ok.1 h6
        obtain ⟨b, _, e⟩ := Ev.map_eq_ok.1 h8
        exact .inl ⟨b, e.symm⟩
      · exact binFunc_shape h4

theorem exprUnify_related {n : Nat} {rec : Term → Term → BSt → Res BSt Bool} (hr : Related rec) {l r : Term} {b b' : BSt} {a : Bool}
    (hl : (∃ op s, l = .un op s) ∨ ∃ op t s, l = .bin op t s) (hw : NoneWild b.scope)
    (h : ((Res.lift (evaluate n b.scope l) b).bind fun v b => rec v r b) = .ok a b') :
    Unifies l r b.scope a b'.scope ∧ NoneWild b'.scope := by
  obtain ⟨t, b1, h0, h2⟩ := Res.bind_eq_ok.1 h
  obtain ⟨h1, rfl⟩ := Res.lift_eq_ok.1 h0
  obtain ⟨u, w⟩ := hr _ _ _ _ _ hw h2
  have ht := evaluate_expr hl h1
  refine ⟨u.left ?_ fun t' h' => ?_, w⟩
  · rintro rfl
    rcases ht with ⟨_, e⟩ | ⟨_, e⟩ <;> cases e
  · rw [weak_atom ht h']
    exact ⟨n, h1⟩

theorem methUnify_related {n : Nat} {rec : Term → Term → BSt → Res BSt Bool} (hr : Related rec) {l r : Term} {b b' : BSt} {a : Bool}
    (hw : NoneWild b.scope) (h : methUnify n rec l r b = .ok a b') : Unifies l r b.scope a b'.scope ∧ NoneWild b'.scope := by
  unfold methUnify at h
  cases l with
  | var x => exact varUnify_related hr hw h
  | wild => cases h; exact ⟨.wildL, hw⟩
  | un op t => exact exprUnify_related hr (.inl ⟨_, _, rfl⟩) hw h
  | bin op s t => exact exprUnify_related hr (.inr ⟨_, _, _, rfl⟩) hw h
  | lit f as ns => exact litUnify_related hr hw h
  | cons x xs => exact consUnify_related hr hw h
  | _ => cases h

theorem plainUnify_related {rec : Term → Term → BSt → Res BSt Bool} (hr : Related rec) {l r : Term} {b b' : BSt} {a : Bool}
    (hl : l.isObj = false) (hr' : r.isObj = false) (hw : NoneWild b.scope) (h : plainUnify rec l r b = .ok a b') :
    Unifies l r b.scope a b'.scope ∧ NoneWild b'.scope := by
  have wl : Weak b.scope l l := weak_self (by rintro _ rfl; cases hl) (by rintro _ _ rfl; cases hl) (by rintro _ _ _ rfl; cases hl)
  have wr : Weak b.scope r r := weak_self (by rintro _ rfl; cases hr') (by rintro _ _ rfl; cases hr') (by rintro _ _ _ rfl; cases hr')
  have nl : l ≠ .wild := by rintro rfl; cases hl
  have nr : r ≠ .wild := by rintro rfl; cases hr'
  have vl : ∀ y, l ≠ .var y := by rintro _ rfl; cases hl
  have vr : ∀ y, r ≠ .var y := by rintro _ rfl; cases hr'
  have atom : ∀ {p : Prop} [Decidable p], pieces l r = (if p then some ([], []) else none) → a = decide p → b' = b →
      Unifies l r b.scope a b'.scope ∧ NoneWild b'.scope := by
    intro p _ e1 e2 e3
    subst e2; subst e3
    refine ⟨?_, hw⟩
    by_cases hp : p
    · rw [if_pos hp] at e1
      simp only [hp, decide_true]
      exact .more wl wr nl nr (.deep vl vr e1) .nil
    · rw [if_neg hp] at e1
      simp only [hp, decide_false]
      exact .done wl wr nl nr (.clash vl vr e1)
  have clash : pieces l r = none → a = false → b' = b → Unifies l r b.scope a b'.scope ∧ NoneWild b'.scope := by
    rintro e1 rfl rfl
    exact ⟨.done wl wr nl nr (.clash vl vr e1), hw⟩
  unfold plainUnify at h
  split at h
  · cases h; exact atom rfl rfl rfl
  · next xs ys =>
    split at h
    · next e => cases h; exact clash (by rw [pieces, if_neg e]) rfl rfl
    · next e =>
      obtain ⟨u, w⟩ := unifyAll_related hr _ _ _ hw (Decidable.not_not.1 e) h
      exact ⟨.more wl wr nl nr (.deep vl vr (by rw [pieces, if_pos (Decidable.not_not.1 e)])) u, w⟩
  · cases h; exact atom rfl rfl rfl
  · cases h; exact atom rfl rfl rfl
  · next n1 n2 n3 n4 =>
    cases h
    refine clash ?_ rfl rfl
    cases l <;> cases hl <;> cases r <;> cases hr' <;> first | rfl | exact absurd rfl (n1 _ _ rfl) | exact absurd rfl (n2 _ _ rfl) | exact absurd rfl (n3 _ _ rfl) | exact absurd rfl (n4 _ _ rfl)

theorem unify_related : ∀ n : Nat, Related (unify n)
  | 0 => fun _ _ _ _ _ _ h => by cases h
  | n + 1 => fun l r b a b' hw h => by
    rw [unify] at h
    split at h
    · exact methUnify_related (unify_related n) hw h
    · next hl =>
      split at h
      · obtain ⟨u, w⟩ := methUnify_related (unify_related n) hw h
        exact ⟨u.symm, w⟩
      · next hr => exact plainUnify_related (unify_related n) (by simpa using hl) (by simpa using hr) hw h

/-! ## Assignments -/

theorem Models.ends {σ : Asg} {sc : Scope} (h : Models σ sc) {x z : VarId} (hz : EndsAt sc x z) : σ x = σ z := by
  induction hz with
  | stop => rfl
  | step hx _ ih =>
    have := h _ _ hx
    rw [Den] at this
    exact this.trans ih

/-- The same bindings admit the same assignments. -/
theorem SameBindings.models {σ : Asg} {sc sc' : Scope} (hs : SameBindings sc sc') (h : Models σ sc) : Models σ sc' := by
  intro x t hx
  by_cases hj : Joined sc x x
  · have hj' := (hs.joined _ _).1 hj
    obtain ⟨z', hz', _⟩ := hj'
    by_cases hv : ∃ y, t = .var y
    · obtain ⟨y, rfl⟩ := hv
      cases hz' with
      | stop hn => exact absurd hx (hn y)
      | step h1 h2 =>
        rw [hx] at h1
        cases h1
        obtain ⟨z, k1, k2⟩ := (hs.joined _ _).2 ⟨z', .step hx h2, h2⟩
        rw [Den, h.ends k1, h.ends k2]
    · obtain ⟨z, k1, k2⟩ := (hs.bears x (some t)).2 ⟨x, .stop fun y e => hv ⟨y, by rw [hx] at e; exact Option.some.inj e⟩, hx⟩
      rw [h.ends k1]
      exact h z t k2
  · rw [hs.circle x hj] at hx
    exact h x t hx

end

end Verif
