import Verif.Spec.Std
import Verif.Lemmas.Items
import Verif.Lemmas.Symmetry
import Verif.Lemmas.ActTrail
import Verif.Lemmas.Collect

/-!
# Variables that have a value
-/

namespace Verif

/-! ## More bindings -/

theorem undo_some : ∀ {δ : List Entry} {sc : Scope} {x : VarId} {t : Term}, undo δ sc x = some t → sc x = some t
  | [], _, _, _, h => h
  | .cp _ :: δ, _, _, _, h => undo_some (δ := δ) h
  | .v y :: δ, sc, x, t, h => by
    have := undo_some (δ := δ) h
    unfold Scope.erase at this
    split at this
    · cases this
    · exact this

theorem Above.some {a b : BSt} (h : Above a b) {x : VarId} {t : Term} (hx : a.scope x = some t) : b.scope x = some t := by
  obtain ⟨δ, -, h2, -⟩ := h
  exact undo_some (δ := δ) (by rw [h2, hx])

theorem deref_more {sc sc' : Scope} (hs : ∀ x t, sc x = some t → sc' x = some t) {v : Term} (hv : ∀ y, v ≠ .var y) :
    ∀ (n : Nat) {t : Term}, deref n sc t = .ok v → deref n sc' t = .ok v
  | 0, _, h => by cases h
  | n + 1, t, h => by
    cases t with
    | var x =>
      rw [deref] at h ⊢
      cases hx : sc x with
      | none => rw [hx] at h; cases h; exact absurd rfl (hv x)
      | some t =>
        rw [hx] at h
        rw [hs x t hx]
        exact deref_more hs hv n h
    | _ => exact h

theorem Resolved.more {sc sc' : Scope} (hs : ∀ x t, sc x = some t → sc' x = some t) {x : VarId} : Resolved sc x → Resolved sc' x
  | ⟨n, v, h, hv⟩ => ⟨n, v, deref_more hs hv n h, hv⟩

theorem Resolved.above {a b : BSt} (h : Above a b) {x : VarId} (hx : Resolved a.scope x) : Resolved b.scope x :=
  hx.more fun _ _ => h.some

/-- A variable that stands for another one, which has a value now. -/
theorem Resolved.chain {sc sc' : Scope} (hs : ∀ x t, sc x = some t → sc' x = some t) {y : VarId} (hy : Resolved sc' y) :
    ∀ (n : Nat) {x : VarId}, deref n sc (.var x) = .ok (.var y) → Resolved sc' x
  | 0, _, h => by cases h
  | n + 1, x, h => by
    rw [deref] at h
    cases hx : sc x with
    | none => rw [hx] at h; cases h; exact hy
    | some t =>
      simp only [hx] at h
      have key : ∀ {m v}, (deref m sc' t = .ok v ∧ ∀ z, v ≠ .var z) → Resolved sc' x := fun {m v} ⟨h1, h2⟩ =>
        ⟨m + 1, v, by rw [deref, hs x t hx]; exact h1, h2⟩
      by_cases ht : ∃ z, t = .var z
      · obtain ⟨z, rfl⟩ := ht
        obtain ⟨m, v, h1, h2⟩ := Resolved.chain hs hy n h
        exact key ⟨h1, h2⟩
      · have ht' : ∀ z, t ≠ .var z := fun z e => ht ⟨z, e⟩
        exact key (m := 1) (v := t) ⟨by rw [deref]; exact ht', ht'⟩

/-! ## Unification -/

/-- Neither a variable nor an expression. -/
def Term.solid : Term → Bool
  | .var _ | .wild | .un _ _ | .bin _ _ _ => false
  | _ => true

variable [Host]

theorem solid_evaluate {r : Term} (h : r.solid = true) (sc : Scope) (n : Nat) : evaluate (n + 1) sc r = .ok r := by
  cases r <;> simp [Term.solid] at h <;> simp [evaluate]

omit [Host] in
theorem solid_var {r : Term} (h : r.solid = true) (y : VarId) : r ≠ .var y := by rintro rfl; simp [Term.solid] at h

/-- After unification with a value a variable has a value. -/
theorem unify_resolves {r : Term} (hr : r.solid = true) : ∀ (n : Nat) {x : VarId} {b b' : BSt},
    unify n (.var x) r b = .ok true b' → Resolved b'.scope x
  | 0, _, _, _, h => by cases h
  | n + 1, x, b, b', h => by
    have hg := (unify_grow (n + 1) _ _ b b' (Or.inl ⟨_, h⟩)).above
    rw [unify] at h
    simp only [Term.isObj, if_true, methUnify, varUnify] at h
    cases hx : b.scope x with
    | none =>
      simp only [hx] at h
      have h' : (Res.lift (evaluate n b.scope r) b).bind (fun t b => (bindVar x t b).bind fun _ b => Res.ok true b) = .ok true b' := by
        revert h; cases r <;> simp [Term.solid] at hr <;> exact id
      cases n with
      | zero => cases h'
      | succ n =>
        rw [solid_evaluate hr] at h'
        simp only [Res.lift_ok, Res.bind_ok] at h'
        have hb : bindVar x r b = .ok () { b with scope := b.scope.set x r, stack := .v x :: b.stack } := by
          unfold bindVar
          split
          · simp [Term.solid] at hr
          · simp [hx]
        rw [hb] at h'
        cases h'
        refine ⟨2, r, ?_, solid_var hr⟩
        rw [deref]
        simp only [Scope.set, if_true]
        rw [deref]
        exact solid_var hr
    | some t =>
      simp only [hx] at h
      obtain ⟨d, b₁, h1, h2⟩ := Res.bind_eq_ok.1 h
      obtain ⟨h3, rfl⟩ := Res.lift_eq_ok.1 h1
      by_cases hd : ∃ y, d = .var y
      · obtain ⟨y, rfl⟩ := hd
        exact Resolved.chain (fun _ _ => hg.some) (unify_resolves hr n h2) n h3
      · exact Resolved.above hg ⟨n, d, h3, fun y e => hd ⟨y, e⟩⟩

/-- With the value on the left. -/
theorem unify_resolves' {r : Term} (hr : r.solid = true) (ho : r.isObj = false) {n : Nat} {x : VarId} {b b' : BSt}
    (h : unify n r (.var x) b = .ok true b') : Resolved b'.scope x := by
  cases n with
  | zero => cases h
  | succ n =>
    refine unify_resolves hr (n + 1) (b := b) ?_
    rw [unify] at h ⊢
    rw [if_neg (by simp [ho]), if_pos (by rfl)] at h
    rw [if_pos (by rfl)]
    exact h

theorem unifyThenYield_resolves {r : Term} (hr : r.solid = true) {n : Nat} {x : VarId} {s s' : QSt World} {g : ActGen}
    (h : unifyThenYield n (.var x) r s = .ok (some g) s') : Resolved s'.b.scope x :=
  unify_resolves hr n (unifyThenYield_ok h).1

theorem unifyThenYield_resolves' {r : Term} (hr : r.solid = true) (ho : r.isObj = false) {n : Nat} {x : VarId} {s s' : QSt World}
    {g : ActGen} (h : unifyThenYield n r (.var x) s = .ok (some g) s') : Resolved s'.b.scope x :=
  unify_resolves' hr ho (unifyThenYield_ok h).1

/-! ## Reading -/

/-- A frozen variable that is no variable has a value. -/
theorem freeze_resolves {sc : Scope} {n : Nat} {x : VarId} {v : Term} {m m' : FSt} (hm : m.memo = fun _ => none)
    (h : freeze n sc (.var x) m = .ok v m') (hv : ∀ y, v ≠ .var y) : Resolved sc x := by
  cases n with
  | zero => cases h
  | succ n =>
    rw [freeze.eq_def] at h
    simp only [hm] at h
    cases hx : sc x with
    | none => rw [hx] at h; cases h; exact absurd rfl (hv _)
    | some t =>
      simp only [hx] at h
      obtain ⟨d, m₁, h1, h2⟩ := Res.bind_eq_ok.1 h
      obtain ⟨h3, rfl⟩ := Res.lift_eq_ok.1 h1
      by_cases hd : ∃ y, d = .var y
      · obtain ⟨y, rfl⟩ := hd
        obtain ⟨z, -, ⟨hz, e⟩ | ⟨-, hz⟩⟩ := deref_ends n h3
        · cases e
          cases n with
          | zero => cases h2
          | succ n =>
            rw [freeze.eq_def] at h2
            simp only [hm, hz] at h2
            cases h2
            exact absurd rfl (hv _)
        · exact absurd rfl (hz y)
      · exact ⟨n, d, h3, fun y e => hd ⟨y, e⟩⟩

theorem evaluate_resolves {sc : Scope} {n : Nat} {x : VarId} {v : Term} (h : evaluate n sc (.var x) = .ok v) (hv : ∀ y, v ≠ .var y) :
    Resolved sc x := by
  cases n with
  | zero => cases h
  | succ n =>
    rw [evaluate] at h
    cases hx : sc x with
    | none => rw [hx] at h; cases h; exact absurd rfl (hv x)
    | some t =>
      simp only [hx] at h
      obtain ⟨d, h1, h2⟩ := Ev.bind_eq_ok.1 h
      by_cases hd : ∃ y, d = .var y
      · obtain ⟨y, rfl⟩ := hd
        obtain ⟨z, -, ⟨hz, e⟩ | ⟨-, hz⟩⟩ := deref_ends n h1
        · cases e
          cases n with
          | zero => cases h2
          | succ n =>
            rw [evaluate, hz] at h2
            cases h2
            exact absurd rfl (hv _)
        · exact absurd rfl (hz y)
      · exact ⟨n, d, h1, fun y e => hd ⟨y, e⟩⟩

/-! ## Loops over items -/

/-- One round of the loop, as far as the answer is concerned. -/
theorem itemsGo_some {x : Term} {n : Nat} {b : BSt} : ∀ (k : Nat) (it : Term) (s s' : QSt World) (g : ActGen),
    s.b.scope = b.scope → s.b.stack = b.stack → b.ncp < s.b.ncp → itemsGo n b.ncp x k it s = .ok (some g) s' →
    Above b.mark s'.b ∧ (∀ v, it ≠ .var v) ∧ ∃ it', g = .items b.ncp x it' ∧ ∀ ys, it = .tup ys →
      ∃ ys', it' = .tup ys' ∧ (∀ y ∈ ys', y ∈ ys) ∧ ∃ y ∈ ys, ∃ b₁, unify n x y b₁ = .ok true s'.b
  | 0, _, _, _, _, _, _, _, h => by cases h
  | k + 1, it, s, s', g, h1, h2, h3, h => by
    rw [itemsGo] at h
    obtain ⟨o, s₁, e, h⟩ := Res.bind_eq_ok.1 h
    obtain ⟨e', rfl⟩ := Res.lift_eq_ok.1 e
    have hv : ∀ v, it ≠ .var v := by rintro v rfl; cases e'
    cases o with
    | none => cases h
    | some p =>
      obtain ⟨y, it'⟩ := p
      have ht : ∀ ys, it = .tup ys → ∃ ys', it' = .tup ys' ∧ ys = y :: ys' := by
        rintro ys rfl
        cases ys with
        | nil => cases e'
        | cons z zs => cases e'; exact ⟨_, rfl, rfl⟩
      simp only [QSt.onB] at h
      have hm : Above b.mark (s.b.pushCp b.ncp) := by
        have : s.b.pushCp b.ncp = { b.mark with ncp := s.b.ncp } := by
          cases hsb : s.b
          simp_all [BSt.pushCp, BSt.mark, BSt.newCp]
        rw [this]
        exact above_same (b := b.mark) h3
      cases hu : unify n x y (s.b.pushCp b.ncp) with
      | oof => rw [hu] at h; cases h
      | err e b' => rw [hu] at h; cases h
      | ok r b' =>
        have ha : Above b.mark b' := hm.trans (unify_grow n x y _ b' (Or.inl ⟨_, hu⟩)).above
        rw [hu] at h
        simp only [Res.bind_ok] at h
        cases r with
        | true =>
          simp only [if_true] at h
          cases h
          refine ⟨ha, hv, it', rfl, fun ys e => ?_⟩
          obtain ⟨ys', e1, rfl⟩ := ht ys e
          exact ⟨ys', e1, fun z hz => by simp [hz], y, by simp, _, hu⟩
        | false =>
          simp only [Bool.false_eq_true, if_false] at h
          have hr := reroll_mark ha
          obtain ⟨i1, -, it'', i2, i3⟩ := itemsGo_some (x := x) (n := n) (b := b) k it' { s with b := reroll b' b.ncp } s' g
            (by rw [hr]) (by rw [hr]) (by rw [hr]; exact above_ncp ha) h
          refine ⟨i1, hv, it'', i2, fun ys e => ?_⟩
          obtain ⟨ys', e1, rfl⟩ := ht ys e
          obtain ⟨zs, j1, j2, z, j3, j4⟩ := i3 ys' e1
          exact ⟨zs, j1, fun w hw => by simp [j2 w hw], z, by simp [j3], j4⟩

theorem act_next {g : ActGen} {n : Nat} {s s' : QSt World} {o : Option (Gen Act ActGen)} (h : gnext n (.act g : Gen Act ActGen) s = .ok o s') :
    ∃ m o', o = o'.map Gen.act ∧ actNext m (gnext m) g s = .ok o' s' := by
  cases n with
  | zero => cases h
  | succ n =>
    simp only [gnext, gstep, QWorld.actNext] at h
    cases hr : actNext n (gnext n) g s with
    | oof => simp only [hr] at h; cases h
    | err e b => simp only [hr] at h; cases h
    | ok o' s₂ =>
      refine ⟨n, o', ?_, ?_⟩ <;> cases o' <;> simp only [hr] at h <;> cases h <;> first | rfl | exact hr

/-- The answers of the loop. -/
theorem items_answer {x : Term} {b : BSt} {R : QSt World → QSt World → Prop} (hR : ∀ s s', R s s' → Above s.b s'.b)
    {g : Gen Act ActGen} {s s' : QSt World} (h : Answer R g s s') :
    ∀ it, g = .act (.items b.ncp x it) → Above b.mark s.b →
      Above b.mark s'.b ∧ ∀ ys, it = .tup ys → ∃ y ∈ ys, ∃ m b₁, unify m x y b₁ = .ok true s'.b := by
  have key : ∀ {n it} {s s₁ : QSt World} {o}, Above b.mark s.b → gnext n (.act (.items b.ncp x it) : Gen Act ActGen) s = .ok (some o) s₁ →
      Above b.mark s₁.b ∧ ∃ it', o = .act (.items b.ncp x it') ∧ ∀ ys, it = .tup ys →
        ∃ ys', it' = .tup ys' ∧ (∀ y ∈ ys', y ∈ ys) ∧ ∃ y ∈ ys, ∃ m b₁, unify m x y b₁ = .ok true s₁.b := by
    intro n it s s₁ o ha h
    obtain ⟨m, o', e, h'⟩ := act_next h
    cases o' with
    | none => cases e
    | some g =>
      cases e
      rw [actNext] at h'
      have hr := reroll_mark ha
      obtain ⟨h1, -, it', rfl, h3⟩ := itemsGo_some (b := b) m it { s with b := reroll s.b b.ncp } _ _
        (by rw [hr]) (by rw [hr]) (by rw [hr]; exact above_ncp ha) h'
      refine ⟨h1, it', rfl, fun ys e => ?_⟩
      obtain ⟨ys', j1, j2, y, j3, j4⟩ := h3 ys e
      exact ⟨ys', j1, j2, y, j3, _, j4⟩
  induction h with
  | now hn =>
    rintro it rfl ha
    obtain ⟨h1, it', -, h2⟩ := key ha hn
    refine ⟨h1, fun ys e => ?_⟩
    obtain ⟨_, _, _, h3⟩ := h2 ys e
    exact h3
  | later hn hr _ ih =>
    rintro it rfl ha
    obtain ⟨h1, it', rfl, h2⟩ := key ha hn
    obtain ⟨h3, h4⟩ := ih it' rfl (h1.trans (hR _ _ hr))
    refine ⟨h3, fun ys e => ?_⟩
    obtain ⟨ys', e', hs, -⟩ := h2 ys e
    obtain ⟨y, hy, h5⟩ := h4 ys' e'
    exact ⟨y, hs y hy, h5⟩

/-- The answers of an action that starts such a loop. -/
theorem items_answer_start {x it : Term} {R : QSt World → QSt World → Prop}
    (hR : ∀ s s', R s s' → Above s.b s'.b) {s s' : QSt World} {n : Nat} {g : ActGen} {s₁ : QSt World}
    (h : itemsStart n x it s = .ok (some g) s₁) (h' : s' = s₁ ∨ ∃ s₂, R s₁ s₂ ∧ Answer R (.act g : Gen Act ActGen) s₂ s') :
    Above s.b s'.b ∧ (∀ v, it ≠ .var v) ∧ ∀ ys, it = .tup ys → ∃ y ∈ ys, ∃ m b₁, unify m x y b₁ = .ok true s'.b := by
  obtain ⟨h1, h2, it', rfl, h3⟩ := itemsGo_some (b := s.b) n it { s with b := s.b.newCp.2 } _ _ rfl rfl (Nat.lt_succ_self _) h
  rcases h' with rfl | ⟨s₂, hr, hA⟩
  · refine ⟨(above_mark _).trans h1, h2, fun ys e => ?_⟩
    obtain ⟨_, _, _, y, hy, h4⟩ := h3 ys e
    exact ⟨y, hy, _, h4⟩
  · obtain ⟨h4, h5⟩ := items_answer hR hA it' rfl (h1.trans (hR _ _ hr))
    refine ⟨(above_mark _).trans h4, h2, fun ys e => ?_⟩
    obtain ⟨ys', e', hs, -⟩ := h3 ys e
    obtain ⟨y, hy, h6⟩ := h5 ys' e'
    exact ⟨y, hs y hy, h6⟩

/-- The answers of an action: the first one and, from there, the others. -/
theorem answer_start {a : Act} {t : Term} {R : QSt World → QSt World → Prop} {s s' : QSt World}
    (h : Answer R (.start (.act a t) : Gen Act ActGen) s s') :
    ∃ m g s₁, actNext m (gnext m) (.start a t) s = .ok (some g) s₁ ∧
      (s' = s₁ ∨ ∃ s₂, R s₁ s₂ ∧ Answer R (.act g : Gen Act ActGen) s₂ s') := by
  cases h with
  | now hn =>
    obtain ⟨m, o', e, h⟩ := act_start hn
    cases o' with
    | none => cases e
    | some g => exact ⟨m, g, _, h, .inl rfl⟩
  | later hn hr hA =>
    obtain ⟨m, o', e, h⟩ := act_start hn
    cases o' with
    | none => cases e
    | some g => cases e; exact ⟨m, g, _, h, .inr ⟨_, hr, hA⟩⟩

theorem answer_fin {R : QSt World → QSt World → Prop} {s s' : QSt World} (h : Answer R (.act .fin : Gen Act ActGen) s s') : False := by
  cases h with
  | now hn | later hn _ _ =>
    obtain ⟨m, o', e, h⟩ := act_next hn
    cases o' with
    | none => cases e
    | some g => cases h

/-- Frozen arguments that are ground. -/
theorem zipSpecs_of_ground {n : Nat} : ∀ {specs : List Spec} {args vs : List Term} {s s' : QSt World},
    (∀ a ∈ args.take specs.length, ∃ k g, grounded k s.b.scope a = .ok g) → zipSpecs n specs args (fun _ => none) s = .ok vs s' →
    ∃ gs, AllOf (fun a g => ∃ k, grounded k s.b.scope a = .ok g) (args.take specs.length) gs ∧ convertAll specs gs = .ok vs
  | [], _, vs, _, _, _, h => by cases h; exact ⟨[], .nil, rfl⟩
  | _ :: _, [], _, _, _, _, h => by cases h
  | c :: cs, a :: as, vs, s, s', hg, h => by
    rw [zipSpecs] at h
    obtain ⟨k, g, hk⟩ := hg a (by simp)
    cases hf : freeze n s.b.scope a ⟨fun _ => none, s.nv⟩ with
    | oof => rw [hf] at h; cases h
    | err e m => rw [hf] at h; cases h
    | ok t m =>
      obtain ⟨rfl, rfl⟩ := freeze_of_grounded (fun _ => rfl) hk hf
      rw [hf] at h
      obtain ⟨t', s₁, h1, h2⟩ := Res.bind_eq_ok.1 h
      obtain ⟨h1', rfl⟩ := Res.lift_eq_ok.1 h1
      obtain ⟨ts, s₂, h3, h4⟩ := Res.bind_eq_ok.1 h2
      cases h4
      obtain ⟨gs, h5, h6⟩ := zipSpecs_of_ground (fun x hx => hg x (by simp [hx])) h3
      exact ⟨t :: gs, .cons ⟨k, hk⟩ h5, by rw [convertAll, h1', Ev.bind_ok, h6]; rfl⟩

end Verif
