import Verif.Spec.Acyclic
import Verif.Lemmas.Unify
import Verif.Lemmas.Fuel

/-! Unification terminates if one side is closed or a solution exists. -/

namespace Verif

section simps
@[simp] theorem Term.noExpr_bool {b} : (Term.bool b).NoExpr := by simp [Term.NoExpr, Term.Every]
@[simp] theorem Term.noExpr_num {b} : (Term.num b).NoExpr := by simp [Term.NoExpr, Term.Every]
@[simp] theorem Term.noExpr_str {b} : (Term.str b).NoExpr := by simp [Term.NoExpr, Term.Every]
@[simp] theorem Term.noExpr_var {b} : (Term.var b).NoExpr := by simp [Term.NoExpr, Term.Every]
@[simp] theorem Term.noExpr_wild : (Term.wild).NoExpr := by simp [Term.NoExpr, Term.Every]
@[simp] theorem Term.noExpr_lit {f as xs} : (Term.lit f as xs).NoExpr ↔ ∀ t ∈ as, t.NoExpr := by
  simp [Term.NoExpr, Term.Every, Term.everyL_iff]
@[simp] theorem Term.noExpr_tup {xs} : (Term.tup xs).NoExpr ↔ ∀ t ∈ xs, t.NoExpr := by
  simp [Term.NoExpr, Term.Every, Term.everyL_iff]
@[simp] theorem Term.noExpr_cons {h t} : (Term.cons h t).NoExpr ↔ h.NoExpr ∧ t.NoExpr := by
  simp [Term.NoExpr, Term.Every]
@[simp] theorem Term.noExpr_un {o t} : (Term.un o t).NoExpr ↔ False := by
  simp [Term.NoExpr, Term.Every]
@[simp] theorem Term.noExpr_bin {o l r} : (Term.bin o l r).NoExpr ↔ False := by
  simp [Term.NoExpr, Term.Every]
end simps

theorem Term.Closed.noExpr {t : Term} (h : t.Closed) : t.NoExpr :=
  Term.Every.imp (by intro t ht; cases t <;> simp_all) t h

theorem Term.NoExpr.noCmp {t : Term} (h : t.NoExpr) : t.NoCmp :=
  Term.Every.imp (by intro t ht; cases t <;> simp_all) t h

theorem Term.NoExpr.tame {t : Term} (h : t.NoExpr) : t.Tame false := by
  simpa [Term.Tame] using h.noCmp

theorem Term.hasVarL_iff {y : VarId} {ts : List Term} : Term.HasVarL y ts ↔ ∃ t ∈ ts, t.HasVar y := by
  induction ts with
  | nil => simp [Term.HasVarL]
  | cons t ts ih => simp [Term.HasVarL, ih]

theorem Term.Closed.no_var {t : Term} {y : VarId} : t.Closed → ¬ t.HasVar y := by
  induction t using Term.ind with
  | lit f as xs ih _ =>
    simp only [Term.closed_lit, Term.HasVar, Term.hasVarL_iff]
    rintro h ⟨t, ht, h'⟩; exact ih t ht (h t ht) h'
  | tup xs ih =>
    simp only [Term.closed_tup, Term.HasVar, Term.hasVarL_iff]
    rintro h ⟨t, ht, h'⟩; exact ih t ht (h t ht) h'
  | cons h t i1 i2 =>
    simp only [Term.closed_cons, Term.HasVar]
    rintro ⟨h1, h2⟩ (h | h)
    · exact i1 h1 h
    · exact i2 h2 h
  | _ => simp [Term.HasVar]

def Val.size : Val → Nat
  | .app _ a => 1 + a.size
  | .cons h t => 1 + h.size + t.size
  | _ => 1

/-- Weak head normal form: a variable, only if it is unbound; never an expression. -/
def Whnf (sc : Scope) : Term → Prop
  | .var y => sc y = none
  | .un _ _ | .bin _ _ _ => False
  | _ => True

variable [Arith]

theorem evaluate_whnf {sc : Scope} {t : Term} (h : Whnf sc t) (n : Nat) : evaluate (n + 1) sc t = .ok t := by
  cases t <;> simp [Whnf] at h <;> simp [evaluate, h]

omit [Arith] in
/-- Dereferencing terminates in acyclic scopes. -/
theorem deref_acc {sc : Scope} {x : VarId} (hx : Acc (Dep sc) x) (hsc : ScopeNoExpr sc) :
    ∃ n t, deref n sc (.var x) = .ok t ∧ Whnf sc t := by
  induction hx with
  | intro x _ ih =>
    cases hx : sc x with
    | none => exact ⟨1, .var x, by simp [deref, hx], hx⟩
    | some u =>
      cases u with
      | var y =>
        obtain ⟨n, t, hn, ht⟩ := ih y ⟨.var y, hx, rfl⟩
        exact ⟨n + 1, t, by simp [deref, hx, hn], ht⟩
      | un o t => exact absurd (hsc x _ hx) (by simp)
      | bin o l r => exact absurd (hsc x _ hx) (by simp)
      | _ => exact ⟨2, _, (by rw [deref, hx]; rfl), (by simp [Whnf])⟩

theorem evaluate_term {sc : Scope} (hac : Acyclic sc) (hsc : ScopeNoExpr sc) {t : Term} (ht : t.NoExpr) :
    ∃ n t', (∀ m, n ≤ m → evaluate m sc t = .ok t') ∧ Whnf sc t' ∧
      (∀ x, t = .var x → ∀ u, sc x = some u → ∀ m, n ≤ m → deref m sc (.var x) = .ok t') ∧ 0 < n := by
  have other : Whnf sc t → ∃ n t', (∀ m, n ≤ m → evaluate m sc t = .ok t') ∧ Whnf sc t' ∧
      (∀ x, t = .var x → ∀ u, sc x = some u → ∀ m, n ≤ m → deref m sc (.var x) = .ok t') ∧ 0 < n := by
    intro h
    refine ⟨1, t, fun m hm => ?_, h, ?_, by simp⟩
    · obtain ⟨k, rfl⟩ : ∃ k, m = k + 1 := ⟨m - 1, by omega⟩
      exact evaluate_whnf h k
    · rintro x rfl u hu
      simp [Whnf, hu] at h
  cases t with
  | var x =>
    cases hx : sc x with
    | none => exact other hx
    | some u =>
      obtain ⟨n, t', hn, ht'⟩ := deref_acc (hac.apply x) hsc
      have hd : ∀ m, n ≤ m → deref m sc (.var x) = .ok t' := fun m hm => by
        rw [Ev.mono (f := fun n => deref n sc (.var x)) (fun n => deref_succ n sc _) hm (by simp [hn])]
        exact hn
      refine ⟨n + 2, t', fun m hm => ?_, ht', ?_, by omega⟩
      · obtain ⟨k, rfl⟩ : ∃ k, m = k + 2 := ⟨m - 2, by omega⟩
        rw [evaluate.eq_def]
        simp only [hx]
        rw [hd (k + 1) (by omega)]
        exact evaluate_whnf ht' k
      · intro y hy _ _ m hm
        injection hy with hy; subst hy
        exact hd m (by omega)
  | un o t => simp at ht
  | bin o l r => simp at ht
  | _ => exact other trivial

/-! ## Acyclicity is preserved -/

/-- `y` can be reached from `x` by following bindings. -/
inductive Reach (sc : Scope) : VarId → VarId → Prop
  | refl (x) : Reach sc x x
  | step {x y z} : Dep sc y x → Reach sc y z → Reach sc x z

omit [Arith] in
theorem acyclic_set {sc : Scope} (hac : Acyclic sc) {x : VarId} {t : Term} (hx : sc x = none)
    (h : ∀ y, t.HasVar y → ¬ Reach sc y x) : Acyclic (sc.set x t) := by
  have key : ∀ y z, Dep (sc.set x t) z y → y ≠ x → Dep sc z y := by
    rintro y z ⟨u, hu, hz⟩ hy
    exact ⟨u, by simpa [Scope.set, hy] using hu, hz⟩
  have h1 : ∀ y, Acc (Dep sc) y → ¬ Reach sc y x → Acc (Dep (sc.set x t)) y := by
    intro y hy
    induction hy with
    | intro y _ ih =>
      intro hr
      refine ⟨_, fun z hz => ?_⟩
      have hyx : y ≠ x := by rintro rfl; exact hr (.refl _)
      have hd := key y z hz hyx
      exact ih z hd fun h => hr (.step hd h)
  have hxacc : Acc (Dep (sc.set x t)) x := by
    refine ⟨_, fun z hz => ?_⟩
    obtain ⟨u, hu, hz⟩ := hz
    simp [Scope.set] at hu; subst hu
    exact h1 z (hac.apply z) (h z hz)
  refine ⟨fun y => ?_⟩
  have h2 : ∀ y, Acc (Dep sc) y → Acc (Dep (sc.set x t)) y := by
    intro y hy
    induction hy with
    | intro y _ ih =>
      by_cases e : y = x
      · subst e; exact hxacc
      · exact ⟨_, fun z hz => ih z (key y z hz e)⟩
  exact h2 y (hac.apply y)

theorem denL_mem_size {σ : Asg} {t : Term} : ∀ {ts : List Term} {w : Val}, t ∈ ts → DenL σ ts w →
    ∃ a, Den σ t a ∧ a.size < w.size
  | s :: ts, w, h, hw => by
    obtain ⟨a, w', ha, hw', rfl⟩ := hw
    simp at h
    rcases h with rfl | h
    · exact ⟨a, ha, by simp [Val.size]; omega⟩
    · obtain ⟨a', h1, h2⟩ := denL_mem_size h hw'
      exact ⟨a', h1, by simp [Val.size]; omega⟩

/-- A variable inside a structure has a smaller value. -/
theorem hasVar_size {σ : Asg} {y : VarId} : ∀ (t : Term), t.NoExpr → t.HasVar y → ∀ v, Den σ t v →
    (σ y).size ≤ v.size ∧ (t ≠ .var y → (σ y).size < v.size) := by
  intro t
  induction t using Term.ind with
  | var x => 
    rintro _ h v rfl
    simp [Term.HasVar] at h; subst h
    exact ⟨Nat.le_refl _, fun h => absurd rfl h⟩
  | lit f as xs ih _ =>
    simp only [Term.noExpr_lit, Term.HasVar, Term.hasVarL_iff]
    rintro h ⟨t, ht, hy⟩ v ⟨w, hw, rfl⟩
    obtain ⟨a, ha, hs⟩ := denL_mem_size ht hw
    have := (ih t ht (h t ht) hy a ha).1
    simp [Val.size]; omega
  | tup xs ih =>
    simp only [Term.noExpr_tup, Term.HasVar, Term.hasVarL_iff]
    rintro h ⟨t, ht, hy⟩ w hw
    obtain ⟨a, ha, hs⟩ := denL_mem_size ht hw
    have := (ih t ht (h t ht) hy a ha).1
    omega
  | cons h t i1 i2 =>
    simp only [Term.noExpr_cons, Term.HasVar]
    rintro ⟨h1, h2⟩ hy v ⟨a, w, ha, hw, rfl⟩
    simp only [Val.size]
    rcases hy with hy | hy
    · have := (i1 h1 hy a ha).1; omega
    · have := (i2 h2 hy w hw).1; omega
  | _ => simp [Term.HasVar]

theorem reach_size {sc : Scope} (hsc : ScopeNoExpr sc) {σ : Asg} (hσ : Models σ sc) {x y : VarId}
    (h : Reach sc x y) : (σ y).size ≤ (σ x).size := by
  induction h with
  | refl => exact Nat.le_refl _
  | step hd _ ih =>
    obtain ⟨t, ht, hy⟩ := hd
    exact Nat.le_trans ih (hasVar_size t (hsc _ _ ht) hy _ (hσ _ _ ht)).1

/-! ## Termination -/

/-- One side is closed, or both sides have a common value; `k` bounds the value. -/
def Bounded (σ : Asg) (b : BSt) (k : Nat) (l r : Term) : Prop :=
  (l.Closed ∧ ∃ v, Den σ l v ∧ v.size ≤ k) ∨ (r.Closed ∧ ∃ v, Den σ r v ∧ v.size ≤ k) ∨
  (l.NoWild ∧ r.NoWild ∧ ScopeOK false b.scope ∧ Models σ b.scope ∧ ∃ v, Den σ l v ∧ Den σ r v ∧ v.size ≤ k)

def BoundedL (σ : Asg) (b : BSt) (k : Nat) (ls rs : List Term) : Prop :=
  ((∀ l ∈ ls, l.Closed) ∧ ∃ v, DenL σ ls v ∧ v.size ≤ k) ∨ ((∀ r ∈ rs, r.Closed) ∧ ∃ v, DenL σ rs v ∧ v.size ≤ k) ∨
  ((∀ l ∈ ls, l.NoWild) ∧ (∀ r ∈ rs, r.NoWild) ∧ ScopeOK false b.scope ∧ Models σ b.scope ∧
    ∃ v, DenL σ ls v ∧ DenL σ rs v ∧ v.size ≤ k)

theorem Bounded.symm {σ : Asg} {b : BSt} {k : Nat} {l r : Term} (h : Bounded σ b k l r) : Bounded σ b k r l := by
  rcases h with h | h | ⟨h1, h2, h3, h4, v, h5, h6, h7⟩
  · exact Or.inr (Or.inl h)
  · exact Or.inl h
  · exact Or.inr (Or.inr ⟨h2, h1, h3, h4, v, h6, h5, h7⟩)

theorem BoundedL.symm {σ : Asg} {b : BSt} {k : Nat} {l r : List Term} (h : BoundedL σ b k l r) : BoundedL σ b k r l := by
  rcases h with h | h | ⟨h1, h2, h3, h4, v, h5, h6, h7⟩
  · exact Or.inr (Or.inl h)
  · exact Or.inl h
  · exact Or.inr (Or.inr ⟨h2, h1, h3, h4, v, h6, h5, h7⟩)

theorem Bounded.lit {σ : Asg} {b : BSt} {k : Nat} {f g : String} {as bs xs ys : List Term}
    (h : Bounded σ b k (.lit f as xs) (.lit g bs ys)) : BoundedL σ b k as bs := by
  rcases h with ⟨h, v, ⟨w, hw, rfl⟩, hk⟩ | ⟨h, v, ⟨w, hw, rfl⟩, hk⟩ |
    ⟨h1, h2, h3, h4, v, ⟨w, hw, rfl⟩, ⟨w', hw', e⟩, h7⟩
  · exact Or.inl ⟨by simpa using h, w, hw, by simp [Val.size] at hk; omega⟩
  · exact Or.inr (Or.inl ⟨by simpa using h, w, hw, by simp [Val.size] at hk; omega⟩)
  · injection e with e1 e2; subst e1 e2
    exact Or.inr (Or.inr ⟨by simpa using h1, by simpa using h2, h3, h4, w, hw, hw', by simp [Val.size] at h7; omega⟩)

theorem Bounded.tup {σ : Asg} {b : BSt} {k : Nat} {as bs : List Term}
    (h : Bounded σ b k (.tup as) (.tup bs)) : BoundedL σ b k as bs := by
  rcases h with ⟨h, v, hw, hk⟩ | ⟨h, v, hw, hk⟩ | ⟨h1, h2, h3, h4, v, hw, hw', h7⟩
  · exact Or.inl ⟨by simpa using h, v, hw, hk⟩
  · exact Or.inr (Or.inl ⟨by simpa using h, v, hw, hk⟩)
  · exact Or.inr (Or.inr ⟨by simpa using h1, by simpa using h2, h3, h4, v, hw, hw', h7⟩)

/-- The state stays good after the first of two steps has succeeded. -/
def Next (σ : Asg) (b b' : BSt) (l r : Term) : Prop :=
  Agree σ l r → l.NoWild → r.NoWild → ScopeOK false b.scope → Models σ b.scope →
    ScopeOK false b'.scope ∧ Models σ b'.scope

theorem next_of_unify {σ : Asg} {n : Nat} {l r : Term} {b b' : BSt} (hl : l.NoExpr) (hr : r.NoExpr)
    (h : unify n l r b = .ok true b') : Next σ b b' l r := by
  intro ha h1 h2 hsc hσ
  have := (unify_ok (c := false) n l r b hsc hl.tame hr.tame (Or.inl ⟨h1, h2⟩)).yes b' h
  exact ⟨this.1, (this.2 σ).2 ⟨hσ, ha⟩⟩

theorem BoundedL.uncons {σ : Asg} {b : BSt} {k : Nat} {l r : Term} {ls rs : List Term}
    (h : BoundedL σ b k (l :: ls) (r :: rs)) :
    ∃ j, j < k ∧ Bounded σ b j l r ∧ ∀ b', Next σ b b' l r → BoundedL σ b' k ls rs := by
  rcases h with ⟨h, v, ⟨a, w, ha, hw, rfl⟩, hk⟩ | ⟨h, v, ⟨a, w, ha, hw, rfl⟩, hk⟩ |
    ⟨h1, h2, h3, h4, v, ⟨a, w, ha, hw, rfl⟩, ⟨a', w', ha', hw', e⟩, h7⟩
  · simp at h; simp [Val.size] at hk
    exact ⟨a.size, by omega, Or.inl ⟨h.1, a, ha, Nat.le_refl _⟩, fun _ _ => Or.inl ⟨h.2, w, hw, by omega⟩⟩
  · simp at h; simp [Val.size] at hk
    exact ⟨a.size, by omega, Or.inr (Or.inl ⟨h.1, a, ha, Nat.le_refl _⟩),
      fun _ _ => Or.inr (Or.inl ⟨h.2, w, hw, by omega⟩)⟩
  · injection e with e1 e2; subst e1 e2
    simp at h1 h2; simp [Val.size] at h7
    refine ⟨a.size, by omega, Or.inr (Or.inr ⟨h1.1, h2.1, h3, h4, a, ha, ha', Nat.le_refl _⟩), fun b' hn => ?_⟩
    obtain ⟨n1, n2⟩ := hn ⟨a, ha, ha'⟩ h1.1 h2.1 h3 h4
    exact Or.inr (Or.inr ⟨h1.2, h2.2, n1, n2, w, hw, hw', by omega⟩)

theorem Bounded.uncons {σ : Asg} {b : BSt} {k : Nat} {h t h' t' : Term}
    (hb : Bounded σ b k (.cons h t) (.cons h' t')) :
    ∃ j, j < k ∧ Bounded σ b j h h' ∧ ∀ b', Next σ b b' h h' → Bounded σ b' j t t' := by
  rcases hb with ⟨h, v, ⟨a, w, ha, hw, rfl⟩, hk⟩ | ⟨h, v, ⟨a, w, ha, hw, rfl⟩, hk⟩ |
    ⟨h1, h2, h3, h4, v, ⟨a, w, ha, hw, rfl⟩, ⟨a', w', ha', hw', e⟩, h7⟩
  · simp at h; simp [Val.size] at hk
    exact ⟨a.size + w.size, by omega, Or.inl ⟨h.1, a, ha, by omega⟩, fun _ _ => Or.inl ⟨h.2, w, hw, by omega⟩⟩
  · simp at h; simp [Val.size] at hk
    exact ⟨a.size + w.size, by omega, Or.inr (Or.inl ⟨h.1, a, ha, by omega⟩),
      fun _ _ => Or.inr (Or.inl ⟨h.2, w, hw, by omega⟩)⟩
  · injection e with e1 e2; subst e1 e2
    simp at h1 h2; simp [Val.size] at h7
    refine ⟨a.size + w.size, by omega, Or.inr (Or.inr ⟨h1.1, h2.1, h3, h4, a, ha, ha', by omega⟩), fun b' hn => ?_⟩
    obtain ⟨n1, n2⟩ := hn ⟨a, ha, ha'⟩ h1.1 h2.1 h3 h4
    exact Or.inr (Or.inr ⟨h1.2, h2.2, n1, n2, w, hw, hw', by omega⟩)

theorem Bounded.uncons_tup {σ : Asg} {b : BSt} {k : Nat} {h t x : Term} {xs : List Term}
    (hb : Bounded σ b k (.cons h t) (.tup (x :: xs))) :
    ∃ j, j < k ∧ Bounded σ b j h x ∧ ∀ b', Next σ b b' h x → Bounded σ b' j t (.tup xs) := by
  rcases hb with ⟨h, v, ⟨a, w, ha, hw, rfl⟩, hk⟩ | ⟨h, v, ⟨a, w, ha, hw, rfl⟩, hk⟩ |
    ⟨h1, h2, h3, h4, v, ⟨a, w, ha, hw, rfl⟩, ⟨a', w', ha', hw', e⟩, h7⟩
  · simp at h; simp [Val.size] at hk
    exact ⟨a.size + w.size, by omega, Or.inl ⟨h.1, a, ha, by omega⟩, fun _ _ => Or.inl ⟨h.2, w, hw, by omega⟩⟩
  · simp at h; simp [Val.size] at hk
    exact ⟨a.size + w.size, by omega, Or.inr (Or.inl ⟨h.1, a, ha, by omega⟩),
      fun _ _ => Or.inr (Or.inl ⟨by simpa using h.2, w, hw, by omega⟩)⟩
  · injection e with e1 e2; subst e1 e2
    simp at h1 h2; simp [Val.size] at h7
    refine ⟨a.size + w.size, by omega, Or.inr (Or.inr ⟨h1.1, h2.1, h3, h4, a, ha, ha', by omega⟩), fun b' hn => ?_⟩
    obtain ⟨n1, n2⟩ := hn ⟨a, ha, ha'⟩ h1.1 h2.1 h3 h4
    exact Or.inr (Or.inr ⟨h1.2, by simpa using h2.2, n1, n2, w, hw, hw', by omega⟩)

/-- `f` finishes without exception and keeps the scope acyclic. -/
def Done (f : Nat → Res BSt Bool) : Prop :=
  ∃ n a b', (∀ m, n ≤ m → f m = .ok a b') ∧ ScopeNoExpr b'.scope ∧ Acyclic b'.scope

omit [Arith] in
theorem Done.shift {f g : Nat → Res BSt Bool} (h : Done g) (n₀ : Nat) (hf : ∀ n, n₀ ≤ n → f (n + 1) = g n) : Done f := by
  obtain ⟨n, a, b', h1, h2⟩ := h
  refine ⟨n + n₀ + 1, a, b', fun m hm => ?_, h2⟩
  obtain ⟨k, rfl⟩ : ∃ k, m = k + 1 := ⟨m - 1, by omega⟩
  rw [hf k (by omega)]; exact h1 k (by omega)

omit [Arith] in
theorem Done.congr {f g : Nat → Res BSt Bool} (h : Done g) (n₀ : Nat) (hf : ∀ n, n₀ ≤ n → f n = g n) : Done f := by
  obtain ⟨n, a, b', h1, h2⟩ := h
  exact ⟨n + n₀, a, b', fun m hm => by rw [hf m (by omega)]; exact h1 m (by omega), h2⟩

omit [Arith] in
theorem Done.ret {b : BSt} (h1 : ScopeNoExpr b.scope) (h2 : Acyclic b.scope) (a : Bool) : Done fun _ => .ok a b :=
  ⟨0, a, b, fun _ _ => rfl, h1, h2⟩

omit [Arith] in
theorem Done.and {f : Nat → Res BSt Bool} {g : Nat → BSt → Res BSt Bool} (hf : Done f)
    (hg : ∀ n b', f n = .ok true b' → ScopeNoExpr b'.scope → Acyclic b'.scope → Done (g · b')) :
    Done fun n => (f n).bind fun ok b => if ok then g n b else .ok false b := by
  obtain ⟨n, a, b', h1, h2, h3⟩ := hf
  cases a with
  | false => exact ⟨n, false, b', fun m hm => by simp [h1 m hm], h2, h3⟩
  | true =>
    refine (hg n b' (h1 n (Nat.le_refl _)) h2 h3).congr n fun m hm => ?_
    simp [h1 m hm]

omit [Arith] in
theorem deref_noExpr {sc : Scope} (hsc : ScopeNoExpr sc) : ∀ (n : Nat) (t t' : Term), t.NoExpr →
    deref n sc t = .ok t' → t'.NoExpr
  | 0, _, _, _, h => by simp [deref] at h
  | n + 1, t, t', ht, h => by
    cases t with
    | var x =>
      rw [deref] at h
      cases hx : sc x with
      | none => simp [hx] at h; subst h; exact ht
      | some u => simp [hx] at h; exact deref_noExpr hsc n u t' (hsc x u hx) h
    | _ => simp [deref] at h; subst h; exact ht

theorem evaluate_noExpr {sc : Scope} (hsc : ScopeNoExpr sc) : ∀ (n : Nat) (t t' : Term), t.NoExpr →
    evaluate n sc t = .ok t' → t'.NoExpr
  | 0, _, _, _, h => by simp [evaluate] at h
  | n + 1, t, t', ht, h => by
    rw [evaluate.eq_def] at h
    cases t with
    | var x =>
      simp only at h
      cases hx : sc x with
      | none => simp [hx] at h; subst h; exact ht
      | some u =>
        simp only [hx, Ev.bind_eq_ok] at h
        obtain ⟨d, hd, h⟩ := h
        exact evaluate_noExpr hsc n d t' (deref_noExpr hsc n _ _ (by simp) hd) h
    | un o t => simp at ht
    | bin o l r => simp at ht
    | _ => simp at h; subst h; exact ht

omit [Arith] in
theorem deref_closed {sc : Scope} {n : Nat} {t t' : Term} (ht : t.Closed) (h : deref n sc t = .ok t') : t' = t := by
  cases n with
  | zero => simp [deref] at h
  | succ n => cases t <;> simp [deref] at h ht ⊢ <;> exact h.symm

theorem Bounded.eval {σ : Asg} {b : BSt} {k n : Nat} {l r r' : Term} (h : Bounded σ b k l r) (hr : r.NoExpr)
    (e : evaluate n b.scope r = .ok r') : Bounded σ b k l r' := by
  rcases h with h | ⟨h, h'⟩ | ⟨h1, h2, h3, h4, v, h5, h6, h7⟩
  · exact Or.inl h
  · rw [evaluate_closed h e]; exact Or.inr (Or.inl ⟨h, h'⟩)
  · have i := evaluate_spec h3 hr.tame e
    exact Or.inr (Or.inr ⟨h1, i.noWild h2, h3, h4, v, h5, (i.den σ h4 v).1 h6, h7⟩)

theorem bind_done {σ : Asg} {b : BSt} {k : Nat} {x : VarId} {r : Term} (hsc : ScopeNoExpr b.scope)
    (hac : Acyclic b.scope) (hr : r.NoExpr) (hx : b.scope x = none) (hb : Bounded σ b k (.var x) r) :
    Done fun n => varUnify n (unify n) x r b := by
  by_cases hw : r = .wild
  · subst hw
    exact (Done.ret hsc hac true).congr 0 fun n _ => by simp [varUnify, hx]
  obtain ⟨n, t, he, ht, -, hn⟩ := evaluate_term hac hsc hr
  have e := he n (Nat.le_refl _)
  have htn := evaluate_noExpr hsc n r t hr e
  have hbt := hb.eval hr e
  have hv : ∀ m, n ≤ m → varUnify m (unify m) x r b = (bindVar x t b).bind fun _ b => .ok true b := by
    intro m hm
    unfold varUnify
    simp only [hx]
    cases r <;> simp_all
  by_cases hxt : t = .var x
  · subst hxt
    exact (Done.ret hsc hac true).congr n fun m hm => by rw [hv m hm]; simp [bindVar]
  · have hbind : ((bindVar x t b).bind fun _ b => .ok true b) =
        .ok true { b with scope := b.scope.set x t, stack := .v x :: b.stack } := by
      unfold bindVar
      split
      · rename_i y; simp at hxt; simp [hxt, hx]
      · simp [hx]
    refine ⟨n, true, _, fun m hm => (hv m hm).trans hbind, ?_, ?_⟩
    · intro y u hy
      simp only [Scope.set] at hy
      split at hy
      · simp at hy; subst hy; exact htn
      · exact hsc y u hy
    · refine acyclic_set hac hx fun y hy hreach => ?_
      rcases hbt with h | h | ⟨h1, h2, h3, h4, v, h5, h6, h7⟩
      · simp at h
      · exact h.1.no_var hy
      · simp only [Den] at h5; subst h5
        have hs := reach_size hsc h4 hreach
        have hv := hasVar_size t htn hy _ h6
        by_cases ety : t = .var y
        · subst ety
          simp only [Whnf] at ht
          cases hreach with
          | refl => exact hxt rfl
          | step hd _ => obtain ⟨u, hu, _⟩ := hd; simp [ht] at hu
        · have := hv.2 ety; omega

theorem unifyAll_done {σ : Asg} {k : Nat}
    (ih : ∀ j, j < k → ∀ l r b, l.NoExpr → r.NoExpr → ScopeNoExpr b.scope → Acyclic b.scope →
      Bounded σ b j l r → Done fun n => unify n l r b) :
    ∀ ls rs b, (∀ l ∈ ls, l.NoExpr) → (∀ r ∈ rs, r.NoExpr) → ScopeNoExpr b.scope → Acyclic b.scope →
      BoundedL σ b k ls rs → Done fun n => unifyAll (unify n) ls rs b
  | [], [], b, _, _, hsc, hac, _ => Done.ret hsc hac true
  | [], _ :: _, b, _, _, hsc, hac, _ => Done.ret hsc hac true
  | _ :: _, [], b, _, _, hsc, hac, _ => Done.ret hsc hac true
  | l :: ls, r :: rs, b, hl, hr, hsc, hac, hb => by
    obtain ⟨j, hj, h1, h2⟩ := hb.uncons
    simp only [unifyAll]
    refine Done.and (ih j hj l r b (hl l (by simp)) (hr r (by simp)) hsc hac h1) fun n b' h hsc' hac' => ?_
    exact unifyAll_done ih ls rs b' (fun l h => hl l (by simp [h])) (fun r h => hr r (by simp [h])) hsc' hac'
      (h2 b' (next_of_unify (hl l (by simp)) (hr r (by simp)) h))

theorem meth_done {σ : Asg} {k : Nat}
    (ih : ∀ j, j < k → ∀ l r b, l.NoExpr → r.NoExpr → ScopeNoExpr b.scope → Acyclic b.scope →
      Bounded σ b j l r → Done fun n => unify n l r b) {l r : Term} {b : BSt}
    (hl : l.NoExpr) (hr : r.NoExpr) (hsc : ScopeNoExpr b.scope) (hac : Acyclic b.scope)
    (hb : Bounded σ b k l r) (hw : Whnf b.scope l) (ho : l.isObj = true) :
    Done fun n => methUnify n (unify n) l r b := by
  cases l with
  | bool => simp [Term.isObj] at ho
  | num => simp [Term.isObj] at ho
  | str => simp [Term.isObj] at ho
  | tup => simp [Term.isObj] at ho
  | un => simp at hl
  | bin => simp at hl
  | wild => exact (Done.ret hsc hac true).congr 0 fun n _ => by simp [methUnify]
  | var x => exact (bind_done hsc hac hr hw hb).congr 0 fun n _ => by simp [methUnify]
  | lit f as xs =>
    obtain ⟨n, t, he, ht, -, hn⟩ := evaluate_term hac hsc hr
    have e := he n (Nat.le_refl _)
    have htn := evaluate_noExpr hsc n r t hr e
    have hbt := hb.eval hr e
    have no : ∀ m, n ≤ m → methUnify m (unify m) (.lit f as xs) r b =
      litUnify m (unify m) f as xs t b := by
      intro m hm
      have : evaluate m b.scope t = .ok t := by
        obtain ⟨k, rfl⟩ : ∃ k, m = k + 1 := ⟨m - 1, by omega⟩
        exact evaluate_whnf ht k
      simp only [methUnify, litUnify, he m hm, this, Res.lift_ok, Res.bind_ok]
    have ev : ∀ m, 1 ≤ m → evaluate m b.scope t = .ok t := fun m hm => by
      obtain ⟨k, rfl⟩ : ∃ k, m = k + 1 := ⟨m - 1, by omega⟩
      exact evaluate_whnf ht k
    refine Done.congr (g := fun m => litUnify m (unify m) f as xs t b) ?_ n no
    cases t with
    | var y =>
      refine (bind_done hsc hac hl ht hbt.symm).congr 1 fun m hm => ?_
      simp [litUnify, ev m hm]
    | lit g bs ys =>
      by_cases h1 : f ≠ g
      · exact (Done.ret hsc hac false).congr 1 fun m hm => by simp [litUnify, ev m hm, h1]
      · by_cases h2 : as.length ≠ bs.length
        · exact (Done.ret hsc hac false).congr 1 fun m hm => by simp [litUnify, ev m hm, h2]
        · refine (unifyAll_done ih as bs b (by simpa using hl) (by simpa using htn) hsc hac hbt.lit).congr 1 fun m hm => ?_
          simp at h1 h2
          simp [litUnify, ev m hm, h1, h2]
    | wild => exact (Done.ret hsc hac true).congr 1 fun m hm => by simp [litUnify, ev m hm]
    | _ => exact (Done.ret hsc hac false).congr 1 fun m hm => by simp [litUnify, ev m hm]
  | cons h t =>
    obtain ⟨n, r', he, hr', -, hn⟩ := evaluate_term hac hsc hr
    have e := he n (Nat.le_refl _)
    have htn := evaluate_noExpr hsc n r r' hr e
    have hbt := hb.eval hr e
    have ev : ∀ m, 1 ≤ m → evaluate m b.scope r' = .ok r' := fun m hm => by
      obtain ⟨k, rfl⟩ : ∃ k, m = k + 1 := ⟨m - 1, by omega⟩
      exact evaluate_whnf hr' k
    have no : ∀ m, n ≤ m → methUnify m (unify m) (.cons h t) r b =
      consUnify m (unify m) h t r' b := by
      intro m hm
      simp only [methUnify, consUnify, he m hm, ev m (by omega), Res.lift_ok, Res.bind_ok]
    refine Done.congr (g := fun m => consUnify m (unify m) h t r' b) ?_ n no
    simp at hl
    cases r' with
    | var y =>
      refine (bind_done hsc hac (by simpa using hl) hr' hbt.symm).congr 1 fun m hm => ?_
      simp [consUnify, ev m hm]
    | wild => exact (Done.ret hsc hac true).congr 1 fun m hm => by simp [consUnify, ev m hm]
    | tup xs =>
      cases xs with
      | nil => exact (Done.ret hsc hac false).congr 1 fun m hm => by simp [consUnify, ev m hm]
      | cons x xs =>
        simp at htn
        obtain ⟨j, hj, h1, h2⟩ := hbt.uncons_tup
        refine Done.congr ?_ 1 fun m hm => by
          simp only [consUnify, ev m hm, Res.lift_ok, Res.bind_ok]; rfl
        refine Done.and (ih j hj h x b hl.1 htn.1 hsc hac h1) fun n b' hh hsc' hac' => ?_
        exact ih j hj t (.tup xs) b' hl.2 (by simpa using htn.2) hsc' hac' (h2 b' (next_of_unify hl.1 htn.1 hh))
    | cons h' t' =>
      simp at htn
      obtain ⟨j, hj, h1, h2⟩ := hbt.uncons
      refine Done.congr ?_ 1 fun m hm => by
        simp only [consUnify, ev m hm, Res.lift_ok, Res.bind_ok]; rfl
      refine Done.and (ih j hj h h' b hl.1 htn.1 hsc hac h1) fun n b' hh hsc' hac' => ?_
      exact ih j hj t t' b' hl.2 htn.2 hsc' hac' (h2 b' (next_of_unify hl.1 htn.1 hh))
    | _ => exact (Done.ret hsc hac false).congr 1 fun m hm => by simp [consUnify, ev m hm]

theorem plain_done {σ : Asg} {k : Nat}
    (ih : ∀ j, j < k → ∀ l r b, l.NoExpr → r.NoExpr → ScopeNoExpr b.scope → Acyclic b.scope →
      Bounded σ b j l r → Done fun n => unify n l r b) {l r : Term} {b : BSt}
    (hl : l.NoExpr) (hr : r.NoExpr) (hsc : ScopeNoExpr b.scope) (hac : Acyclic b.scope)
    (hb : Bounded σ b k l r) :
    Done fun n => plainUnify (unify n) l r b := by
  unfold plainUnify
  split
  · exact Done.ret hsc hac _
  · split
    · exact Done.ret hsc hac _
    · exact unifyAll_done ih _ _ b (by simpa using hl) (by simpa using hr) hsc hac hb.tup
  · exact Done.ret hsc hac _
  · exact Done.ret hsc hac _
  · exact Done.ret hsc hac _

theorem unify_done {σ : Asg} (k : Nat) : ∀ l r b, l.NoExpr → r.NoExpr → ScopeNoExpr b.scope → Acyclic b.scope →
      Bounded σ b k l r → Done fun n => unify n l r b := by
  induction k using Nat.strongRecOn with
  | ind k ih =>
    have both : ∀ l r b, l.NoExpr → r.NoExpr → ScopeNoExpr b.scope → Acyclic b.scope →
      Bounded σ b k l r → Whnf b.scope l → Whnf b.scope r → Done fun n => unify n l r b := by
      intro l r b hl hr hsc hac hb hwl hwr
      by_cases h1 : l.isObj = true
      · exact (meth_done ih hl hr hsc hac hb hwl h1).shift 0 fun n _ => by simp [unify, h1]
      · by_cases h2 : r.isObj = true
        · exact (meth_done ih hr hl hsc hac hb.symm hwr h2).shift 0 fun n _ => by simp [unify, h1, h2]
        · exact (plain_done ih hl hr hsc hac hb).shift 0 fun n _ => by simp [unify, h1, h2]
    have right : ∀ l r b, l.NoExpr → r.NoExpr → ScopeNoExpr b.scope → Acyclic b.scope →
      Bounded σ b k l r → Whnf b.scope l → Done fun n => unify n l r b := by
      intro l r b hl hr hsc hac hb hwl
      by_cases h1 : l.isObj = true
      · exact (meth_done ih hl hr hsc hac hb hwl h1).shift 0 fun n _ => by simp [unify, h1]
      · cases r with
        | var y =>
          cases hy : b.scope y with
          | none => exact both l _ b hl hr hsc hac hb hwl hy
          | some u =>
            obtain ⟨n, t, he, ht, hd, hn⟩ := evaluate_term hac hsc hr
            have e := he n (Nat.le_refl _)
            refine (both t l b (evaluate_noExpr hsc n _ t hr e) hl hsc hac (hb.eval hr e).symm ht hwl).shift n
              fun m hm => ?_
            rw [unify, if_neg h1, if_pos (by rfl)]
            simp only [methUnify, varUnify, hy, hd y rfl u hy m hm]
            rfl
        | un => simp at hr
        | bin => simp at hr
        | _ => exact both l _ b hl hr hsc hac hb hwl trivial
    intro l r b hl hr hsc hac hb
    cases l with
    | var x =>
      cases hx : b.scope x with
      | none => exact right _ r b hl hr hsc hac hb hx
      | some u =>
        obtain ⟨n, t, he, ht, hd, hn⟩ := evaluate_term hac hsc hl
        have e := he n (Nat.le_refl _)
        refine (right t r b (evaluate_noExpr hsc n _ t hl e) hr hsc hac (hb.symm.eval hl e).symm ht).shift n
          fun m hm => ?_
        rw [unify]
        simp only [Term.isObj, methUnify, varUnify, hx, hd x rfl u hx m hm]
        rfl
    | un => simp at hl
    | bin => simp at hl
    | _ => exact right _ r b hl hr hsc hac hb trivial

end Verif
