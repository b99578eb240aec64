import Verif.Lemmas.Eval
import Verif.Model.Unify

/-! Unification: trail discipline and logical meaning. -/

namespace Verif

theorem Res.leaves_bind {σ α β : Type} {x : Res σ α} {f : α → σ → Res σ β} {s' : σ} :
    (x.bind f).leaves s' ↔ (∃ e, x = .err e s') ∨ ∃ a s, x = .ok a s ∧ (f a s).leaves s' := by
  cases x <;> simp [Res.leaves, and_assoc]

@[simp] theorem Res.leaves_ok {σ α : Type} {a : α} {s s' : σ} : (Res.ok a s).leaves s' ↔ s = s' := by
  simp [Res.leaves]
@[simp] theorem Res.leaves_err {σ α : Type} {e : Err} {s s' : σ} :
    (Res.err e s : Res σ α).leaves s' ↔ s = s' := by
  simp [Res.leaves]
@[simp] theorem Res.leaves_oof {σ α : Type} {s' : σ} :
    (Res.oof : Res σ α).leaves s' ↔ False := by
  simp [Res.leaves]
theorem Res.leaves_lift {σ α : Type} {x : Ev α} {s s' : σ} : (Res.lift x s).leaves s' → s = s' := by
  cases x <;> simp

/-! ## Trail -/

/-- `b'` results from `b` by binding the variables `xs`, each of them unbound before,
and pushing exactly them on the stack. -/
structure GrowBy (xs : List VarId) (b b' : BSt) : Prop where
  stack : b'.stack = xs.map Entry.v ++ b.stack
  nodup : xs.Nodup
  wasFree : ∀ x ∈ xs, b.scope x = none
  isBound : ∀ x ∈ xs, b'.scope x ≠ none
  frame : ∀ x, x ∉ xs → b'.scope x = b.scope x
  ncp : b'.ncp = b.ncp

def Grow (b b' : BSt) : Prop := ∃ xs, GrowBy xs b b'

theorem Grow.refl (b : BSt) : Grow b b := ⟨[], by simp, by simp, by simp, by simp, by simp, rfl⟩

theorem Grow.trans {a b c : BSt} : Grow a b → Grow b c → Grow a c
  | ⟨xs, h⟩, ⟨ys, h'⟩ => by
    refine ⟨ys ++ xs, ?_, ?_, ?_, ?_, ?_, ?_⟩
    · simp [h'.stack, h.stack]
    · rw [List.nodup_append]
      refine ⟨h'.nodup, h.nodup, ?_⟩
      intro y hy x hx e
      subst e
      exact h.isBound y hx (h'.wasFree y hy)
    · intro x hx
      rcases List.mem_append.1 hx with hy | hx
      · by_cases hxx : x ∈ xs
        · exact h.wasFree x hxx
        · rw [← h.frame x hxx]; exact h'.wasFree x hy
      · exact h.wasFree x hx
    · intro x hx
      by_cases hy : x ∈ ys
      · exact h'.isBound x hy
      · rw [h'.frame x hy]
        rcases List.mem_append.1 hx with hx | hx
        · exact absurd hx hy
        · exact h.isBound x hx
    · intro x hx
      simp at hx
      rw [h'.frame x hx.1, h.frame x hx.2]
    · rw [h'.ncp, h.ncp]

theorem bindVar_grow {x : VarId} {t : Term} {b b' : BSt} (h : (bindVar x t b).leaves b') : Grow b b' := by
  have key : ∀ b', (match b.scope x with
      | some _ => (.err (.py "RuntimeError") b : Res BSt Unit)
      | none => .ok () { b with scope := b.scope.set x t, stack := .v x :: b.stack }).leaves b' → Grow b b' := by
    intro b' h
    cases hx : b.scope x with
    | some u => simp [hx] at h; subst h; exact Grow.refl _
    | none =>
      simp [hx] at h; subst h
      refine ⟨[x], by simp, by simp, by simp [hx], by simp [Scope.set], ?_, rfl⟩
      intro y hy; simp at hy; simp [Scope.set, hy]
  unfold bindVar at h
  split at h
  · split at h
    · simp at h; subst h; exact Grow.refl _
    · exact key b' h
  · exact key b' h

theorem unifyAll_grow {f : Term → Term → BSt → Res BSt Bool}
    (hf : ∀ l r b b', (f l r b).leaves b' → Grow b b') :
    ∀ ls rs b b', (unifyAll f ls rs b).leaves b' → Grow b b'
  | [], [], b, b', h => by simp [unifyAll] at h; subst h; exact Grow.refl _
  | [], _ :: _, b, b', h => by simp [unifyAll] at h; subst h; exact Grow.refl _
  | _ :: _, [], b, b', h => by simp [unifyAll] at h; subst h; exact Grow.refl _
  | l :: ls, r :: rs, b, b', h => by
    rw [unifyAll, Res.leaves_bind] at h
    rcases h with ⟨e, h⟩ | ⟨a, s, h, h'⟩
    · exact hf l r b b' (Or.inr ⟨e, h⟩)
    · have g := hf l r b s (Or.inl ⟨a, h⟩)
      cases a with
      | true => exact g.trans (unifyAll_grow hf ls rs s b' (by simpa using h'))
      | false => simp at h'; subst h'; exact g

variable [Arith]

theorem varUnify_grow {n : Nat} {f : Term → Term → BSt → Res BSt Bool}
    (hf : ∀ l r b b', (f l r b).leaves b' → Grow b b') {x : VarId} {r : Term} {b b' : BSt}
    (h : (varUnify n f x r b).leaves b') : Grow b b' := by
  unfold varUnify at h
  split at h
  · rw [Res.leaves_bind] at h
    rcases h with ⟨e, h⟩ | ⟨a, s, h, h'⟩
    · rw [Res.leaves_lift (Or.inr ⟨e, h⟩)]; exact Grow.refl _
    · rw [Res.leaves_lift (Or.inl ⟨a, h⟩)]; exact hf _ _ _ _ h'
  · split at h
    · simp at h; subst h; exact Grow.refl _
    · rw [Res.leaves_bind] at h
      rcases h with ⟨e, h⟩ | ⟨a, s, h, h'⟩
      · rw [Res.leaves_lift (Or.inr ⟨e, h⟩)]; exact Grow.refl _
      · rw [Res.leaves_lift (Or.inl ⟨a, h⟩)]
        rw [Res.leaves_bind] at h'
        rcases h' with ⟨e, h'⟩ | ⟨_, s', h', h''⟩
        · exact bindVar_grow (Or.inr ⟨e, h'⟩)
        · simp at h''; subst h''; exact bindVar_grow (Or.inl ⟨_, h'⟩)

theorem litUnify_grow {n : Nat} {f : Term → Term → BSt → Res BSt Bool}
    (hf : ∀ l r b b', (f l r b).leaves b' → Grow b b') {g : String} {as xs : List Term} {r : Term} {b b' : BSt}
    (h : (litUnify n f g as xs r b).leaves b') : Grow b b' := by
  unfold litUnify at h
  rw [Res.leaves_bind] at h
  rcases h with ⟨e, h⟩ | ⟨a, s, h, h'⟩
  · rw [Res.leaves_lift (Or.inr ⟨e, h⟩)]; exact Grow.refl _
  · rw [Res.leaves_lift (Or.inl ⟨a, h⟩)]
    split at h'
    · exact varUnify_grow hf h'
    · simp at h'; subst h'; exact Grow.refl _
    · split at h'
      · simp at h'; subst h'; exact Grow.refl _
      · split at h'
        · simp at h'; subst h'; exact Grow.refl _
        · exact unifyAll_grow hf _ _ _ _ h'
    · simp at h'; subst h'; exact Grow.refl _

omit [Arith] in
theorem and_grow {f : Term → Term → BSt → Res BSt Bool}
    (hf : ∀ l r b b', (f l r b).leaves b' → Grow b b') {l r l' r' : Term} {b b' : BSt}
    (h : ((f l r b).bind fun ok b => if ok then f l' r' b else .ok false b).leaves b') : Grow b b' := by
  rw [Res.leaves_bind] at h
  rcases h with ⟨e, h⟩ | ⟨a, s, h, h'⟩
  · exact hf _ _ _ _ (Or.inr ⟨e, h⟩)
  · have g := hf l r b s (Or.inl ⟨a, h⟩)
    cases a with
    | true => exact g.trans (hf _ _ _ _ (by simpa using h'))
    | false => simp at h'; subst h'; exact g

theorem consUnify_grow {n : Nat} {f : Term → Term → BSt → Res BSt Bool}
    (hf : ∀ l r b b', (f l r b).leaves b' → Grow b b') {hd tl : Term} {r : Term} {b b' : BSt}
    (h : (consUnify n f hd tl r b).leaves b') : Grow b b' := by
  unfold consUnify at h
  rw [Res.leaves_bind] at h
  rcases h with ⟨e, h⟩ | ⟨a, s, h, h'⟩
  · rw [Res.leaves_lift (Or.inr ⟨e, h⟩)]; exact Grow.refl _
  · rw [Res.leaves_lift (Or.inl ⟨a, h⟩)]
    split at h'
    · exact varUnify_grow hf h'
    · simp at h'; subst h'; exact Grow.refl _
    · simp at h'; subst h'; exact Grow.refl _
    · exact and_grow hf h'
    · exact and_grow hf h'
    · simp at h'; subst h'; exact Grow.refl _

theorem methUnify_grow {n : Nat} {f : Term → Term → BSt → Res BSt Bool}
    (hf : ∀ l r b b', (f l r b).leaves b' → Grow b b') {l r : Term} {b b' : BSt}
    (h : (methUnify n f l r b).leaves b') : Grow b b' := by
  unfold methUnify at h
  split at h
  · exact varUnify_grow hf h
  · simp at h; subst h; exact Grow.refl _
  · rw [Res.leaves_bind] at h
    rcases h with ⟨e, h⟩ | ⟨a, s, h, h'⟩
    · rw [Res.leaves_lift (Or.inr ⟨e, h⟩)]; exact Grow.refl _
    · rw [Res.leaves_lift (Or.inl ⟨a, h⟩)]; exact hf _ _ _ _ h'
  · rw [Res.leaves_bind] at h
    rcases h with ⟨e, h⟩ | ⟨a, s, h, h'⟩
    · rw [Res.leaves_lift (Or.inr ⟨e, h⟩)]; exact Grow.refl _
    · rw [Res.leaves_lift (Or.inl ⟨a, h⟩)]; exact hf _ _ _ _ h'
  · exact litUnify_grow hf h
  · exact consUnify_grow hf h
  · simp at h; subst h; exact Grow.refl _

omit [Arith] in
theorem plainUnify_grow {f : Term → Term → BSt → Res BSt Bool}
    (hf : ∀ l r b b', (f l r b).leaves b' → Grow b b') {l r : Term} {b b' : BSt}
    (h : (plainUnify f l r b).leaves b') : Grow b b' := by
  unfold plainUnify at h
  split at h
  · simp at h; subst h; exact Grow.refl _
  · split at h
    · simp at h; subst h; exact Grow.refl _
    · exact unifyAll_grow hf _ _ _ _ h
  · simp at h; subst h; exact Grow.refl _
  · simp at h; subst h; exact Grow.refl _
  · simp at h; subst h; exact Grow.refl _

theorem unify_grow : ∀ (n : Nat) (l r : Term) (b b' : BSt), (unify n l r b).leaves b' → Grow b b'
  | 0, l, r, b, b', h => by simp [unify] at h
  | n + 1, l, r, b, b', h => by
    have ih := unify_grow n
    rw [unify] at h
    split at h
    · exact methUnify_grow ih h
    · split at h
      · exact methUnify_grow ih h
      · exact plainUnify_grow ih h

/-! ## Meaning -/

/-- At most one side contains wildcards, and then the other side is closed. -/
def Compat (l r : Term) : Prop := (l.NoWild ∧ r.NoWild) ∨ l.Closed ∨ r.Closed

def CompatL (ls rs : List Term) : Prop :=
  ((∀ l ∈ ls, l.NoWild) ∧ (∀ r ∈ rs, r.NoWild)) ∨ (∀ l ∈ ls, l.Closed) ∨ (∀ r ∈ rs, r.Closed)

omit [Arith] in
theorem Compat.symm {l r : Term} (h : Compat l r) : Compat r l := by
  rcases h with h | h | h
  · exact Or.inl ⟨h.2, h.1⟩
  · exact Or.inr (Or.inr h)
  · exact Or.inr (Or.inl h)

theorem Agree.symm {σ : Asg} {l r : Term} : Agree σ l r ↔ Agree σ r l := by
  simp [Agree, and_comm]

def AgreeL (σ : Asg) (ls rs : List Term) : Prop := ∃ v, DenL σ ls v ∧ DenL σ rs v

theorem agreeL_cons {σ : Asg} {l r : Term} {ls rs : List Term} :
    AgreeL σ (l :: ls) (r :: rs) ↔ Agree σ l r ∧ AgreeL σ ls rs := by
  constructor
  · rintro ⟨v, ⟨a, w, ha, hw, rfl⟩, ⟨a', w', ha', hw', e⟩⟩
    injection e with e1 e2; subst e1 e2
    exact ⟨⟨a, ha, ha'⟩, w, hw, hw'⟩
  · rintro ⟨⟨a, ha, ha'⟩, w, hw, hw'⟩
    exact ⟨.cons a w, ⟨a, w, ha, hw, rfl⟩, a, w, ha', hw', rfl⟩

theorem agreeL_length {σ : Asg} {ls rs : List Term} (h : AgreeL σ ls rs) : ls.length = rs.length := by
  obtain ⟨v, h1, h2⟩ := h
  rw [← denL_len h1, ← denL_len h2]

/-- What a result of unification says about assignments. -/
structure UOK (c : Bool) (goal : Asg → Prop) (b : BSt) (x : Res BSt Bool) : Prop where
  yes : ∀ b', x = .ok true b' → ScopeOK c b'.scope ∧ ∀ σ, Models σ b'.scope ↔ Models σ b.scope ∧ goal σ
  no : ∀ b', x = .ok false b' → ∀ σ, Models σ b.scope → ¬ goal σ

theorem UOK.congr {c : Bool} {g g' : Asg → Prop} {b : BSt} {x : Res BSt Bool}
    (h : ∀ σ, Models σ b.scope → (g σ ↔ g' σ)) (hx : UOK c g b x) : UOK c g' b x := by
  refine ⟨fun b' e => ⟨(hx.yes b' e).1, fun σ => ?_⟩, fun b' e σ hσ hg => hx.no b' e σ hσ ((h σ hσ).2 hg)⟩
  rw [(hx.yes b' e).2 σ]
  exact ⟨fun ⟨a, b⟩ => ⟨a, (h σ a).1 b⟩, fun ⟨a, b⟩ => ⟨a, (h σ a).2 b⟩⟩

theorem UOK.true {c : Bool} {g : Asg → Prop} {b : BSt} (hsc : ScopeOK c b.scope)
    (h : ∀ σ, Models σ b.scope → g σ) : UOK c g b (.ok true b) := by
  refine ⟨fun b' e => ?_, fun b' e => by simp at e⟩
  simp at e; subst e
  exact ⟨hsc, fun σ => ⟨fun a => ⟨a, h σ a⟩, fun a => a.1⟩⟩

theorem UOK.false {c : Bool} {g : Asg → Prop} {b b' : BSt}
    (h : ∀ σ, Models σ b.scope → ¬ g σ) : UOK c g b (.ok false b') :=
  ⟨fun b' e => by simp at e, fun _ _ => h⟩

theorem UOK.err {c : Bool} {g : Asg → Prop} {b b' : BSt} {e : Err} : UOK c g b (.err e b') :=
  ⟨fun b' e => by simp at e, fun _ e => by simp at e⟩

theorem UOK.oof {c : Bool} {g : Asg → Prop} {b : BSt} : UOK c g b .oof :=
  ⟨fun b' e => by simp at e, fun _ e => by simp at e⟩

theorem UOK.decide {c : Bool} {g : Asg → Prop} {b : BSt} {p : Prop} [Decidable p] (hsc : ScopeOK c b.scope)
    (h : ∀ σ, g σ ↔ p) : UOK c g b (.ok (decide p) b) := by
  by_cases hp : p
  · simp only [hp, decide_true]; exact UOK.true hsc fun σ _ => (h σ).2 hp
  · simp only [hp, decide_false]; exact UOK.false fun σ _ hg => hp ((h σ).1 hg)

/-- `a and b`. -/
theorem UOK.and {c : Bool} {g g' : Asg → Prop} {b : BSt} {x : Res BSt Bool} {f : BSt → Res BSt Bool}
    (h1 : UOK c g b x) (h2 : ∀ b', x = .ok Bool.true b' → ScopeOK c b'.scope → UOK c g' b' (f b')) :
    UOK c (fun σ => g σ ∧ g' σ) b (x.bind fun ok b => if ok then f b else .ok Bool.false b) := by
  cases x with
  | oof => exact UOK.oof
  | err e s => exact UOK.err
  | ok a s =>
    cases a with
    | false => exact UOK.false fun σ hσ hg => h1.no s rfl σ hσ hg.1
    | true =>
      have y := h1.yes s rfl
      have z := h2 s rfl y.1
      simp only [Res.bind_ok, if_true]
      refine ⟨fun b' e => ⟨(z.yes b' e).1, fun σ => ?_⟩, fun b' e σ hσ hg => ?_⟩
      · rw [(z.yes b' e).2, y.2, and_assoc]
      · exact z.no b' e σ ((y.2 σ).2 ⟨hσ, hg.1⟩) hg.2

/-- Continue after evaluating or dereferencing. -/
theorem UOK.lift {c : Bool} {g : Asg → Prop} {b : BSt} {x : Ev Term} {f : Term → BSt → Res BSt Bool}
    (h : ∀ t, x = .ok t → UOK c g b (f t b)) : UOK c g b ((Res.lift x b).bind f) := by
  cases x with
  | oof => exact UOK.oof
  | err e => exact UOK.err
  | ok t => exact h t rfl

/-- The specification of the recursive calls. -/
def RecOK (c : Bool) (rec : Term → Term → BSt → Res BSt Bool) : Prop :=
  ∀ l r b, ScopeOK c b.scope → l.Tame c → r.Tame c → Compat l r →
    UOK c (fun σ => Agree σ l r) b (rec l r b)

theorem models_set {σ : Asg} {sc : Scope} {x : VarId} {t : Term} (hx : sc x = none) :
    Models σ (sc.set x t) ↔ Models σ sc ∧ Den σ t (σ x) := by
  constructor
  · intro h
    refine ⟨fun y u hy => h y u ?_, h x t (by simp [Scope.set])⟩
    have : y ≠ x := by rintro rfl; simp [hx] at hy
    simp [Scope.set, this, hy]
  · rintro ⟨h1, h2⟩ y u hy
    unfold Scope.set at hy
    by_cases e : y = x
    · subst e; simp at hy; subst hy; exact h2
    · simp [e] at hy; exact h1 y u hy

omit [Arith] in
theorem scopeOK_set {c : Bool} {sc : Scope} {x : VarId} {t : Term} (h : ScopeOK c sc) (h1 : t.NoWild)
    (h2 : t.Tame c) : ScopeOK c (sc.set x t) := by
  intro y u hy
  unfold Scope.set at hy
  by_cases e : y = x
  · subst e; simp at hy; subst hy; exact ⟨h1, h2⟩
  · simp [e] at hy; exact h y u hy

theorem agree_eval {c : Bool} {sc : Scope} {σ : Asg} {l r r' : Term} (h : EvalOK c sc r r')
    (hσ : Models σ sc) : Agree σ l r' ↔ Agree σ l r := by
  simp only [Agree, h.den σ hσ]

theorem bindVar_ok {c : Bool} {g : Asg → Prop} {x : VarId} {t : Term} {b : BSt} (hsc : ScopeOK c b.scope)
    (hx : b.scope x = none) (hw : t.NoWild) (ht : t.Tame c)
    (hg : ∀ σ, Models σ b.scope → (g σ ↔ Den σ t (σ x))) :
    UOK c g b ((bindVar x t b).bind fun _ b => .ok true b) := by
  have key : UOK c g b (Res.ok true { b with scope := b.scope.set x t, stack := .v x :: b.stack }) := by
    refine ⟨fun b' e => ?_, fun b' e => by simp at e⟩
    simp at e; subst e
    refine ⟨scopeOK_set hsc hw ht, fun σ => ?_⟩
    rw [models_set hx]
    exact ⟨fun ⟨p, q⟩ => ⟨p, (hg σ p).2 q⟩, fun ⟨p, q⟩ => ⟨p, (hg σ p).1 q⟩⟩
  unfold bindVar
  split
  · split
    · rename_i e; subst e
      exact UOK.true hsc fun σ hσ => (hg σ hσ).2 rfl
    · simpa [hx] using key
  · simpa [hx] using key

theorem varUnify_ok {c : Bool} {n : Nat} {rec : Term → Term → BSt → Res BSt Bool} (hr : RecOK c rec)
    {x : VarId} {r : Term} {b : BSt} (hsc : ScopeOK c b.scope) (ht : r.Tame c) (hc : Compat (.var x) r) :
    UOK c (fun σ => Agree σ (.var x) r) b (varUnify n rec x r b) := by
  have hcr : r.NoWild := by
    rcases hc with h | h | h
    · exact h.2
    · simp at h
    · exact h.noWild
  unfold varUnify
  split
  · refine UOK.lift fun t e => ?_
    have i := deref_spec hsc n _ _ (by simp) e
    have hc' : Compat t r := Or.inl ⟨i.noWild (by simp), hcr⟩
    refine UOK.congr (fun σ hσ => ?_) (hr t r b hsc i.tame ht hc')
    rw [Agree.symm, agree_eval i hσ, Agree.symm]
  · rename_i hx
    split
    · simp at hcr
    · refine UOK.lift fun t e => ?_
      have i := evaluate_spec hsc ht e
      refine bindVar_ok hsc hx (i.noWild hcr) i.tame fun σ hσ => ?_
      simp [Agree, Den, i.den σ hσ]

theorem unifyAll_ok {c : Bool} {rec : Term → Term → BSt → Res BSt Bool} (hr : RecOK c rec) :
    ∀ (ls rs : List Term) (b : BSt), ScopeOK c b.scope → (∀ l ∈ ls, l.Tame c) → (∀ r ∈ rs, r.Tame c) →
      CompatL ls rs → ls.length = rs.length → UOK c (fun σ => AgreeL σ ls rs) b (unifyAll rec ls rs b)
  | [], [], b, hsc, _, _, _, _ => by
    simp only [unifyAll]; exact UOK.true hsc fun σ _ => ⟨.nil, rfl, rfl⟩
  | [], _ :: _, _, _, _, _, _, h => by simp at h
  | _ :: _, [], _, _, _, _, _, h => by simp at h
  | l :: ls, r :: rs, b, hsc, hl, hrt, hc, hlen => by
    simp only [unifyAll, agreeL_cons]
    have hc1 : Compat l r := by
      rcases hc with h | h | h
      · exact Or.inl ⟨h.1 l (by simp), h.2 r (by simp)⟩
      · exact Or.inr (Or.inl (h l (by simp)))
      · exact Or.inr (Or.inr (h r (by simp)))
    have hc2 : CompatL ls rs := by
      rcases hc with h | h | h
      · exact Or.inl ⟨fun l hl => h.1 l (by simp [hl]), fun r hr => h.2 r (by simp [hr])⟩
      · exact Or.inr (Or.inl fun l hl => h l (by simp [hl]))
      · exact Or.inr (Or.inr fun r hr => h r (by simp [hr]))
    exact UOK.and (hr l r b hsc (hl l (by simp)) (hrt r (by simp)) hc1) fun b' _ hb' =>
      unifyAll_ok hr ls rs b' hb' (fun l h => hl l (by simp [h])) (fun r h => hrt r (by simp [h])) hc2
        (by simpa using hlen)

/-- Evaluating the right-hand side keeps the pair compatible. -/
theorem Compat.eval {c : Bool} {sc : Scope} {n : Nat} {l r r' : Term} (hc : Compat l r) (i : EvalOK c sc r r')
    (e : evaluate n sc r = .ok r') : Compat l r' := by
  rcases hc with h | h | h
  · exact Or.inl ⟨h.1, i.noWild h.2⟩
  · exact Or.inr (Or.inl h)
  · rw [evaluate_closed h e]; exact Or.inr (Or.inr h)

theorem Compat.agree_wild {σ : Asg} {l : Term} (hc : Compat l .wild) : Agree σ l .wild := by
  rcases hc with h | h | h
  · simp at h
  · obtain ⟨v, hv⟩ := den_exists (σ := σ) l h
    exact ⟨v, hv, trivial⟩
  · simp at h

theorem agree_lit {σ : Asg} {f g : String} {as bs xs ys : List Term} :
    Agree σ (.lit f as xs) (.lit g bs ys) ↔ f = g ∧ AgreeL σ as bs := by
  constructor
  · rintro ⟨v, ⟨w, hw, rfl⟩, ⟨w', hw', e⟩⟩
    injection e with e1 e2; subst e1 e2
    exact ⟨rfl, w, hw, hw'⟩
  · rintro ⟨rfl, w, h, h'⟩
    exact ⟨.app f w, ⟨w, h, rfl⟩, w, h', rfl⟩

theorem litUnify_ok {c : Bool} {n : Nat} {rec : Term → Term → BSt → Res BSt Bool} (hr : RecOK c rec)
    {f : String} {as xs : List Term} {r : Term} {b : BSt} (hsc : ScopeOK c b.scope)
    (hl : (Term.lit f as xs).Tame c) (ht : r.Tame c) (hc : Compat (.lit f as xs) r) :
    UOK c (fun σ => Agree σ (.lit f as xs) r) b (litUnify n rec f as xs r b) := by
  unfold litUnify
  refine UOK.lift fun r' e => ?_
  have i := evaluate_spec hsc ht e
  have hc' := hc.eval i e
  refine UOK.congr (g := fun σ => Agree σ (.lit f as xs) r') (fun σ hσ => agree_eval i hσ) ?_
  cases r' with
  | var y =>
    simp only
    exact UOK.congr (fun σ _ => Agree.symm) (varUnify_ok hr hsc hl hc'.symm)
  | wild => exact UOK.true hsc fun σ _ => hc'.agree_wild
  | lit g bs ys =>
    simp only
    split
    · rename_i h
      exact UOK.false fun σ _ ha => h (agree_lit.1 ha).1
    · rename_i h
      split
      · rename_i h'
        exact UOK.false fun σ _ ha => h' (agreeL_length (agree_lit.1 ha).2)
      · rename_i h'
        simp at h h'
        rw [Term.tame_lit] at hl
        have hty := i.tame
        rw [Term.tame_lit] at hty
        refine UOK.congr (g := fun σ => AgreeL σ as bs) (fun σ _ => by simp [agree_lit, h]) ?_
        refine unifyAll_ok hr as bs b hsc hl.2 hty.2 ?_ h'
        rcases hc' with hh | hh | hh
        · simp at hh; exact Or.inl hh
        · simp at hh; exact Or.inr (Or.inl hh)
        · simp at hh; exact Or.inr (Or.inr hh)
  | bool => exact UOK.false fun σ _ ⟨v, ⟨w, _, e⟩, h⟩ => by simp [Den] at h; simp [h] at e
  | num => exact UOK.false fun σ _ ⟨v, ⟨w, _, e⟩, h⟩ => by simp [Den] at h; simp [h] at e
  | str => exact UOK.false fun σ _ ⟨v, ⟨w, _, e⟩, h⟩ => by simp [Den] at h; simp [h] at e
  | tup =>
    refine UOK.false fun σ _ ⟨v, ⟨w, _, e⟩, h⟩ => ?_
    have := denL_isL h
    subst e; simp [Val.IsL] at this
  | cons => exact UOK.false fun σ _ ⟨v, ⟨w, _, e⟩, ⟨_, _, _, _, h⟩⟩ => by simp [h] at e
  | un => exact absurd rfl ((evaluate_not_expr e).1 _ _)
  | bin => exact absurd rfl ((evaluate_not_expr e).2 _ _ _)

theorem agree_cons_cons {σ : Asg} {h t h' t' : Term} :
    Agree σ (.cons h t) (.cons h' t') ↔ Agree σ h h' ∧ Agree σ t t' := by
  constructor
  · rintro ⟨v, ⟨a, w, ha, hw, rfl⟩, ⟨a', w', ha', hw', e⟩⟩
    injection e with e1 e2; subst e1 e2
    exact ⟨⟨a, ha, ha'⟩, w, hw, hw'⟩
  · rintro ⟨⟨a, ha, ha'⟩, w, hw, hw'⟩
    exact ⟨.cons a w, ⟨a, w, ha, hw, rfl⟩, a, w, ha', hw', rfl⟩

theorem agree_cons_tup {σ : Asg} {h t x : Term} {xs : List Term} :
    Agree σ (.cons h t) (.tup (x :: xs)) ↔ Agree σ h x ∧ Agree σ t (.tup xs) := by
  constructor
  · rintro ⟨v, ⟨a, w, ha, hw, rfl⟩, ⟨a', w', ha', hw', e⟩⟩
    injection e with e1 e2; subst e1 e2
    exact ⟨⟨a, ha, ha'⟩, w, hw, hw'⟩
  · rintro ⟨⟨a, ha, ha'⟩, w, hw, hw'⟩
    exact ⟨.cons a w, ⟨a, w, ha, hw, rfl⟩, a, w, ha', hw', rfl⟩

theorem consUnify_ok {c : Bool} {n : Nat} {rec : Term → Term → BSt → Res BSt Bool} (hr : RecOK c rec)
    {h t : Term} {r : Term} {b : BSt} (hsc : ScopeOK c b.scope)
    (hl : (Term.cons h t).Tame c) (ht : r.Tame c) (hc : Compat (.cons h t) r) :
    UOK c (fun σ => Agree σ (.cons h t) r) b (consUnify n rec h t r b) := by
  unfold consUnify
  refine UOK.lift fun r' e => ?_
  have i := evaluate_spec hsc ht e
  have hc' := hc.eval i e
  refine UOK.congr (g := fun σ => Agree σ (.cons h t) r') (fun σ hσ => agree_eval i hσ) ?_
  cases r' with
  | var y =>
    simp only
    exact UOK.congr (fun σ _ => Agree.symm) (varUnify_ok hr hsc hl hc'.symm)
  | wild => exact UOK.true hsc fun σ _ => hc'.agree_wild
  | tup xs =>
    have hty := i.tame
    simp at hl hty
    cases xs with
    | nil => exact UOK.false fun σ _ ⟨v, ⟨_, _, _, _, e⟩, h⟩ => by simp [Den, DenL] at h; simp [h] at e
    | cons x xs =>
      simp only [agree_cons_tup]
      have c1 : Compat h x ∧ Compat t (.tup xs) := by
        rcases hc' with hh | hh | hh <;> simp at hh
        · exact ⟨Or.inl ⟨hh.1.1, hh.2.1⟩, Or.inl ⟨hh.1.2, by simpa using hh.2.2⟩⟩
        · exact ⟨Or.inr (Or.inl hh.1), Or.inr (Or.inl hh.2)⟩
        · exact ⟨Or.inr (Or.inr hh.1), Or.inr (Or.inr (by simpa using hh.2))⟩
      exact UOK.and (hr h x b hsc hl.1 (hty x (by simp)) c1.1) fun b' _ hb' =>
        hr t (.tup xs) b' hb' hl.2 (by simp; intro y hy; exact hty y (by simp [hy])) c1.2
  | cons h' t' =>
    have hty := i.tame
    simp at hl hty
    simp only [agree_cons_cons]
    have c1 : Compat h h' ∧ Compat t t' := by
      rcases hc' with hh | hh | hh <;> simp at hh
      · exact ⟨Or.inl ⟨hh.1.1, hh.2.1⟩, Or.inl ⟨hh.1.2, hh.2.2⟩⟩
      · exact ⟨Or.inr (Or.inl hh.1), Or.inr (Or.inl hh.2)⟩
      · exact ⟨Or.inr (Or.inr hh.1), Or.inr (Or.inr hh.2)⟩
    exact UOK.and (hr h h' b hsc hl.1 hty.1 c1.1) fun b' _ hb' =>
      hr t t' b' hb' hl.2 hty.2 c1.2
  | bool => exact UOK.false fun σ _ ⟨v, ⟨_, _, _, _, e⟩, h⟩ => by simp [Den] at h; simp [h] at e
  | num => exact UOK.false fun σ _ ⟨v, ⟨_, _, _, _, e⟩, h⟩ => by simp [Den] at h; simp [h] at e
  | str => exact UOK.false fun σ _ ⟨v, ⟨_, _, _, _, e⟩, h⟩ => by simp [Den] at h; simp [h] at e
  | lit => exact UOK.false fun σ _ ⟨v, ⟨_, _, _, _, e⟩, ⟨_, _, h⟩⟩ => by simp [h] at e
  | un => exact absurd rfl ((evaluate_not_expr e).1 _ _)
  | bin => exact absurd rfl ((evaluate_not_expr e).2 _ _ _)

theorem exprUnify_ok {c : Bool} {n : Nat} {rec : Term → Term → BSt → Res BSt Bool} (hr : RecOK c rec)
    {l r : Term} {b : BSt} (hsc : ScopeOK c b.scope) (hl : l.Tame c) (ht : r.Tame c) (hc : Compat l r) :
    UOK c (fun σ => Agree σ l r) b ((Res.lift (evaluate n b.scope l) b).bind fun v b => rec v r b) := by
  refine UOK.lift fun l' e => ?_
  have i := evaluate_spec hsc hl e
  refine UOK.congr (fun σ hσ => ?_) (hr l' r b hsc i.tame ht (hc.symm.eval i e).symm)
  rw [Agree.symm, agree_eval i hσ, Agree.symm]

theorem methUnify_ok {c : Bool} {n : Nat} {rec : Term → Term → BSt → Res BSt Bool} (hr : RecOK c rec)
    {l r : Term} {b : BSt} (hsc : ScopeOK c b.scope) (hl : l.Tame c) (ht : r.Tame c) (hc : Compat l r) :
    UOK c (fun σ => Agree σ l r) b (methUnify n rec l r b) := by
  unfold methUnify
  split
  · exact varUnify_ok hr hsc ht hc
  · exact UOK.true hsc fun σ _ => Agree.symm.1 hc.symm.agree_wild
  · exact exprUnify_ok hr hsc hl ht hc
  · exact exprUnify_ok hr hsc hl ht hc
  · exact litUnify_ok hr hsc hl ht hc
  · exact consUnify_ok hr hsc hl ht hc
  · exact UOK.err

theorem plainUnify_ok {c : Bool} {rec : Term → Term → BSt → Res BSt Bool} (hr : RecOK c rec)
    {l r : Term} {b : BSt} (hsc : ScopeOK c b.scope) (hl : l.Tame c) (ht : r.Tame c) (hc : Compat l r)
    (h1 : l.isObj = false) (h2 : r.isObj = false) :
    UOK c (fun σ => Agree σ l r) b (plainUnify rec l r b) := by
  cases l <;> simp [Term.isObj] at h1 <;> cases r <;> simp [Term.isObj] at h2 <;> simp only [plainUnify]
  all_goals first
    | (refine UOK.decide hsc fun σ => ?_; simp [Agree, Den]; done)
    | (refine UOK.false fun σ _ ⟨v, h, h'⟩ => ?_; simp [Den] at h h'; subst h; simp at h'; done)
    | skip
  · refine UOK.false fun σ _ ⟨v, h, h'⟩ => ?_
    have := denL_isL h'; simp [Den] at h; subst h; simp [Val.IsL] at this
  · refine UOK.false fun σ _ ⟨v, h, h'⟩ => ?_
    have := denL_isL h'; simp [Den] at h; subst h; simp [Val.IsL] at this
  · refine UOK.false fun σ _ ⟨v, h, h'⟩ => ?_
    have := denL_isL h'; simp [Den] at h; subst h; simp [Val.IsL] at this
  · refine UOK.false fun σ _ ⟨v, h', h⟩ => ?_
    have := denL_isL h'; simp [Den] at h; subst h; simp [Val.IsL] at this
  · refine UOK.false fun σ _ ⟨v, h', h⟩ => ?_
    have := denL_isL h'; simp [Den] at h; subst h; simp [Val.IsL] at this
  · refine UOK.false fun σ _ ⟨v, h', h⟩ => ?_
    have := denL_isL h'; simp [Den] at h; subst h; simp [Val.IsL] at this
  · rename_i xs ys
    split
    · rename_i hh
      exact UOK.false fun σ _ ha => hh (agreeL_length ha)
    · rename_i hh
      simp at hh hl ht
      refine unifyAll_ok hr xs ys b hsc hl ht ?_ hh
      rcases hc with hh | hh | hh
      · simp at hh; exact Or.inl hh
      · simp at hh; exact Or.inr (Or.inl hh)
      · simp at hh; exact Or.inr (Or.inr hh)

theorem unify_ok {c : Bool} : ∀ n : Nat, RecOK c (unify n)
  | 0 => fun l r b _ _ _ _ => by simp only [unify]; exact UOK.oof
  | n + 1 => fun l r b hsc hl ht hc => by
    have ih := unify_ok (c := c) n
    rw [unify]
    split
    · exact methUnify_ok ih hsc hl ht hc
    · split
      · exact UOK.congr (fun σ _ => Agree.symm) (methUnify_ok ih hsc ht hl hc.symm)
      · rename_i h1 h2
        exact plainUnify_ok ih hsc hl ht hc (by simpa using h1) (by simpa using h2)

end Verif
