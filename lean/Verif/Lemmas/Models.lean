import Verif.Lemmas.Terminate

/-! Every acyclic scope has a model. -/

namespace Verif

mutual
/-- The value of an expression- and wildcard-free term under an assignment. -/
def Term.inst (σ : Asg) : Term → Val
  | .bool b => .bool b
  | .num q => .num q
  | .str s => .str s
  | .lit f args _ => .app f (Term.instL σ args)
  | .tup xs => Term.instL σ xs
  | .cons h t => .cons (Term.inst σ h) (Term.inst σ t)
  | .var x => σ x
  | _ => .nil
def Term.instL (σ : Asg) : List Term → Val
  | [] => .nil
  | t :: ts => .cons (Term.inst σ t) (Term.instL σ ts)
end

theorem Term.instL_congr {σ τ : Asg} : ∀ {ts : List Term}, (∀ t ∈ ts, t.inst σ = t.inst τ) →
    Term.instL σ ts = Term.instL τ ts
  | [], _ => rfl
  | t :: ts, h => by
    simp only [Term.instL]
    rw [h t (by simp), Term.instL_congr fun t ht => h t (by simp [ht])]

theorem Term.inst_congr {σ τ : Asg} : ∀ t : Term, (∀ y, t.HasVar y → σ y = τ y) → t.inst σ = t.inst τ := by
  intro t
  induction t using Term.ind with
  | lit f as xs ih _ =>
    intro h
    simp only [Term.inst]
    rw [Term.instL_congr fun t ht => ih t ht fun y hy => h y (by simp [Term.HasVar, Term.hasVarL_iff]; exact ⟨t, ht, hy⟩)]
  | tup xs ih =>
    intro h
    simp only [Term.inst]
    rw [Term.instL_congr fun t ht => ih t ht fun y hy => h y (by simp [Term.HasVar, Term.hasVarL_iff]; exact ⟨t, ht, hy⟩)]
  | cons h t i1 i2 =>
    intro h
    simp only [Term.inst]
    rw [i1 fun y hy => h y (Or.inl hy), i2 fun y hy => h y (Or.inr hy)]
  | var x => intro h; exact h x rfl
  | _ => intro _; rfl

variable [Arith]

theorem den_instL {σ : Asg} : ∀ {ts : List Term}, (∀ t ∈ ts, Den σ t (t.inst σ)) → DenL σ ts (Term.instL σ ts)
  | [], _ => rfl
  | t :: ts, h => ⟨_, _, h t (by simp), den_instL fun t ht => h t (by simp [ht]), rfl⟩

theorem den_inst {σ : Asg} : ∀ t : Term, t.NoExpr → t.NoWild → Den σ t (t.inst σ) := by
  intro t
  induction t using Term.ind with
  | lit f as xs ih _ =>
    intro h1 h2
    simp at h1 h2
    exact ⟨_, den_instL fun t ht => ih t ht (h1 t ht) (h2 t ht), rfl⟩
  | tup xs ih =>
    intro h1 h2
    simp at h1 h2
    exact den_instL fun t ht => ih t ht (h1 t ht) (h2 t ht)
  | cons h t i1 i2 =>
    intro h1 h2
    simp at h1 h2
    exact ⟨_, _, i1 h1.1 h2.1, i2 h1.2 h2.2, rfl⟩
  | wild => simp
  | un => simp
  | bin => simp
  | _ => intros; rfl

open Classical in
/-- The assignment obtained by replacing bound variables by their values. -/
noncomputable def modelOf {sc : Scope} (hac : Acyclic sc) : Asg :=
  hac.fix fun x rec =>
    match sc x with
    | none => .nil
    | some t => t.inst fun y => if h : Dep sc y x then rec y h else .nil

theorem modelOf_models {sc : Scope} (hac : Acyclic sc) (h1 : ScopeNoExpr sc)
    (h2 : ∀ x t, sc x = some t → t.NoWild) : Models (modelOf hac) sc := by
  intro x t hx
  have e : modelOf hac x = t.inst (modelOf hac) := by
    unfold modelOf
    rw [WellFounded.fix_eq]
    simp only [hx]
    apply Term.inst_congr
    intro y hy
    have : Dep sc y x := ⟨t, hx, hy⟩
    simp [this]
  rw [e]
  exact den_inst t (h1 x t hx) (h2 x t hx)

/-! ## Bindings made while unifying with a closed term -/

/-- New bindings are closed. -/
def NewClosed (b b' : BSt) : Prop := ∀ x t, b'.scope x = some t → b.scope x = some t ∨ t.Closed

omit [Arith] in
theorem NewClosed.refl (b : BSt) : NewClosed b b := fun _ _ h => Or.inl h

omit [Arith] in
theorem NewClosed.trans {a b c : BSt} (h : NewClosed a b) (h' : NewClosed b c) : NewClosed a c := by
  intro x t hx
  rcases h' x t hx with h' | h'
  · exact h x t h'
  · exact Or.inr h'

omit [Arith] in
theorem bindVar_newClosed {x : VarId} {t : Term} {b b' : BSt} (ht : t.Closed) (h : (bindVar x t b).leaves b') :
    NewClosed b b' := by
  have key : ∀ b', (match b.scope x with
      | some _ => (.err (.py "RuntimeError") b : Res BSt Unit)
      | none => .ok () { b with scope := b.scope.set x t, stack := .v x :: b.stack }).leaves b' → NewClosed b b' := by
    intro b' h
    cases hx : b.scope x with
    | some u => simp [hx] at h; subst h; exact NewClosed.refl _
    | none =>
      simp [hx] at h; subst h
      intro y u hy
      simp only [Scope.set] at hy
      split at hy
      · simp at hy; subst hy; exact Or.inr ht
      · exact Or.inl hy
  unfold bindVar at h
  split at h
  · simp at ht
  · exact key b' h

/-- Specification of the recursive calls. -/
def RecNC (f : Term → Term → BSt → Res BSt Bool) : Prop :=
  ∀ l r b b', (l.Closed ∨ r.Closed) → (f l r b).leaves b' → NewClosed b b'

omit [Arith] in
theorem unifyAll_nc {f : Term → Term → BSt → Res BSt Bool} (hf : RecNC f) :
    ∀ ls rs b b', ((∀ l ∈ ls, l.Closed) ∨ (∀ r ∈ rs, r.Closed)) → (unifyAll f ls rs b).leaves b' → NewClosed b b'
  | [], [], b, b', _, h => by simp [unifyAll] at h; subst h; exact NewClosed.refl _
  | [], _ :: _, b, b', _, h => by simp [unifyAll] at h; subst h; exact NewClosed.refl _
  | _ :: _, [], b, b', _, h => by simp [unifyAll] at h; subst h; exact NewClosed.refl _
  | l :: ls, r :: rs, b, b', hc, h => by
    have hc1 : l.Closed ∨ r.Closed := hc.imp (fun h => h l (by simp)) (fun h => h r (by simp))
    have hc2 : (∀ l ∈ ls, l.Closed) ∨ (∀ r ∈ rs, r.Closed) :=
      hc.imp (fun h l hl => h l (by simp [hl])) (fun h r hr => h r (by simp [hr]))
    rw [unifyAll, Res.leaves_bind] at h
    rcases h with ⟨e, h⟩ | ⟨a, s, h, h'⟩
    · exact hf l r b b' hc1 (Or.inr ⟨e, h⟩)
    · have g := hf l r b s hc1 (Or.inl ⟨a, h⟩)
      cases a with
      | true => exact g.trans (unifyAll_nc hf ls rs s b' hc2 (by simpa using h'))
      | false => simp at h'; subst h'; exact g

theorem varUnify_nc {n : Nat} {f : Term → Term → BSt → Res BSt Bool} (hf : RecNC f)
    {x : VarId} {r : Term} {b b' : BSt} (hc : r.Closed) (h : (varUnify n f x r b).leaves b') : NewClosed b b' := by
  unfold varUnify at h
  split at h
  · rw [Res.leaves_bind] at h
    rcases h with ⟨e, h⟩ | ⟨a, s, h, h'⟩
    · rw [Res.leaves_lift (Or.inr ⟨e, h⟩)]; exact NewClosed.refl _
    · rw [Res.leaves_lift (Or.inl ⟨a, h⟩)]; exact hf _ _ _ _ (Or.inr hc) h'
  · split at h
    · simp at h; subst h; exact NewClosed.refl _
    · rw [Res.leaves_bind] at h
      rcases h with ⟨e, h⟩ | ⟨a, s, h, h'⟩
      · rw [Res.leaves_lift (Or.inr ⟨e, h⟩)]; exact NewClosed.refl _
      · rw [Res.leaves_lift (Or.inl ⟨a, h⟩)]
        have := evaluate_closed hc (Res.lift_eq_ok.1 h).1; subst this
        rw [Res.leaves_bind] at h'
        rcases h' with ⟨e, h'⟩ | ⟨_, s', h', h''⟩
        · exact bindVar_newClosed hc (Or.inr ⟨e, h'⟩)
        · simp at h''; subst h''; exact bindVar_newClosed hc (Or.inl ⟨_, h'⟩)

omit [Arith] in
theorem and_nc {f : Term → Term → BSt → Res BSt Bool} (hf : RecNC f) {l r l' r' : Term} {b b' : BSt}
    (hc : (l.Closed ∧ l'.Closed) ∨ (r.Closed ∧ r'.Closed))
    (h : ((f l r b).bind fun ok b => if ok then f l' r' b else .ok false b).leaves b') : NewClosed b b' := by
  rw [Res.leaves_bind] at h
  rcases h with ⟨e, h⟩ | ⟨a, s, h, h'⟩
  · exact hf _ _ _ _ (hc.imp And.left And.left) (Or.inr ⟨e, h⟩)
  · have g := hf l r b s (hc.imp And.left And.left) (Or.inl ⟨a, h⟩)
    cases a with
    | true => exact g.trans (hf _ _ _ _ (hc.imp And.right And.right) (by simpa using h'))
    | false => simp at h'; subst h'; exact g

theorem methUnify_nc {n : Nat} {f : Term → Term → BSt → Res BSt Bool} (hf : RecNC f) {l r : Term} {b b' : BSt}
    (hc : l.Closed ∨ r.Closed) (h : (methUnify n f l r b).leaves b') : NewClosed b b' := by
  unfold methUnify at h
  split at h
  · exact varUnify_nc hf (by simpa using hc) h
  · simp at h; subst h; exact NewClosed.refl _
  · simp at hc
    rw [Res.leaves_bind] at h
    rcases h with ⟨e, h⟩ | ⟨a, s, h, h'⟩
    · rw [Res.leaves_lift (Or.inr ⟨e, h⟩)]; exact NewClosed.refl _
    · rw [Res.leaves_lift (Or.inl ⟨a, h⟩)]; exact hf _ _ _ _ (Or.inr hc) h'
  · simp at hc
    rw [Res.leaves_bind] at h
    rcases h with ⟨e, h⟩ | ⟨a, s, h, h'⟩
    · rw [Res.leaves_lift (Or.inr ⟨e, h⟩)]; exact NewClosed.refl _
    · rw [Res.leaves_lift (Or.inl ⟨a, h⟩)]; exact hf _ _ _ _ (Or.inr hc) h'
  · unfold litUnify at h
    rw [Res.leaves_bind] at h
    rcases h with ⟨e, h⟩ | ⟨a, s, h, h'⟩
    · rw [Res.leaves_lift (Or.inr ⟨e, h⟩)]; exact NewClosed.refl _
    · rw [Res.leaves_lift (Or.inl ⟨a, h⟩)]
      have hc' := hc.imp_right fun hc => (evaluate_closed hc (Res.lift_eq_ok.1 h).1).symm ▸ hc
      split at h'
      · simp at hc'; exact varUnify_nc hf (by simpa using hc') h'
      · simp at h'; subst h'; exact NewClosed.refl _
      · split at h'
        · simp at h'; subst h'; exact NewClosed.refl _
        · split at h'
          · simp at h'; subst h'; exact NewClosed.refl _
          · exact unifyAll_nc hf _ _ _ _ (by simpa using hc') h'
      · simp at h'; subst h'; exact NewClosed.refl _
  · unfold consUnify at h
    rw [Res.leaves_bind] at h
    rcases h with ⟨e, h⟩ | ⟨a, s, h, h'⟩
    · rw [Res.leaves_lift (Or.inr ⟨e, h⟩)]; exact NewClosed.refl _
    · rw [Res.leaves_lift (Or.inl ⟨a, h⟩)]
      have hc' := hc.imp_right fun hc => (evaluate_closed hc (Res.lift_eq_ok.1 h).1).symm ▸ hc
      split at h'
      · simp at hc'; exact varUnify_nc hf (by simpa using hc') h'
      · simp at h'; subst h'; exact NewClosed.refl _
      · simp at h'; subst h'; exact NewClosed.refl _
      · exact and_nc hf (by simpa using hc') h'
      · exact and_nc hf (by simpa using hc') h'
      · simp at h'; subst h'; exact NewClosed.refl _
  · simp at h; subst h; exact NewClosed.refl _

theorem unify_newClosed : ∀ n, RecNC (unify n)
  | 0 => fun l r b b' _ h => by simp [unify] at h
  | n + 1 => fun l r b b' hc h => by
    have ih := unify_newClosed n
    rw [unify] at h
    split at h
    · exact methUnify_nc ih hc h
    · split at h
      · exact methUnify_nc ih hc.symm h
      · unfold plainUnify at h
        split at h
        · simp at h; subst h; exact NewClosed.refl _
        · split at h
          · simp at h; subst h; exact NewClosed.refl _
          · exact unifyAll_nc ih _ _ _ _ (by simpa using hc) h
        · simp at h; subst h; exact NewClosed.refl _
        · simp at h; subst h; exact NewClosed.refl _
        · simp at h; subst h; exact NewClosed.refl _

end Verif
