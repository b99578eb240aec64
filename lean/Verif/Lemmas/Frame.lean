import Verif.Lemmas.Fuel

/-! Unification does not look at the stack or the counter of choicepoints. -/

namespace Verif

/-- Apply a function to the state a computation leaves behind. -/
def Res.mapS {σ α : Type} (f : σ → σ) : Res σ α → Res σ α
  | .ok a s => .ok a (f s)
  | .err e s => .err e (f s)
  | .oof => .oof

@[simp] theorem Res.mapS_ok {σ α : Type} (f : σ → σ) (a : α) (s : σ) : (Res.ok a s).mapS f = .ok a (f s) := rfl
@[simp] theorem Res.mapS_err {σ α : Type} (f : σ → σ) (e : Err) (s : σ) : (Res.err e s : Res σ α).mapS f = .err e (f s) := rfl
@[simp] theorem Res.mapS_oof {σ α : Type} (f : σ → σ) : (Res.oof : Res σ α).mapS f = .oof := rfl

theorem Res.mapS_bind {σ α β : Type} {f : σ → σ} {x x' : Res σ α} {g : α → σ → Res σ β}
    (hx : x' = x.mapS f) (hg : ∀ a s, g a (f s) = (g a s).mapS f) : x'.bind g = (x.bind g).mapS f := by
  subst hx
  cases x with
  | ok a s => exact hg a s
  | _ => rfl

theorem Res.mapS_lift {σ α : Type} {f : σ → σ} {x : Ev α} {s : σ} :
    Res.lift x (f s) = (Res.lift x s).mapS f := by cases x <;> rfl

/-- The same scope on top of another stack, with another counter. -/
def BSt.on (s : List Entry) (k : Nat) (b : BSt) : BSt := ⟨b.scope, b.stack ++ s, k⟩

section
variable {s : List Entry} {k : Nat}

theorem bindVar_on (x : VarId) (t : Term) (b : BSt) : bindVar x t (b.on s k) = (bindVar x t b).mapS (BSt.on s k) := by
  unfold bindVar
  cases t <;> simp only [BSt.on] <;> (try split) <;> (try split) <;> simp [BSt.on] <;> split <;> simp_all [BSt.on]

/-- `f` does not look at the stack. -/
def OnOK (f : Term → Term → BSt → Res BSt Bool) (s : List Entry) (k : Nat) : Prop :=
  ∀ l r b, f l r (b.on s k) = (f l r b).mapS (BSt.on s k)

theorem unifyAll_on {f : Term → Term → BSt → Res BSt Bool} (hf : OnOK f s k) : ∀ (ls rs : List Term) (b : BSt),
    unifyAll f ls rs (b.on s k) = (unifyAll f ls rs b).mapS (BSt.on s k)
  | [], _, _ => rfl
  | _ :: _, [], _ => rfl
  | l :: ls, r :: rs, b => by
    unfold unifyAll
    refine Res.mapS_bind (hf l r b) fun a b => ?_
    cases a
    · rfl
    · exact unifyAll_on hf ls rs b

variable [Arith]

theorem varUnify_on {n : Nat} {f : Term → Term → BSt → Res BSt Bool} (hf : OnOK f s k) (x : VarId) (r : Term) (b : BSt) :
    varUnify n f x r (b.on s k) = (varUnify n f x r b).mapS (BSt.on s k) := by
  unfold varUnify
  have : (b.on s k).scope = b.scope := rfl
  rw [this]
  split
  · exact Res.mapS_bind Res.mapS_lift fun a b => hf _ _ _
  · split
    · rfl
    · exact Res.mapS_bind Res.mapS_lift fun a b => Res.mapS_bind (bindVar_on _ _ _) fun _ _ => rfl

theorem litUnify_on {n : Nat} {f : Term → Term → BSt → Res BSt Bool} (hf : OnOK f s k) (g : String) (as xs : List Term)
    (r : Term) (b : BSt) : litUnify n f g as xs r (b.on s k) = (litUnify n f g as xs r b).mapS (BSt.on s k) := by
  unfold litUnify
  have : (b.on s k).scope = b.scope := rfl
  rw [this]
  refine Res.mapS_bind Res.mapS_lift fun r b => ?_
  split
  · exact varUnify_on hf _ _ _
  · rfl
  · split
    · rfl
    · split
      · rfl
      · exact unifyAll_on hf _ _ _
  · rfl

omit [Arith] in
theorem and_on {f : Term → Term → BSt → Res BSt Bool} (hf : OnOK f s k) (l r l' r' : Term) (b : BSt) :
    ((f l r (b.on s k)).bind fun ok b => if ok then f l' r' b else .ok false b) =
      ((f l r b).bind fun ok b => if ok then f l' r' b else .ok false b).mapS (BSt.on s k) := by
  refine Res.mapS_bind (hf l r b) fun a b => ?_
  cases a
  · rfl
  · exact hf l' r' b

theorem methUnify_on {n : Nat} {f : Term → Term → BSt → Res BSt Bool} (hf : OnOK f s k) (l r : Term) (b : BSt) :
    methUnify n f l r (b.on s k) = (methUnify n f l r b).mapS (BSt.on s k) := by
  have hs : (b.on s k).scope = b.scope := rfl
  cases l with
  | var => exact varUnify_on hf _ _ _
  | wild => rfl
  | un => exact Res.mapS_bind (by rw [hs]; exact Res.mapS_lift) fun a b => hf _ _ _
  | bin => exact Res.mapS_bind (by rw [hs]; exact Res.mapS_lift) fun a b => hf _ _ _
  | lit => exact litUnify_on hf _ _ _ _ _
  | cons h t =>
    simp only [methUnify, consUnify, hs]
    refine Res.mapS_bind Res.mapS_lift fun r b => ?_
    split
    · exact varUnify_on hf _ _ _
    · rfl
    · rfl
    · exact and_on hf _ _ _ _ _
    · exact and_on hf _ _ _ _ _
    · rfl
  | _ => rfl

omit [Arith] in
theorem plainUnify_on {f : Term → Term → BSt → Res BSt Bool} (hf : OnOK f s k) (l r : Term) (b : BSt) :
    plainUnify f l r (b.on s k) = (plainUnify f l r b).mapS (BSt.on s k) := by
  unfold plainUnify
  split
  · rfl
  · split
    · rfl
    · exact unifyAll_on hf _ _ _
  all_goals rfl

theorem unify_on : ∀ n : Nat, OnOK (unify n) s k
  | 0, _, _, _ => rfl
  | n + 1, l, r, b => by
    have ih := unify_on n
    unfold unify
    split
    · exact methUnify_on ih _ _ _
    · split
      · exact methUnify_on ih _ _ _
      · exact plainUnify_on ih _ _ _

/-- Two states with the same scope: the same answer and the same scope afterwards. -/
theorem unify_scope_only {n : Nat} {l r : Term} {b b₁ b' : BSt} {a : Bool} (hs : b.scope = b₁.scope)
    (h : unify n l r b = .ok a b') : ∃ b₁', unify n l r b₁ = .ok a b₁' ∧ b₁'.scope = b'.scope ∧ b₁'.ncp = b₁.ncp := by
  have e : ∀ b : BSt, b = BSt.on b.stack b.ncp ⟨b.scope, [], 0⟩ := fun b => by simp [BSt.on]
  have h1 := unify_on (s := b.stack) (k := b.ncp) n l r ⟨b.scope, [], 0⟩
  have h2 := unify_on (s := b₁.stack) (k := b₁.ncp) n l r ⟨b₁.scope, [], 0⟩
  rw [← e] at h1 h2
  rw [h] at h1
  rw [← hs] at h2
  cases h0 : unify n l r ⟨b.scope, [], 0⟩ with
  | oof => simp [h0] at h1
  | err => simp [h0] at h1
  | ok a' b0 =>
    simp [h0] at h1 h2
    obtain ⟨rfl, rfl⟩ := h1
    exact ⟨_, h2, rfl, rfl⟩

end

end Verif
