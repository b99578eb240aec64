import Verif.Lemmas.SafeFit
import Verif.Lemmas.QLogic

/-! Ground bindings of new variables have a model. -/

namespace Verif

section
variable [Arith]

/-- What is bound apart from `sc₀`: only variables of `S`, which are not below `m`, to terms over `S` and ground
variables of `sc₀`. -/
structure Neat (c : Bool) (m : Nat) (O : Term → Prop) (sc₀ : Scope) (S : VarId → Prop) (sc : Scope) : Prop where
  ok : ScopeOK c sc
  new : ∀ x, S x → m ≤ x
  old : ∀ x, ¬ S x → sc x = sc₀ x
  fit : ∀ x t, S x → sc x = some t → t.Fit (fun x => S x ∨ GroundIn false sc₀ (.var x)) O

omit [Arith] in
mutual
theorem Term.Fit.mono {D D' : VarId → Prop} {O O' : Term → Prop} (hD : ∀ x, D x → D' x) (hO : ∀ t, O t → O' t) :
    ∀ {t : Term}, t.Fit D O → t.Fit D' O'
  | .bool _, _ | .num _, _ | .str _, _ | .wild, _ => trivial
  | .var x, h => hD x h
  | .lit _ _ _, h => ⟨trivial, Term.FitL.mono hD hO h.2⟩
  | .tup _, h => ⟨trivial, Term.FitL.mono hD hO h.2⟩
  | .cons _ _, h => ⟨trivial, Term.Fit.mono hD hO h.2.1, Term.Fit.mono hD hO h.2.2⟩
  | .un _ _, h => ⟨hO _ h.1, Term.Fit.mono hD hO h.2⟩
  | .bin _ _ _, h => ⟨hO _ h.1, Term.Fit.mono hD hO h.2.1, Term.Fit.mono hD hO h.2.2⟩
theorem Term.FitL.mono {D D' : VarId → Prop} {O O' : Term → Prop} (hD : ∀ x, D x → D' x) (hO : ∀ t, O t → O' t) :
    ∀ {ts : List Term}, Term.EveryL (fun t =>
      match t with
      | .var x => D x
      | .un op t => O (.un op t)
      | .bin op l r => O (.bin op l r)
      | _ => True) ts → Term.EveryL (fun t =>
      match t with
      | .var x => D' x
      | .un op t => O' (.un op t)
      | .bin op l r => O' (.bin op l r)
      | _ => True) ts
  | [], _ => trivial
  | _ :: _, h => ⟨Term.Fit.mono hD hO h.1, Term.FitL.mono hD hO h.2⟩
end

omit [Arith] in
mutual
theorem Term.Plain.fit {D : VarId → Prop} {O : Term → Prop} : ∀ {t : Term}, t.Plain → t.Over D → t.Fit D O
  | .bool _, _, _ | .num _, _, _ | .str _, _, _ | .wild, _, _ => trivial
  | .var _, _, h => h
  | .lit _ _ _, p, h => ⟨trivial, Term.PlainL.fit p.2 h.2⟩
  | .tup _, p, h => ⟨trivial, Term.PlainL.fit p.2 h.2⟩
  | .cons _ _, p, h => ⟨trivial, Term.Plain.fit p.2.1 h.2.1, Term.Plain.fit p.2.2 h.2.2⟩
  | .un _ _, p, _ => nomatch p.1
  | .bin _ _ _, p, _ => nomatch p.1
theorem Term.PlainL.fit {D : VarId → Prop} {O : Term → Prop} : ∀ {ts : List Term}, Term.EveryL (fun t => t.isOp = false) ts →
    Term.EveryL (fun t => match t with | .var x => D x | _ => True) ts → Term.EveryL (fun t =>
      match t with
      | .var x => D x
      | .un op t => O (.un op t)
      | .bin op l r => O (.bin op l r)
      | _ => True) ts
  | [], _, _ => trivial
  | _ :: _, p, h => ⟨Term.Plain.fit p.1 h.1, Term.PlainL.fit p.2 h.2⟩
end

omit [Arith] in
mutual
theorem Term.Closed.plain : ∀ {t : Term}, t.Closed → t.Plain
  | .bool _, _ | .num _, _ | .str _, _ => by simp [Term.Plain, Term.Every, Term.isOp]
  | .lit _ _ _, h | .tup _, h => ⟨rfl, Term.Closed.plainL h.2⟩
  | .cons _ _, h => ⟨rfl, Term.Closed.plain h.2.1, Term.Closed.plain h.2.2⟩
  | .un _ _, h | .bin _ _ _, h => h.1.elim
  | .var _, h | .wild, h => False.elim h
theorem Term.Closed.plainL : ∀ {ts : List Term}, Term.EveryL (fun t =>
    match t with
    | .var _ | .wild | .un _ _ | .bin _ _ _ => False
    | _ => True) ts → Term.EveryL (fun t => t.isOp = false) ts
  | [], _ => trivial
  | _ :: _, h => ⟨Term.Closed.plain h.1, Term.Closed.plainL h.2⟩
end

/-- Operations that have a value. -/
def HasVal (m : Nat) (σ : Asg) (u : Term) : Prop := u.bound ≤ m ∧ ∃ v, Den σ u v

mutual
/-- Terms that have a value. -/
theorem fit_of_den {m : Nat} {σ : Asg} {D : VarId → Prop} : ∀ {t : Term}, t.Over D → t.bound ≤ m → (∃ v, Den σ t v) → t.Fit D (HasVal m σ)
  | .bool _, _, _, _ | .num _, _, _, _ | .str _, _, _, _ | .wild, _, _, _ => trivial
  | .var x, h, _, _ => h
  | .lit _ _ _, h, hb, hv => ⟨trivial, fitL_of_den h.2 (by simp only [Term.bound, Nat.max_le] at hb; exact hb.1) (by
      obtain ⟨_, w, hw, _⟩ := hv; exact ⟨w, hw⟩)⟩
  | .tup _, h, hb, hv => ⟨trivial, fitL_of_den h.2 (by simpa only [Term.bound] using hb) hv⟩
  | .cons _ _, h, hb, hv => by
    simp only [Term.bound, Nat.max_le] at hb
    obtain ⟨_, a, w, h1, h2, _⟩ := hv
    exact ⟨trivial, fit_of_den h.2.1 hb.1 ⟨a, h1⟩, fit_of_den h.2.2 hb.2 ⟨w, h2⟩⟩
  | .un _ _, h, hb, hv => by
    obtain ⟨v, a, h1, h2⟩ := hv
    exact ⟨⟨hb, v, a, h1, h2⟩, fit_of_den h.2 (by simpa only [Term.bound] using hb) ⟨a, h1⟩⟩
  | .bin _ _ _, h, hb, hv => by
    obtain ⟨v, a, w, h1, h2, h3⟩ := hv
    have hb' := hb
    simp only [Term.bound, Nat.max_le] at hb'
    exact ⟨⟨hb, v, a, w, h1, h2, h3⟩, fit_of_den h.2.1 hb'.1 ⟨a, h1⟩, fit_of_den h.2.2 hb'.2 ⟨w, h2⟩⟩
theorem fitL_of_den {m : Nat} {σ : Asg} {D : VarId → Prop} : ∀ {ts : List Term},
    Term.EveryL (fun t => match t with | .var x => D x | _ => True) ts → Term.boundL ts ≤ m → (∃ v, DenL σ ts v) → Term.EveryL (fun t =>
      match t with
      | .var x => D x
      | .un op t => HasVal m σ (.un op t)
      | .bin op l r => HasVal m σ (.bin op l r)
      | _ => True) ts
  | [], _, _, _ => trivial
  | _ :: _, h, hb, hv => by
    simp only [Term.boundL, Nat.max_le] at hb
    obtain ⟨_, a, w, h1, h2, _⟩ := hv
    exact ⟨fit_of_den h.1 hb.1 ⟨a, h1⟩, fitL_of_den h.2 hb.2 ⟨w, h2⟩⟩
end

section
variable {c : Bool} {m : Nat} {O : Term → Prop} {sc₀ : Scope} {S : VarId → Prop}

omit [Arith] in
/-- Binding preserves `Neat`. -/
theorem binds_neat (hO : ∀ x t, GroundIn false sc₀ (.var x) → sc₀ x = some t → t.Fit (fun x => GroundIn false sc₀ (.var x)) O) :
    Binds (fun x => S x ∨ GroundIn false sc₀ (.var x)) O fun sc =>
      (∀ x, ¬ S x → sc x = sc₀ x) ∧ ∀ x t, S x → sc x = some t → t.Fit (fun x => S x ∨ GroundIn false sc₀ (.var x)) O where
  get := by
    intro sc x t h hx ht
    by_cases hS : S x
    · exact h.2 x t hS ht
    · have hg := hx.resolve_left hS
      rw [h.1 x hS] at ht
      exact Term.Fit.mono (fun _ h => .inr h) (fun _ h => h) (hO x t hg ht)
  set := by
    intro sc x t h hx hn ht
    have hS : S x := by
      refine hx.elim id fun hg => Classical.byContradiction fun hS => ?_
      rw [h.1 x hS] at hn
      cases hg with
      | var h1 => rw [hn] at h1; cases h1
    refine ⟨fun y hy => ?_, fun y u hy hu => ?_⟩
    · have : y ≠ x := by rintro rfl; exact hy hS
      simp only [Scope.set, if_neg this, h.1 y hy]
    · simp only [Scope.set] at hu
      split at hu
      · cases hu; exact ht
      · exact h.2 y u hy hu

variable {sc₁ : Scope} {σ : Asg}

open Classical in
/-- Approximations of the values of the new variables. -/
noncomputable def approx (σ : Asg) (S : VarId → Prop) (sc : Scope) : Nat → Asg
  | 0 => σ
  | n + 1 => fun x => if S x then
      match sc x with
      | some u => if h : ∃ v, Den (approx σ S sc n) u v then h.choose else σ x
      | none => σ x
    else σ x

theorem approx_old {n : Nat} {x : VarId} (hx : ¬ S x) : approx σ S sc₁ n x = σ x := by
  cases n with
  | zero => rfl
  | succ n => simp only [approx, if_neg hx]

theorem approx_new {n : Nat} {x : VarId} {u : Term} {v : Val} (hx : S x) (hu : sc₁ x = some u) (hw : u.NoWild)
    (h : Den (approx σ S sc₁ n) u v) : approx σ S sc₁ (n + 1) x = v := by
  have h' : ∃ v, Den (approx σ S sc₁ n) u v := ⟨v, h⟩
  simp only [approx, if_pos hx, hu, dif_pos h']
  exact den_unique u hw _ _ h'.choose_spec h

theorem approx_list {τ : Nat → Asg} : ∀ {ts : List Term}, (∀ t ∈ ts, ∃ v N, ∀ n, N ≤ n → Den (τ n) t v) →
    ∃ v N, ∀ n, N ≤ n → DenL (τ n) ts v
  | [], _ => ⟨.nil, 0, fun _ _ => rfl⟩
  | t :: ts, h => by
    obtain ⟨v, N, h1⟩ := h t (by simp)
    obtain ⟨w, M, h2⟩ := approx_list (τ := τ) (ts := ts) fun t ht => h t (by simp [ht])
    exact ⟨.cons v w, max N M, fun n hn => ⟨v, w, h1 n (by omega), h2 n (by omega), rfl⟩⟩

/-- The values become stable. -/
theorem approx_stable (hn : Neat c m (HasVal m σ) sc₀ S sc₁) {t : Term} (h : GroundIn false sc₁ t)
    (hf : t.Fit (fun x => S x ∨ GroundIn false sc₀ (.var x)) (HasVal m σ)) : ∃ v N, ∀ n, N ≤ n → Den (approx σ S sc₁ n) t v := by
  have eqb : ∀ n, EqBelow m σ (approx σ S sc₁ n) := fun n x hx =>
    (approx_old fun hS => by have := hn.new x hS; omega).symm
  induction h with
  | bool => exact ⟨_, 0, fun _ _ => rfl⟩
  | num => exact ⟨_, 0, fun _ _ => rfl⟩
  | str => exact ⟨_, 0, fun _ _ => rfl⟩
  | wild h => cases h
  | @var x t hx _ ih =>
    by_cases hS : S x
    · obtain ⟨v, N, hv⟩ := ih (hn.fit x t hS hx)
      refine ⟨v, N + 1, fun n hN => ?_⟩
      cases n with
      | zero => omega
      | succ n => exact (approx_new hS hx (hn.ok x t hx).1 (hv n (by omega))).symm
    · exact ⟨σ x, 0, fun n _ => (approx_old hS).symm⟩
  | lit _ ih =>
    obtain ⟨v, N, h⟩ := approx_list (τ := approx σ S sc₁) fun t ht => ih t ht (Term.fit_lit hf t ht)
    exact ⟨_, N, fun n hN => ⟨v, h n hN, rfl⟩⟩
  | tup _ ih => exact approx_list (τ := approx σ S sc₁) fun t ht => ih t ht (Term.fit_tup.1 hf t ht)
  | cons _ _ ih1 ih2 =>
    obtain ⟨v, N, h1⟩ := ih1 hf.2.1
    obtain ⟨w, M, h2⟩ := ih2 hf.2.2
    exact ⟨_, max N M, fun n hN => ⟨v, w, h1 n (by omega), h2 n (by omega), rfl⟩⟩
  | un _ _ =>
    obtain ⟨hb, v, hv⟩ := hf.1
    exact ⟨v, 0, fun n _ => (den_congr _ (EqBelow.mono (eqb n) hb) v).1 hv⟩
  | bin _ _ _ _ =>
    obtain ⟨hb, v, hv⟩ := hf.1
    exact ⟨v, 0, fun n _ => (den_congr _ (EqBelow.mono (eqb n) hb) v).1 hv⟩

open Classical in
/-- If all new variables are bound to ground terms then the bindings have a model that agrees
with a given one for the old bindings. -/
theorem neat_models (hn : Neat c m (HasVal m σ) sc₀ S sc₁) (hg : ∀ x, S x → GroundIn false sc₁ (.var x)) (hσ : Models σ sc₀)
    (hb : ScopeBelow m sc₀) : ∃ τ, EqBelow m σ τ ∧ Models τ sc₁ := by
  have st : ∀ x, ∃ v N, ∀ n, N ≤ n → approx σ S sc₁ n x = v := by
    intro x
    by_cases hS : S x
    · obtain ⟨v, N, h⟩ := approx_stable hn (hg x hS) (.inl hS)
      exact ⟨v, N, fun n hN => (h n hN).symm⟩
    · exact ⟨σ x, 0, fun n _ => approx_old hS⟩
  let τ : Asg := fun x => (st x).choose
  have hτ : ∀ x, ∃ N, ∀ n, N ≤ n → approx σ S sc₁ n x = τ x := fun x => (st x).choose_spec
  have hk : ∀ k, ∃ N, ∀ n, N ≤ n → EqBelow k (approx σ S sc₁ n) τ := by
    intro k
    induction k with
    | zero => exact ⟨0, fun n _ x hx => by omega⟩
    | succ k ih =>
      obtain ⟨N, h1⟩ := ih
      obtain ⟨M, h2⟩ := hτ k
      refine ⟨max N M, fun n hN x hx => ?_⟩
      by_cases e : x = k
      · subst e; exact h2 n (by omega)
      · exact h1 n (by omega) x (by omega)
  have old : ∀ x, ¬ S x → τ x = σ x := by
    intro x hS
    obtain ⟨N, h⟩ := hτ x
    rw [← h N (Nat.le_refl _), approx_old hS]
  have eqb : EqBelow m σ τ := fun x hx => (old x fun hS => by have := hn.new x hS; omega).symm
  refine ⟨τ, eqb, fun x u hu => ?_⟩
  by_cases hS : S x
  · have hgu : GroundIn false sc₁ u := by
      cases hg x hS with
      | var h1 h2 => rw [hu] at h1; cases h1; exact h2
    obtain ⟨v, N, h1⟩ := approx_stable hn hgu (hn.fit x u hS hu)
    obtain ⟨M, h2⟩ := hk u.bound
    obtain ⟨K, h3⟩ := hτ x
    have e1 := h1 (max N (max M K)) (by omega)
    have e2 := (den_congr u (h2 (max N (max M K)) (by omega)) v).1 e1
    have e3 := approx_new hS hu (hn.ok x u hu).1 e1
    rw [← h3 (max N (max M K) + 1) (by omega), e3]
    exact e2
  · rw [hn.old x hS] at hu
    obtain ⟨i1, i2⟩ := hb x u hu
    rw [← eqb x i1]
    exact (den_congr u (eqb.mono i2) _).1 (hσ x u hu)

end

end

end Verif
