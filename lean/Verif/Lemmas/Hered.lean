import Verif.Lemmas.Rename
import Verif.Lemmas.QTrail

/-! Unification only stores terms built from what it was given: a predicate that is
inherited by subterms is preserved by scopes. -/

namespace Verif

/-- `P` is inherited by subterms and holds of booleans and numbers. -/
structure Hered (P : Term → Prop) : Prop where
  bool : ∀ b, P (.bool b)
  num : ∀ q, P (.num q)
  lit : ∀ f as xs, P (.lit f as xs) → (∀ a ∈ as, P a) ∧ ∀ x ∈ xs, P x
  tup : ∀ x xs, P (.tup (x :: xs)) → P x ∧ P (.tup xs)
  cons : ∀ h t, P (.cons h t) → P h ∧ P t
  un : ∀ op t, P (.un op t) → P t
  bin : ∀ op l r, P (.bin op l r) → P l ∧ P r

theorem Hered.items {P : Term → Prop} (h : Hered P) : ∀ {xs : List Term}, P (.tup xs) → ∀ x ∈ xs, P x
  | [], _, x, hx => by simp at hx
  | y :: ys, hp, x, hx => by
    have := h.tup y ys hp
    rcases List.mem_cons.1 hx with rfl | hx
    · exact this.1
    · exact h.items this.2 x hx

/-- All bound variables and the terms bound to them satisfy `P`. -/
def ScopeP (P : Term → Prop) (sc : Scope) : Prop := ∀ x t, sc x = some t → P (.var x) ∧ P t

section
variable [Arith] {P : Term → Prop} (hP : Hered P)

omit [Arith] in
theorem deref_P {sc : Scope} (hs : ScopeP P sc) : ∀ {n : Nat} {t t' : Term}, P t → deref n sc t = .ok t' → P t'
  | 0, t, t', _, h => by simp [deref] at h
  | n + 1, t, t', ht, h => by
    cases t with
    | var x =>
      rw [deref] at h
      cases hx : sc x with
      | none => simp [hx] at h; subst h; exact ht
      | some u => simp [hx] at h; exact deref_P hs (hs x u hx).2 h
    | _ => simp [deref] at h; subst h; exact ht

include hP in
theorem evaluate_P {sc : Scope} (hs : ScopeP P sc) : ∀ {n : Nat} {t t' : Term}, P t → evaluate n sc t = .ok t' → P t'
  | 0, t, t', _, h => by simp [evaluate] at h
  | n + 1, t, t', ht, h => by
    cases t with
    | var x =>
      rw [evaluate.eq_def] at h
      cases hx : sc x with
      | none => simp [hx] at h; subst h; exact ht
      | some u =>
        simp only [hx, Ev.bind_eq_ok] at h
        obtain ⟨a, h1, h2⟩ := h
        exact evaluate_P hs (deref_P hs ht h1) h2
    | un op t =>
      simp only [evaluate, Ev.bind_eq_ok] at h
      obtain ⟨a, _, h⟩ := h
      rcases (unFunc_spec h).2 with ⟨b, rfl⟩ | ⟨q, rfl⟩
      · exact hP.bool b
      · exact hP.num q
    | bin op l r =>
      simp only [evaluate, Ev.bind_eq_ok] at h
      obtain ⟨a, _, b, _, h⟩ := h
      split at h
      · simp only [Ev.bind_eq_ok, Ev.map_eq_ok] at h
        obtain ⟨_, _, _, _, b, _, rfl⟩ := h
        exact hP.bool b
      · rename_i hc
        rcases (binFunc_spec (by simpa using hc) h).2 with ⟨b, rfl⟩ | ⟨q, rfl⟩
        · exact hP.bool b
        · exact hP.num q
    | _ => simp [evaluate] at h; subst h; exact ht

/-- Specification of the recursive calls. -/
def RecP (P : Term → Prop) (f : Term → Term → BSt → Res BSt Bool) : Prop :=
  ∀ l r b b', ScopeP P b.scope → P l → P r → (f l r b).leaves b' → ScopeP P b'.scope

omit [Arith] in
theorem bindVar_P {x : VarId} {t : Term} {b b' : BSt} (hs : ScopeP P b.scope) (hx : P (.var x)) (ht : P t)
    (h : (bindVar x t b).leaves b') : ScopeP P b'.scope := by
  have key : ∀ b', (match b.scope x with
      | some _ => (.err (.py "RuntimeError") b : Res BSt Unit)
      | none => .ok () { b with scope := b.scope.set x t, stack := .v x :: b.stack }).leaves b' → ScopeP P b'.scope := by
    intro b' h
    cases hx' : b.scope x with
    | some u => simp [hx'] at h; subst h; exact hs
    | none =>
      simp [hx'] at h; subst h
      intro y u hy
      simp only [Scope.set] at hy
      split at hy
      · rename_i e; subst e; simp at hy; subst hy; exact ⟨hx, ht⟩
      · exact hs y u hy
  unfold bindVar at h
  split at h
  · split at h
    · simp at h; subst h; exact hs
    · exact key b' h
  · exact key b' h

omit [Arith] in
theorem unifyAll_P {f : Term → Term → BSt → Res BSt Bool} (hf : RecP P f) :
    ∀ ls rs b b', ScopeP P b.scope → (∀ l ∈ ls, P l) → (∀ r ∈ rs, P r) → (unifyAll f ls rs b).leaves b' →
      ScopeP P b'.scope
  | [], [], b, b', hs, _, _, h => by simp [unifyAll] at h; subst h; exact hs
  | [], _ :: _, b, b', hs, _, _, h => by simp [unifyAll] at h; subst h; exact hs
  | _ :: _, [], b, b', hs, _, _, h => by simp [unifyAll] at h; subst h; exact hs
  | l :: ls, r :: rs, b, b', hs, h1, h2, h => by
    rw [unifyAll, Res.leaves_bind] at h
    rcases h with ⟨e, h⟩ | ⟨a, s, h, h'⟩
    · exact hf l r b b' hs (h1 l (by simp)) (h2 r (by simp)) (Or.inr ⟨e, h⟩)
    · have g := hf l r b s hs (h1 l (by simp)) (h2 r (by simp)) (Or.inl ⟨a, h⟩)
      cases a with
      | true => exact unifyAll_P hf ls rs s b' g (fun t ht => h1 t (by simp [ht])) (fun t ht => h2 t (by simp [ht])) (by simpa using h')
      | false => simp at h'; subst h'; exact g

include hP in
theorem varUnify_P {n : Nat} {f : Term → Term → BSt → Res BSt Bool} (hf : RecP P f)
    {x : VarId} {r : Term} {b b' : BSt} (hs : ScopeP P b.scope) (hx : P (.var x)) (hr : P r)
    (h : (varUnify n f x r b).leaves b') : ScopeP P b'.scope := by
  unfold varUnify at h
  split at h
  · rw [Res.leaves_bind] at h
    rcases h with ⟨e, h⟩ | ⟨a, s, h, h'⟩
    · rw [← Res.leaves_lift (Or.inr ⟨e, h⟩)]; exact hs
    · obtain ⟨h1, rfl⟩ := Res.lift_eq_ok.1 h
      exact hf _ _ _ _ hs (deref_P hs hx h1) hr h'
  · split at h
    · simp at h; subst h; exact hs
    · rw [Res.leaves_bind] at h
      rcases h with ⟨e, h⟩ | ⟨a, s, h, h'⟩
      · rw [← Res.leaves_lift (Or.inr ⟨e, h⟩)]; exact hs
      · obtain ⟨h1, rfl⟩ := Res.lift_eq_ok.1 h
        have ha := evaluate_P hP hs hr h1
        rw [Res.leaves_bind] at h'
        rcases h' with ⟨e, h'⟩ | ⟨_, s', h', h''⟩
        · exact bindVar_P hs hx ha (Or.inr ⟨e, h'⟩)
        · simp at h''; subst h''; exact bindVar_P hs hx ha (Or.inl ⟨_, h'⟩)

omit [Arith] in
theorem and_P {f : Term → Term → BSt → Res BSt Bool} (hf : RecP P f) {l r l' r' : Term} {b b' : BSt}
    (hs : ScopeP P b.scope) (hl : P l ∧ P l') (hr : P r ∧ P r')
    (h : ((f l r b).bind fun ok b => if ok then f l' r' b else .ok false b).leaves b') : ScopeP P b'.scope := by
  rw [Res.leaves_bind] at h
  rcases h with ⟨e, h⟩ | ⟨a, s, h, h'⟩
  · exact hf _ _ _ _ hs hl.1 hr.1 (Or.inr ⟨e, h⟩)
  · have g := hf l r b s hs hl.1 hr.1 (Or.inl ⟨a, h⟩)
    cases a with
    | true => exact hf _ _ _ _ g hl.2 hr.2 (by simpa using h')
    | false => simp at h'; subst h'; exact g

include hP in
theorem litUnify_P {n : Nat} {f : Term → Term → BSt → Res BSt Bool} (hf : RecP P f) {g : String} {as xs : List Term}
    {r : Term} {b b' : BSt} (hs : ScopeP P b.scope) (hl : P (.lit g as xs)) (hr : P r)
    (h : (litUnify n f g as xs r b).leaves b') : ScopeP P b'.scope := by
  unfold litUnify at h
  rw [Res.leaves_bind] at h
  rcases h with ⟨e, h⟩ | ⟨a, s, h, h'⟩
  · rw [← Res.leaves_lift (Or.inr ⟨e, h⟩)]; exact hs
  · obtain ⟨h1, rfl⟩ := Res.lift_eq_ok.1 h
    have ha := evaluate_P hP hs hr h1
    split at h'
    · exact varUnify_P hP hf hs ha hl h'
    · simp at h'; subst h'; exact hs
    · split at h'
      · simp at h'; subst h'; exact hs
      · split at h'
        · simp at h'; subst h'; exact hs
        · exact unifyAll_P hf _ _ _ _ hs (hP.lit _ _ _ hl).1 (hP.lit _ _ _ ha).1 h'
    · simp at h'; subst h'; exact hs

include hP in
theorem methUnify_P {n : Nat} {f : Term → Term → BSt → Res BSt Bool} (hf : RecP P f) {l r : Term} {b b' : BSt}
    (hs : ScopeP P b.scope) (hl : P l) (hr : P r) (h : (methUnify n f l r b).leaves b') : ScopeP P b'.scope := by
  unfold methUnify at h
  split at h
  · exact varUnify_P hP hf hs hl hr h
  · simp at h; subst h; exact hs
  · rw [Res.leaves_bind] at h
    rcases h with ⟨e, h⟩ | ⟨a, s, h, h'⟩
    · rw [← Res.leaves_lift (Or.inr ⟨e, h⟩)]; exact hs
    · obtain ⟨h1, rfl⟩ := Res.lift_eq_ok.1 h
      exact hf _ _ _ _ hs (evaluate_P hP hs hl h1) hr h'
  · rw [Res.leaves_bind] at h
    rcases h with ⟨e, h⟩ | ⟨a, s, h, h'⟩
    · rw [← Res.leaves_lift (Or.inr ⟨e, h⟩)]; exact hs
    · obtain ⟨h1, rfl⟩ := Res.lift_eq_ok.1 h
      exact hf _ _ _ _ hs (evaluate_P hP hs hl h1) hr h'
  · exact litUnify_P hP hf hs hl hr h
  · unfold consUnify at h
    rw [Res.leaves_bind] at h
    rcases h with ⟨e, h⟩ | ⟨a, s, h, h'⟩
    · rw [← Res.leaves_lift (Or.inr ⟨e, h⟩)]; exact hs
    · obtain ⟨h1, rfl⟩ := Res.lift_eq_ok.1 h
      have ha := evaluate_P hP hs hr h1
      split at h'
      · exact varUnify_P hP hf hs ha hl h'
      · simp at h'; subst h'; exact hs
      · simp at h'; subst h'; exact hs
      · exact and_P hf hs (hP.cons _ _ hl) (hP.tup _ _ ha) h'
      · exact and_P hf hs (hP.cons _ _ hl) (hP.cons _ _ ha) h'
      · simp at h'; subst h'; exact hs
  · simp at h; subst h; exact hs

include hP in
theorem unify_P : ∀ n, RecP P (unify n)
  | 0 => fun l r b b' _ _ _ h => by simp [unify] at h
  | n + 1 => fun l r b b' hs hl hr h => by
    have ih := unify_P n
    rw [unify] at h
    split at h
    · exact methUnify_P hP ih hs hl hr h
    · split at h
      · exact methUnify_P hP ih hs hr hl h
      · unfold plainUnify at h
        split at h
        · simp at h; subst h; exact hs
        · split at h
          · simp at h; subst h; exact hs
          · exact unifyAll_P ih _ _ _ _ hs (hP.items hl) (hP.items hr) h
        · simp at h; subst h; exact hs
        · simp at h; subst h; exact hs
        · simp at h; subst h; exact hs

omit [Arith] in
theorem ScopeP.undo : ∀ {δ : List Entry} {sc : Scope}, ScopeP P sc → ScopeP P (undo δ sc)
  | [], _, h => h
  | .cp _ :: δ, sc, h => ScopeP.undo (δ := δ) h
  | .v x :: δ, sc, h => by
    refine ScopeP.undo (δ := δ) fun y t hy => ?_
    simp only [Scope.erase] at hy
    split at hy
    · cases hy
    · exact h y t hy

omit [Arith] in
theorem ScopeP.reroll {b : BSt} {c : Nat} (h : ScopeP P b.scope) : ScopeP P (reroll b c).scope := by
  have key : ∀ (st : List Entry) (sc : Scope), ScopeP P sc → ScopeP P (rerollGo c sc st).1 := by
    intro st
    induction st with
    | nil => intro sc h; exact h
    | cons e st ih =>
      intro sc h
      cases e with
      | cp d => simp only [rerollGo]; split; exact h; exact ih _ h
      | v x => simp only [rerollGo]; exact ih _ (ScopeP.undo (δ := [.v x]) h)
  exact key _ _ h

/-- Specification of annotated unification. -/
def UaP (P : Term → Prop) (f : Term → Term → BSt → Res BSt (Option Nat)) : Prop :=
  ∀ l r b b', ScopeP P b.scope → P l → P r → (f l r b).leaves b' → ScopeP P b'.scope

omit [Arith] in
theorem findAnnot_P {ua : Term → Term → BSt → Res BSt (Option Nat)} (hu : UaP P ua) {left : Term} (hl : P left) :
    ∀ (rs : List Term) (b b' : BSt), ScopeP P b.scope → (∀ r ∈ rs, P r) → (findAnnot ua left rs b).leaves b' →
      ScopeP P b'.scope
  | [], b, b', hs, _, h => by
    rcases h with ⟨a, h⟩ | ⟨e, h⟩ <;> simp [findAnnot] at h
    rw [← h.2]; exact hs
  | r :: rs, b, b', hs, hr, h => by
    unfold findAnnot at h
    rcases Res.leaves_bind.1 h with h | ⟨y, b₁, h1, h⟩
    · exact hu _ _ _ _ hs hl (hr r (by simp)) (Or.inr h)
    · have g := hu _ _ _ _ hs hl (hr r (by simp)) (Or.inl ⟨y, h1⟩)
      cases y with
      | some c => simp at h; subst h; exact g
      | none =>
        rcases Res.leaves_bind.1 h with h | ⟨o, b₂, h2, h⟩
        · exact findAnnot_P hu hl rs b₁ b' g (fun t ht => hr t (by simp [ht])) (Or.inr h)
        · simp at h; subst h
          exact findAnnot_P hu hl rs b₁ b₂ g (fun t ht => hr t (by simp [ht])) (Or.inl ⟨o, h2⟩)

omit [Arith] in
theorem findAnnot_rest {ua : Term → Term → BSt → Res BSt (Option Nat)} {left : Term} :
    ∀ {rs rest : List Term} {b b' : BSt}, findAnnot ua left rs b = .ok (some rest) b' → ∀ t ∈ rest, t ∈ rs
  | [], rest, b, b', h => by simp [findAnnot] at h
  | r :: rs, rest, b, b', h => by
    simp only [findAnnot, Res.bind_eq_ok] at h
    obtain ⟨y, b₁, _, h⟩ := h
    cases y with
    | some c => simp at h; intro t ht; rw [← h.1] at ht; simp [ht]
    | none =>
      simp only [Res.bind_eq_ok] at h
      obtain ⟨o, b₂, h2, h⟩ := h
      simp at h
      obtain ⟨⟨o', rfl, rfl⟩, _⟩ := h
      intro t ht
      rcases List.mem_cons.1 ht with rfl | ht
      · simp
      · exact List.mem_cons_of_mem _ (findAnnot_rest h2 t ht)

omit [Arith] in
theorem matchAnnots_P {ua : Term → Term → BSt → Res BSt (Option Nat)} (hu : UaP P ua) :
    ∀ (ls rs : List Term) (b b' : BSt), ScopeP P b.scope → (∀ l ∈ ls, P l) → (∀ r ∈ rs, P r) →
      (matchAnnots ua ls rs b).leaves b' → ScopeP P b'.scope
  | [], rs, b, b', hs, _, _, h => by
    rcases h with ⟨a, h⟩ | ⟨e, h⟩ <;> simp [matchAnnots] at h
    rw [← h.2]; exact hs
  | l :: ls, rs, b, b', hs, hl, hr, h => by
    unfold matchAnnots at h
    rcases Res.leaves_bind.1 h with h | ⟨o, b₁, h1, h⟩
    · exact findAnnot_P hu (hl l (by simp)) _ _ _ hs hr (Or.inr h)
    · have g := findAnnot_P hu (hl l (by simp)) _ _ _ hs hr (Or.inl ⟨o, h1⟩)
      cases o with
      | none => simp at h; subst h; exact g
      | some rest =>
        exact matchAnnots_P hu ls rest b₁ b' g (fun t ht => hl t (by simp [ht])) (fun t ht => hr t (findAnnot_rest h1 t ht)) h

omit [Arith] in
theorem yieldIf_P {c : Nat} {x : Res BSt Bool} {b' : BSt} (hx : ∀ b, x.leaves b → ScopeP P b.scope)
    (h : (yieldIf c x).leaves b') : ScopeP P b'.scope := by
  unfold yieldIf at h
  rcases Res.leaves_bind.1 h with ⟨e, h⟩ | ⟨a, b₁, h1, h⟩
  · exact hx _ (Or.inr ⟨e, h⟩)
  · have := hx _ (Or.inl ⟨a, h1⟩)
    cases a with
    | true => simp at h; subst h; exact this
    | false => simp at h; subst h; exact this.reroll

include hP in
theorem ua_P : ∀ n, UaP P (uaStart n)
  | 0 => fun l r b b' _ _ _ h => by simp [uaStart] at h
  | n + 1 => fun l r b b' hs hl hr h => by
    have ih := ua_P n
    have hu := unify_P hP n
    unfold uaStart at h
    split at h
    · unfold uaLit at h
      rcases Res.leaves_bind.1 h with ⟨e, h⟩ | ⟨a, b₁, h1, h⟩
      · rw [← Res.leaves_lift (Or.inr ⟨e, h⟩)]; exact hs
      · obtain ⟨h2, rfl⟩ := Res.lift_eq_ok.1 h1
        have ha := evaluate_P hP hs hr h2
        split at h
        · exact yieldIf_P (fun b₂ hb => varUnify_P (b := BSt.newCp _ |>.2) hP hu hs ha hl hb) h
        · simp at h; subst h; exact hs
        · refine yieldIf_P (fun b₂ hb => ?_) h
          rcases Res.leaves_bind.1 hb with ⟨e, hb⟩ | ⟨ok, b₃, h2, hb⟩
          · exact litUnify_P (b := BSt.mark _) hP hu hs hl ha (Or.inr ⟨e, hb⟩)
          · have g := litUnify_P (b := BSt.mark _) hP hu hs hl ha (Or.inl ⟨ok, h2⟩)
            cases ok with
            | false => simp at hb; subst hb; exact g
            | true =>
              simp only [if_true, matchRight] at hb
              split at hb
              · exact matchAnnots_P ih _ _ _ _ g (hP.lit _ _ _ hl).2 (hP.lit _ _ _ ha).2 hb
              · simp at hb; subst hb; exact g
    · exact yieldIf_P (fun b₂ hb => hu _ _ (BSt.mark _) _ hs hl hr hb) h

end

/-- Terms whose variables are below `k`. -/
theorem hered_bound (k : Nat) : Hered (fun t => t.bound ≤ k) where
  bool := fun _ => Nat.zero_le _
  num := fun _ => Nat.zero_le _
  lit := fun f as xs h => by
    simp only [Term.bound, Nat.max_le] at h
    exact ⟨Term.boundL_le.1 h.1, Term.boundL_le.1 h.2⟩
  tup := fun x xs h => by simpa [Term.bound, Term.boundL, Nat.max_le] using h
  cons := fun h t hh => by simpa [Term.bound, Nat.max_le] using hh
  un := fun op t h => h
  bin := fun op l r h => by simpa [Term.bound, Nat.max_le] using h

theorem scopeBelow_iff {k : Nat} {sc : Scope} : ScopeBelow k sc ↔ ScopeP (fun t => t.bound ≤ k) sc := Iff.rfl

end Verif
