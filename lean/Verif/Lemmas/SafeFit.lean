import Verif.Lemmas.SafeRun

/-! Ground queries bind only variables that were created for them. -/

namespace Verif

/-- All variables satisfy `D`, all operations `O`. -/
def Term.Fit (D : VarId → Prop) (O : Term → Prop) : Term → Prop := Term.Every fun t =>
  match t with
  | .var x => D x
  | .un op t => O (.un op t)
  | .bin op l r => O (.bin op l r)
  | _ => True

/-- `Fit`, or an operation that will be evaluated. -/
def Term.Arg (D : VarId → Prop) (O : Term → Prop) (t : Term) : Prop := t.isOp = true ∨ t.Fit D O

theorem Term.fit_lit {D : VarId → Prop} {O : Term → Prop} {f : String} {as xs : List Term} (h : (Term.lit f as xs).Fit D O) :
    ∀ a ∈ as, a.Fit D O := Term.everyL_iff.1 h.2

theorem Term.fit_tup {D : VarId → Prop} {O : Term → Prop} {xs : List Term} : (Term.tup xs).Fit D O ↔ ∀ a ∈ xs, a.Fit D O := by
  simp [Term.Fit, Term.Every, Term.everyL_iff]

theorem Term.Arg.fit {D : VarId → Prop} {O : Term → Prop} {t : Term} (h : t.Arg D O) (ht : t.isOp = false) : t.Fit D O :=
  h.resolve_left (by simp [ht])

/-- A property of scopes that is preserved by binding. -/
structure Binds (D : VarId → Prop) (O : Term → Prop) (I : Scope → Prop) : Prop where
  get : ∀ {sc x t}, I sc → D x → sc x = some t → t.Fit D O
  set : ∀ {sc x t}, I sc → D x → sc x = none → t.Fit D O → I (sc.set x t)

section
variable [Arith] {D : VarId → Prop} {O : Term → Prop} {I : Scope → Prop} (hI : Binds D O I)

include hI

omit [Arith] in
theorem deref_fit {sc : Scope} (hs : I sc) : ∀ {n : Nat} {t t' : Term}, t.Fit D O → deref n sc t = .ok t' → t'.Fit D O
  | 0, t, t', _, h => by simp [deref] at h
  | n + 1, t, t', ht, h => by
    cases t with
    | var x =>
      rw [deref] at h
      cases hx : sc x with
      | none => simp [hx] at h; subst h; exact ht
      | some u => simp [hx] at h; exact deref_fit hs (hI.get hs ht hx) h
    | _ => simp [deref] at h; subst h; exact ht

theorem evaluate_fit {sc : Scope} (hs : I sc) : ∀ {n : Nat} {t t' : Term}, t.Arg D O → evaluate n sc t = .ok t' → t'.Fit D O
  | 0, t, t', _, h => by simp [evaluate] at h
  | n + 1, t, t', ht, h => by
    cases t with
    | var x =>
      rw [evaluate.eq_def] at h
      cases hx : sc x with
      | none => simp [hx] at h; subst h; exact ht.fit rfl
      | some u =>
        simp only [hx, Ev.bind_eq_ok] at h
        obtain ⟨a, h1, h2⟩ := h
        exact evaluate_fit hs (.inr (deref_fit hI hs (ht.fit rfl) h1)) h2
    | un op t =>
      simp only [evaluate, Ev.bind_eq_ok] at h
      obtain ⟨a, _, h⟩ := h
      rcases (unFunc_spec h).2 with ⟨b, rfl⟩ | ⟨q, rfl⟩ <;> trivial
    | bin op l r =>
      simp only [evaluate, Ev.bind_eq_ok] at h
      obtain ⟨a, _, b, _, h⟩ := h
      split at h
      · simp only [Ev.bind_eq_ok, Ev.map_eq_ok] at h
        obtain ⟨_, _, _, _, b, _, rfl⟩ := h
        trivial
      · rename_i hc
        rcases (binFunc_spec (by simpa using hc) h).2 with ⟨b, rfl⟩ | ⟨q, rfl⟩ <;> trivial
    | _ => simp [evaluate] at h; subst h; exact ht.fit rfl

omit hI [Arith] in
/-- Specification of the recursive calls. -/
def RecFit (D : VarId → Prop) (O : Term → Prop) (I : Scope → Prop) (f : Term → Term → BSt → Res BSt Bool) : Prop :=
  ∀ l r b b', I b.scope → l.Arg D O → r.Arg D O → (f l r b).leaves b' → I b'.scope

omit [Arith] in
theorem bindVar_fit {x : VarId} {t : Term} {b b' : BSt} (hs : I b.scope) (hx : D x) (ht : t.Fit D O)
    (h : (bindVar x t b).leaves b') : I b'.scope := by
  have key : ∀ b', (match b.scope x with
      | some _ => (.err (.py "RuntimeError") b : Res BSt Unit)
      | none => .ok () { b with scope := b.scope.set x t, stack := .v x :: b.stack }).leaves b' → I b'.scope := by
    intro b' h
    cases hx' : b.scope x with
    | some u => simp [hx'] at h; subst h; exact hs
    | none =>
      simp [hx'] at h; subst h
      exact hI.set hs hx hx' ht
  unfold bindVar at h
  split at h
  · split at h
    · simp at h; subst h; exact hs
    · exact key b' h
  · exact key b' h

omit hI [Arith] in
theorem unifyAll_fit {f : Term → Term → BSt → Res BSt Bool} (hf : RecFit D O I f) :
    ∀ ls rs b b', I b.scope → (∀ l ∈ ls, l.Arg D O) → (∀ r ∈ rs, r.Arg D O) → (unifyAll f ls rs b).leaves b' → I b'.scope
  | [], [], b, b', hs, _, _, h => by simp [unifyAll] at h; subst h; exact hs
  | [], _ :: _, b, b', hs, _, _, h => by simp [unifyAll] at h; subst h; exact hs
  | _ :: _, [], b, b', hs, _, _, h => by simp [unifyAll] at h; subst h; exact hs
  | l :: ls, r :: rs, b, b', hs, h1, h2, h => by
    rw [unifyAll, Res.leaves_bind] at h
    rcases h with ⟨e, h⟩ | ⟨a, s, h, h'⟩
    · exact hf l r b b' hs (h1 l (by simp)) (h2 r (by simp)) (Or.inr ⟨e, h⟩)
    · have g := hf l r b s hs (h1 l (by simp)) (h2 r (by simp)) (Or.inl ⟨a, h⟩)
      cases a with
      | true => exact unifyAll_fit hf ls rs s b' g (fun t ht => h1 t (by simp [ht])) (fun t ht => h2 t (by simp [ht])) (by simpa using h')
      | false => simp at h'; subst h'; exact g

theorem varUnify_fit {n : Nat} {f : Term → Term → BSt → Res BSt Bool} (hf : RecFit D O I f)
    {x : VarId} {r : Term} {b b' : BSt} (hs : I b.scope) (hx : D x) (hr : r.Arg D O)
    (h : (varUnify n f x r b).leaves b') : I b'.scope := by
  unfold varUnify at h
  split at h
  · rw [Res.leaves_bind] at h
    rcases h with ⟨e, h⟩ | ⟨a, s, h, h'⟩
    · rw [← Res.leaves_lift (Or.inr ⟨e, h⟩)]; exact hs
    · obtain ⟨h1, rfl⟩ := Res.lift_eq_ok.1 h
      exact hf _ _ _ _ hs (.inr (deref_fit hI hs (t := .var x) hx h1)) hr h'
  · split at h
    · simp at h; subst h; exact hs
    · rw [Res.leaves_bind] at h
      rcases h with ⟨e, h⟩ | ⟨a, s, h, h'⟩
      · rw [← Res.leaves_lift (Or.inr ⟨e, h⟩)]; exact hs
      · obtain ⟨h1, rfl⟩ := Res.lift_eq_ok.1 h
        have ha := evaluate_fit hI hs hr h1
        rw [Res.leaves_bind] at h'
        rcases h' with ⟨e, h'⟩ | ⟨_, s', h', h''⟩
        · exact bindVar_fit hI hs hx ha (Or.inr ⟨e, h'⟩)
        · simp at h''; subst h''; exact bindVar_fit hI hs hx ha (Or.inl ⟨_, h'⟩)

omit hI [Arith] in
theorem and_fit {f : Term → Term → BSt → Res BSt Bool} (hf : RecFit D O I f) {l r l' r' : Term} {b b' : BSt}
    (hs : I b.scope) (hl : l.Fit D O ∧ l'.Fit D O) (hr : r.Fit D O ∧ r'.Fit D O)
    (h : ((f l r b).bind fun ok b => if ok then f l' r' b else .ok false b).leaves b') : I b'.scope := by
  rw [Res.leaves_bind] at h
  rcases h with ⟨e, h⟩ | ⟨a, s, h, h'⟩
  · exact hf _ _ _ _ hs (.inr hl.1) (.inr hr.1) (Or.inr ⟨e, h⟩)
  · have g := hf l r b s hs (.inr hl.1) (.inr hr.1) (Or.inl ⟨a, h⟩)
    cases a with
    | true => exact hf _ _ _ _ g (.inr hl.2) (.inr hr.2) (by simpa using h')
    | false => simp at h'; subst h'; exact g

theorem litUnify_fit {n : Nat} {f : Term → Term → BSt → Res BSt Bool} (hf : RecFit D O I f) {g : String} {as xs : List Term}
    {r : Term} {b b' : BSt} (hs : I b.scope) (hl : (Term.lit g as xs).Fit D O) (hr : r.Arg D O)
    (h : (litUnify n f g as xs r b).leaves b') : I b'.scope := by
  unfold litUnify at h
  rw [Res.leaves_bind] at h
  rcases h with ⟨e, h⟩ | ⟨a, s, h, h'⟩
  · rw [← Res.leaves_lift (Or.inr ⟨e, h⟩)]; exact hs
  · obtain ⟨h1, rfl⟩ := Res.lift_eq_ok.1 h
    have ha := evaluate_fit hI hs hr h1
    split at h'
    · exact varUnify_fit hI hf hs ha (.inr hl) h'
    · simp at h'; subst h'; exact hs
    · split at h'
      · simp at h'; subst h'; exact hs
      · split at h'
        · simp at h'; subst h'; exact hs
        · exact unifyAll_fit hf _ _ _ _ hs (fun a h => .inr (Term.fit_lit hl a h)) (fun a h => .inr (Term.fit_lit ha a h)) h'
    · simp at h'; subst h'; exact hs

theorem methUnify_fit {n : Nat} {f : Term → Term → BSt → Res BSt Bool} (hf : RecFit D O I f) {l r : Term} {b b' : BSt}
    (hs : I b.scope) (hl : l.Arg D O) (hr : r.Arg D O) (h : (methUnify n f l r b).leaves b') : I b'.scope := by
  unfold methUnify at h
  split at h
  · exact varUnify_fit hI hf hs (hl.fit rfl) hr h
  · simp at h; subst h; exact hs
  · rw [Res.leaves_bind] at h
    rcases h with ⟨e, h⟩ | ⟨a, s, h, h'⟩
    · rw [← Res.leaves_lift (Or.inr ⟨e, h⟩)]; exact hs
    · obtain ⟨h1, rfl⟩ := Res.lift_eq_ok.1 h
      exact hf _ _ _ _ hs (.inr (evaluate_fit hI hs hl h1)) hr h'
  · rw [Res.leaves_bind] at h
    rcases h with ⟨e, h⟩ | ⟨a, s, h, h'⟩
    · rw [← Res.leaves_lift (Or.inr ⟨e, h⟩)]; exact hs
    · obtain ⟨h1, rfl⟩ := Res.lift_eq_ok.1 h
      exact hf _ _ _ _ hs (.inr (evaluate_fit hI hs hl h1)) hr h'
  · exact litUnify_fit hI hf hs (hl.fit rfl) hr h
  · unfold consUnify at h
    have hl' := (hl.fit rfl).2
    rw [Res.leaves_bind] at h
    rcases h with ⟨e, h⟩ | ⟨a, s, h, h'⟩
    · rw [← Res.leaves_lift (Or.inr ⟨e, h⟩)]; exact hs
    · obtain ⟨h1, rfl⟩ := Res.lift_eq_ok.1 h
      have ha := evaluate_fit hI hs hr h1
      split at h'
      · exact varUnify_fit hI hf hs ha hl h'
      · simp at h'; subst h'; exact hs
      · simp at h'; subst h'; exact hs
      · rw [Term.fit_tup] at ha
        exact and_fit hf hs hl' ⟨ha _ (by simp), Term.fit_tup.2 fun x hx => ha x (by simp [hx])⟩ h'
      · exact and_fit hf hs hl' ha.2 h'
      · simp at h'; subst h'; exact hs
  · simp at h; subst h; exact hs

theorem unify_fit : ∀ n, RecFit D O I (unify n)
  | 0 => fun l r b b' _ _ _ h => by simp [unify] at h
  | n + 1 => fun l r b b' hs hl hr h => by
    have ih := unify_fit n
    rw [unify] at h
    split at h
    · exact methUnify_fit hI ih hs hl hr h
    · split at h
      · exact methUnify_fit hI ih hs hr hl h
      · unfold plainUnify at h
        split at h
        · simp at h; subst h; exact hs
        · split at h
          · simp at h; subst h; exact hs
          · exact unifyAll_fit ih _ _ _ _ hs (fun a h => .inr (Term.fit_tup.1 (hl.fit rfl) a h)) (fun a h => .inr (Term.fit_tup.1 (hr.fit rfl) a h)) h
        · simp at h; subst h; exact hs
        · simp at h; subst h; exact hs
        · simp at h; subst h; exact hs

/-- Unification of literals. -/
theorem litLit_fit {n : Nat} {f g : String} {as xs as' xs' : List Term} {b b' : BSt} (hs : I b.scope)
    (hl : ∀ a ∈ as, a.Arg D O) (hr : ∀ a ∈ as', a.Arg D O)
    (h : (litUnify n (unify n) f as xs (.lit g as' xs') b).leaves b') : I b'.scope := by
  unfold litUnify at h
  rw [Res.leaves_bind] at h
  rcases h with ⟨e, h⟩ | ⟨a, s, h, h'⟩
  · rw [← Res.leaves_lift (Or.inr ⟨e, h⟩)]; exact hs
  · obtain ⟨h1, rfl⟩ := Res.lift_eq_ok.1 h
    have e : a = .lit g as' xs' := by cases n <;> simp [evaluate] at h1; exact h1.symm
    subst e
    simp only at h'
    split at h'
    · simp at h'; subst h'; exact hs
    · split at h'
      · simp at h'; subst h'; exact hs
      · exact unifyAll_fit (unify_fit hI n) _ _ _ _ hs hl hr h'

theorem unifyLit_fit {n : Nat} {f g : String} {as xs as' xs' : List Term} {b b' : BSt} (hs : I b.scope)
    (hl : ∀ a ∈ as, a.Arg D O) (hr : ∀ a ∈ as', a.Arg D O)
    (h : (unify n (.lit f as xs) (.lit g as' xs') b).leaves b') : I b'.scope := by
  cases n with
  | zero => simp [unify] at h
  | succ n =>
    rw [unify, if_pos (by rfl)] at h
    exact litLit_fit hI hs hl hr h

/-- Annotated unification of literals with closed annotations. -/
theorem uaLit_fit {n d : Nat} {f g : String} {as xs as' xs' : List Term} {b b' : BSt} (hs : I b.scope)
    (hl : ∀ a ∈ as, a.Arg D O) (hr : ∀ a ∈ as', a.Arg D O) (ha : ∀ x ∈ xs, x.Closed ∧ x.annots = []) (ha' : ∀ y ∈ xs', y.Closed)
    (h : uaStart n (.lit f as xs) (.lit g as' xs') b = .ok (some d) b') : I b'.scope := by
  cases n with
  | zero => simp [uaStart] at h
  | succ n =>
    simp only [uaStart, uaLit, Res.bind_eq_ok] at h
    obtain ⟨a, s, h0, h⟩ := h
    obtain ⟨h1, rfl⟩ := Res.lift_eq_ok.1 h0
    have e : a = .lit g as' xs' := by cases n <;> simp [evaluate] at h1; exact h1.symm
    subst e
    obtain ⟨_, h⟩ := yieldIf_some h
    rw [Res.bind_eq_ok] at h
    obtain ⟨ok, b₁, h2, h3⟩ := h
    have h4 : I b₁.scope := litLit_fit (b := b.mark) hI hs hl hr (.inl ⟨_, h2⟩)
    cases ok with
    | false => simp at h3
    | true =>
      simp only [if_true, matchRight] at h3
      rw [matchAnnots_still ha ha' h3]
      exact h4

/-- Annotated unification without annotations on the left. -/
theorem uaPlain_fit {n d : Nat} {l r : Term} {b b' : BSt} (hs : I b.scope) (hl : l.Arg D O) (hr : r.Arg D O) (ha : l.annots = [])
    (h : uaStart n l r b = .ok (some d) b') : I b'.scope := by
  cases n with
  | zero => simp [uaStart] at h
  | succ n =>
    by_cases hlit : l.isLiteral = true
    · cases l <;> simp [Term.isLiteral] at hlit
      rename_i f as xs
      have : xs = [] := ha
      subst this
      simp only [uaStart, uaLit, Res.bind_eq_ok] at h
      obtain ⟨a, s, h0, h⟩ := h
      obtain ⟨h1, rfl⟩ := Res.lift_eq_ok.1 h0
      have hfit := evaluate_fit hI hs hr h1
      split at h
      · exact varUnify_fit (b := b.newCp.2) hI (unify_fit hI n) hs hfit hl (.inl ⟨_, (yieldIf_some h).2⟩)
      · simp at h; rw [← h.2]; exact hs
      · obtain ⟨_, h⟩ := yieldIf_some h
        rw [Res.bind_eq_ok] at h
        obtain ⟨ok, b₁, h2, h3⟩ := h
        have h4 : I b₁.scope := litUnify_fit (b := b.mark) hI (unify_fit hI n) hs (hl.fit rfl) (.inr hfit) (.inl ⟨_, h2⟩)
        cases ok with
        | false => simp at h3
        | true =>
          simp only [if_true, matchRight] at h3
          split at h3
          · simp [matchAnnots] at h3; exact h3 ▸ h4
          · simp at h3
    · have h' : uaStart (n + 1) l r b = yieldIf b.ncp (unify n l r b.mark) := by
        cases l <;> simp_all [Term.isLiteral, uaStart]
      rw [h'] at h
      exact unify_fit hI n _ _ b.mark _ hs hl hr (.inl ⟨_, (yieldIf_some h).2⟩)

end

end Verif
