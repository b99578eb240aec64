import Verif.Spec.Safe
import Verif.Lemmas.Hered

/-! Ground terms and unification. -/

namespace Verif

/-- More bindings. -/
def Scope.Sub (sc sc' : Scope) : Prop := ∀ x t, sc x = some t → sc' x = some t

theorem Scope.Sub.refl (sc : Scope) : sc.Sub sc := fun _ _ h => h

theorem Scope.Sub.trans {a b c : Scope} (h : a.Sub b) (h' : b.Sub c) : a.Sub c := fun x t hx => h' x t (h x t hx)

theorem GroundIn.mono {w : Bool} {sc sc' : Scope} (hs : sc.Sub sc') {t : Term} (h : GroundIn w sc t) : GroundIn w sc' t := by
  induction h with
  | bool => exact .bool
  | num => exact .num
  | str => exact .str
  | wild h => exact .wild h
  | var h _ ih => exact .var (hs _ _ h) ih
  | lit _ ih => exact .lit ih
  | tup _ ih => exact .tup ih
  | cons _ _ ih1 ih2 => exact .cons ih1 ih2
  | un _ ih => exact .un ih
  | bin _ _ ih1 ih2 => exact .bin ih1 ih2

theorem GroundIn.lax {w : Bool} {sc : Scope} {t : Term} (h : GroundIn w sc t) : GroundIn true sc t := by
  induction h with
  | bool => exact .bool
  | num => exact .num
  | str => exact .str
  | wild h => exact .wild rfl
  | var h _ ih => exact .var h ih
  | lit _ ih => exact .lit ih
  | tup _ ih => exact .tup ih
  | cons _ _ ih1 ih2 => exact .cons ih1 ih2
  | un _ ih => exact .un ih
  | bin _ _ ih1 ih2 => exact .bin ih1 ih2

mutual
theorem groundIn_over {w : Bool} {sc : Scope} {D : VarId → Prop} (hD : ∀ x, D x → GroundIn w sc (.var x)) :
    ∀ {t : Term}, t.Over D → (w = false → t.NoWild) → GroundIn w sc t
  | .bool _, _, _ => .bool
  | .num _, _, _ => .num
  | .str _, _, _ => .str
  | .var x, h, _ => hD x h
  | .wild, _, hw => .wild (by cases w with | true => rfl | false => exact absurd rfl (hw rfl))
  | .lit _ _ _, h, hw => .lit (groundIn_overL hD h.2 fun e => (hw e).2)
  | .tup _, h, hw => .tup (groundIn_overL hD h.2 fun e => (hw e).2)
  | .cons _ _, h, hw => .cons (groundIn_over hD h.2.1 fun e => (hw e).2.1) (groundIn_over hD h.2.2 fun e => (hw e).2.2)
  | .un _ _, h, hw => .un (groundIn_over hD h.2 fun e => (hw e).2)
  | .bin _ _ _, h, hw => .bin (groundIn_over hD h.2.1 fun e => (hw e).2.1) (groundIn_over hD h.2.2 fun e => (hw e).2.2)
theorem groundIn_overL {w : Bool} {sc : Scope} {D : VarId → Prop} (hD : ∀ x, D x → GroundIn w sc (.var x)) :
    ∀ {ts : List Term}, Term.EveryL (fun t => match t with | .var x => D x | _ => True) ts →
      (w = false → Term.EveryL (· ≠ .wild) ts) → ∀ a ∈ ts, GroundIn w sc a
  | [], _, _, _, ha => by cases ha
  | t :: ts, h, hw, a, ha => by
    have h1 := groundIn_over hD h.1 fun e => (hw e).1
    rcases List.mem_cons.1 ha with e | ha
    · exact e ▸ h1
    · exact groundIn_overL hD h.2 (fun e => (hw e).2) a ha
end

mutual
theorem Term.Over.mono {D E : VarId → Prop} (hD : ∀ x, D x → E x) : ∀ {t : Term}, t.Over D → t.Over E
  | .bool _, _ | .num _, _ | .str _, _ | .wild, _ => trivial
  | .var x, h => hD x h
  | .lit _ _ _, h => ⟨trivial, Term.OverL.mono hD h.2⟩
  | .tup _, h => ⟨trivial, Term.OverL.mono hD h.2⟩
  | .cons _ _, h => ⟨trivial, Term.Over.mono hD h.2.1, Term.Over.mono hD h.2.2⟩
  | .un _ _, h => ⟨trivial, Term.Over.mono hD h.2⟩
  | .bin _ _ _, h => ⟨trivial, Term.Over.mono hD h.2.1, Term.Over.mono hD h.2.2⟩
theorem Term.OverL.mono {D E : VarId → Prop} (hD : ∀ x, D x → E x) : ∀ {ts : List Term},
    Term.EveryL (fun t => match t with | .var x => D x | _ => True) ts →
    Term.EveryL (fun t => match t with | .var x => E x | _ => True) ts
  | [], _ => trivial
  | _ :: _, h => ⟨Term.Over.mono hD h.1, Term.OverL.mono hD h.2⟩
end

mutual
/-- The variables of a ground term are ground. -/
theorem GroundIn.over {w : Bool} {sc : Scope} : ∀ {t : Term}, GroundIn w sc t → t.Over fun x => GroundIn w sc (.var x)
  | .bool _, _ | .num _, _ | .str _, _ | .wild, _ => trivial
  | .var x, h => h
  | .lit _ _ _, h => ⟨trivial, GroundIn.overL (by cases h; assumption)⟩
  | .tup _, h => ⟨trivial, GroundIn.overL (by cases h; assumption)⟩
  | .cons _ _, h => ⟨trivial, GroundIn.over (by cases h; assumption), GroundIn.over (by cases h; assumption)⟩
  | .un _ _, h => ⟨trivial, GroundIn.over (by cases h; assumption)⟩
  | .bin _ _ _, h => ⟨trivial, GroundIn.over (by cases h; assumption), GroundIn.over (by cases h; assumption)⟩
theorem GroundIn.overL {w : Bool} {sc : Scope} : ∀ {ts : List Term}, (∀ a ∈ ts, GroundIn w sc a) →
    Term.EveryL (fun t => match t with | .var x => GroundIn w sc (.var x) | _ => True) ts
  | [], _ => trivial
  | t :: ts, h => ⟨GroundIn.over (h t (by simp)), GroundIn.overL fun a ha => h a (by simp [ha])⟩
end

theorem GroundIn.occurs {w : Bool} {sc : Scope} {t : Term} {x : VarId} (h : GroundIn w sc t) (hx : t.Occurs x) :
    GroundIn w sc (.var x) := by
  refine Classical.byContradiction fun hn => hx (Term.Over.mono (fun y hy => ?_) h.over)
  rintro rfl
  exact hn hy

/-- Without wildcards in term and bindings. -/
theorem GroundIn.strict {sc : Scope} (hs : ∀ x t, sc x = some t → t.NoWild) {w : Bool} {t : Term} (h : GroundIn w sc t) (ht : t.NoWild) :
    GroundIn false sc t := by
  induction h with
  | bool => exact .bool
  | num => exact .num
  | str => exact .str
  | wild h => exact absurd rfl ht
  | var h _ ih => exact .var h (ih (hs _ _ h))
  | lit _ ih => exact .lit fun a ha => ih a ha (Term.everyL_iff.1 ht.2 a ha)
  | tup _ ih => exact .tup fun a ha => ih a ha (Term.everyL_iff.1 ht.2 a ha)
  | cons _ _ ih1 ih2 => exact .cons (ih1 ht.2.1) (ih2 ht.2.2)
  | un _ ih => exact .un (ih ht.2)
  | bin _ _ ih1 ih2 => exact .bin (ih1 ht.2.1) (ih2 ht.2.2)

mutual
theorem Term.Closed.over {D : VarId → Prop} : ∀ {t : Term}, t.Closed → t.Over D
  | .bool _, _ | .num _, _ | .str _, _ => trivial
  | .lit _ _ _, h | .tup _, h => ⟨trivial, Term.Closed.overL h.2⟩
  | .cons _ _, h => ⟨trivial, Term.Closed.over h.2.1, Term.Closed.over h.2.2⟩
  | .un _ _, h | .bin _ _ _, h => h.1.elim
  | .var _, h | .wild, h => False.elim h
theorem Term.Closed.overL {D : VarId → Prop} : ∀ {ts : List Term}, Term.EveryL (fun t =>
    match t with
    | .var _ | .wild | .un _ _ | .bin _ _ _ => False
    | _ => True) ts → Term.EveryL (fun t => match t with | .var x => D x | _ => True) ts
  | [], _ => trivial
  | _ :: _, h => ⟨Term.Closed.over h.1, Term.Closed.overL h.2⟩
end

section
variable [Arith]

omit [Arith] in
theorem deref_groundIn {w : Bool} {sc sc' : Scope} (hs : sc.Sub sc') : ∀ {n : Nat} {t t' : Term}, deref n sc t = .ok t' →
    (GroundIn w sc' t ↔ GroundIn w sc' t')
  | 0, t, t', h => by simp [deref] at h
  | n + 1, t, t', h => by
    cases t with
    | var x =>
      rw [deref] at h
      cases hx : sc x with
      | none => simp [hx] at h; subst h; exact .rfl
      | some u =>
        simp [hx] at h
        rw [← deref_groundIn hs h]
        refine ⟨fun h => ?_, fun h => .var (hs _ _ hx) h⟩
        cases h with
        | var h1 h2 => rw [hs _ _ hx] at h1; cases h1; exact h2
    | _ => simp [deref] at h; subst h; exact .rfl

omit [Arith] in
theorem deref_bound {w : Bool} {sc : Scope} : ∀ {n : Nat} {t t' : Term}, deref n sc t = .ok t' → GroundIn w sc t → ∀ y, t' ≠ .var y
  | 0, t, t', h, _ => by simp [deref] at h
  | n + 1, t, t', h, hg => by
    cases t with
    | var x =>
      rw [deref] at h
      cases hg with
      | var h1 h2 => simp [h1] at h; exact deref_bound h h2
    | _ => simp [deref] at h; subst h; simp

omit [Arith] in
theorem mapL_groundIn {sc : Scope} {f : Term → Ev Term} (hf : ∀ t t', f t = .ok t' → GroundIn false sc t) :
    ∀ {ts ts' : List Term}, Ev.mapL f ts = .ok ts' → ∀ t ∈ ts, GroundIn false sc t
  | [], _, _, _, h => by cases h
  | t :: ts, ts', h, a, ha => by
    simp only [Ev.mapL, Ev.bind_eq_ok, Ev.map_eq_ok] at h
    obtain ⟨b, h1, bs, h2, _⟩ := h
    rcases List.mem_cons.1 ha with rfl | ha
    · exact hf _ _ h1
    · exact mapL_groundIn hf h2 a ha

omit [Arith] in
theorem unFunc_value {op : UnOp} {t t' : Term} (h : unFunc op t = .ok t') : (∃ b, t = .bool b) ∨ ∃ q, t = .num q := by
  unfold unFunc at h
  split at h
  · exact .inl ⟨_, rfl⟩
  · exact .inr ⟨_, rfl⟩
  · exact .inr ⟨_, rfl⟩
  · simp at h

theorem binFunc_value {op : BinOp} {l r t' : Term} (h : binFunc op l r = .ok t') :
    ((∃ b, l = .bool b) ∨ ∃ q, l = .num q) ∧ ((∃ b, r = .bool b) ∨ ∃ q, r = .num q) := by
  unfold binFunc at h
  split at h
  · split at h
    · exact ⟨.inl ⟨_, rfl⟩, .inl ⟨_, rfl⟩⟩
    · simp at h
  · split at h
    · split at h
      · exact ⟨.inr ⟨_, rfl⟩, .inr ⟨_, rfl⟩⟩
      · simp at h
    · simp at h

omit [Arith] in
theorem value_groundIn {w : Bool} {sc : Scope} {t : Term} (h : (∃ b, t = .bool b) ∨ ∃ q, t = .num q) : GroundIn w sc t := by
  rcases h with ⟨b, rfl⟩ | ⟨q, rfl⟩
  · exact .bool
  · exact .num

/-- Evaluation and grounding, together. -/
theorem eval_groundIn {sc : Scope} : ∀ n : Nat,
    (∀ {w : Bool} {sc' : Scope} {t t' : Term}, sc.Sub sc' → evaluate n sc t = .ok t' → (GroundIn w sc' t ↔ GroundIn w sc' t')) ∧
    ∀ {t t' : Term}, grounded n sc t = .ok t' → GroundIn false sc t
  | 0 => ⟨fun _ h => by simp [evaluate] at h, fun h => by simp [grounded] at h⟩
  | n + 1 => by
    obtain ⟨ih1, ih2⟩ := eval_groundIn (sc := sc) n
    constructor
    · intro w sc' t t' hs h
      have weak : ∀ {u : Term}, GroundIn false sc' u → GroundIn w sc' u := fun {u} h => by
        cases w with
        | true => exact h.lax
        | false => exact h
      cases t with
      | var x =>
        rw [evaluate.eq_def] at h
        cases hx : sc x with
        | none => simp [hx] at h; subst h; exact .rfl
        | some u =>
          simp only [hx, Ev.bind_eq_ok] at h
          obtain ⟨a, h1, h2⟩ := h
          exact (deref_groundIn hs h1).trans (ih1 hs h2)
      | un op t =>
        simp only [evaluate, Ev.bind_eq_ok] at h
        obtain ⟨a, h1, h⟩ := h
        exact iff_of_true (.un ((ih1 hs h1).2 (value_groundIn (unFunc_value h)))) (value_groundIn (unFunc_spec h).2)
      | bin op l r =>
        simp only [evaluate, Ev.bind_eq_ok] at h
        obtain ⟨a, h1, b, h2, h⟩ := h
        split at h
        · simp only [Ev.bind_eq_ok, Ev.map_eq_ok] at h
          obtain ⟨_, h3, _, h4, b, _, rfl⟩ := h
          exact iff_of_true (.bin ((ih1 hs h1).2 (weak ((ih2 h3).mono hs))) ((ih1 hs h2).2 (weak ((ih2 h4).mono hs)))) .bool
        · rename_i hc
          exact iff_of_true (.bin ((ih1 hs h1).2 (value_groundIn (binFunc_value h).1)) ((ih1 hs h2).2 (value_groundIn (binFunc_value h).2)))
            (value_groundIn (binFunc_spec (by simpa using hc) h).2)
      | _ => simp [evaluate] at h; subst h; exact .rfl
    · intro t t' h
      rw [grounded.eq_def] at h
      cases t with
      | bool => exact .bool
      | num => exact .num
      | str => exact .str
      | wild => simp at h
      | var x =>
        cases hx : sc x with
        | none => simp [hx] at h
        | some u =>
          simp only [hx, Ev.bind_eq_ok] at h
          obtain ⟨a, h1, h2⟩ := h
          exact (deref_groundIn (.refl _) h1).2 (ih2 h2)
      | lit f as xs =>
        simp only [Ev.bind_eq_ok] at h
        obtain ⟨a, h1, _⟩ := h
        exact .lit (mapL_groundIn (fun _ _ h => ih2 h) h1)
      | tup xs =>
        simp only [Ev.map_eq_ok] at h
        obtain ⟨a, h1, _⟩ := h
        exact .tup (mapL_groundIn (fun _ _ h => ih2 h) h1)
      | cons a b =>
        simp only [Ev.bind_eq_ok] at h
        obtain ⟨a, h1, b, h2, _⟩ := h
        exact .cons (ih2 h1) (ih2 h2)
      | un op t =>
        simp only [Ev.bind_eq_ok] at h
        obtain ⟨a, h1, h2⟩ := h
        exact (ih1 (.refl _) h1).2 (ih2 h2)
      | bin op l r =>
        simp only [Ev.bind_eq_ok] at h
        obtain ⟨a, h1, h2⟩ := h
        exact (ih1 (.refl _) h1).2 (ih2 h2)

theorem evaluate_bound {w : Bool} {sc : Scope} : ∀ {n : Nat} {t t' : Term}, evaluate n sc t = .ok t' → GroundIn w sc t → ∀ y, t' ≠ .var y
  | 0, t, t', h, _ => by simp [evaluate] at h
  | n + 1, t, t', h, hg => by
    intro y e
    subst e
    cases t with
    | var x =>
      rw [evaluate.eq_def] at h
      cases hg with
      | var h1 h2 =>
        simp only [h1, Ev.bind_eq_ok] at h
        obtain ⟨a, h3, h4⟩ := h
        exact evaluate_bound h4 ((deref_groundIn (.refl _) h3).1 (.var h1 h2)) _ rfl
    | un op t =>
      simp only [evaluate, Ev.bind_eq_ok] at h
      obtain ⟨a, _, h⟩ := h
      rcases (unFunc_spec h).2 with ⟨b, h⟩ | ⟨q, h⟩ <;> cases h
    | bin op l r =>
      simp only [evaluate, Ev.bind_eq_ok] at h
      obtain ⟨a, _, b, _, h⟩ := h
      split at h
      · simp only [Ev.bind_eq_ok, Ev.map_eq_ok] at h
        obtain ⟨_, _, _, _, b, _, h⟩ := h
        cases h
      · rename_i hc
        rcases (binFunc_spec (by simpa using hc) h).2 with ⟨b, h⟩ | ⟨q, h⟩ <;> cases h
    | _ => simp [evaluate] at h

/-! ## Unification of ground terms binds nothing -/

omit [Arith] in
theorem groundIn_cons {w : Bool} {sc : Scope} {h t : Term} (hg : GroundIn w sc (.cons h t)) : GroundIn w sc h ∧ GroundIn w sc t := by
  cases hg with
  | cons h1 h2 => exact ⟨h1, h2⟩

/-- Specification of the recursive calls. -/
def RecStill (f : Term → Term → BSt → Res BSt Bool) : Prop :=
  ∀ l r b b', GroundIn true b.scope l → GroundIn true b.scope r → (f l r b).leaves b' → b'.scope = b.scope

omit [Arith] in
theorem unifyAll_still {f : Term → Term → BSt → Res BSt Bool} (hf : RecStill f) :
    ∀ ls rs b b', (∀ l ∈ ls, GroundIn true b.scope l) → (∀ r ∈ rs, GroundIn true b.scope r) → (unifyAll f ls rs b).leaves b' →
      b'.scope = b.scope
  | [], [], b, b', _, _, h => by simp [unifyAll] at h; subst h; rfl
  | [], _ :: _, b, b', _, _, h => by simp [unifyAll] at h; subst h; rfl
  | _ :: _, [], b, b', _, _, h => by simp [unifyAll] at h; subst h; rfl
  | l :: ls, r :: rs, b, b', h1, h2, h => by
    rw [unifyAll, Res.leaves_bind] at h
    rcases h with ⟨e, h⟩ | ⟨a, s, h, h'⟩
    · exact hf l r b b' (h1 l (by simp)) (h2 r (by simp)) (Or.inr ⟨e, h⟩)
    · have g := hf l r b s (h1 l (by simp)) (h2 r (by simp)) (Or.inl ⟨a, h⟩)
      cases a with
      | true =>
        rw [← g] at h1 h2 ⊢
        exact unifyAll_still hf ls rs s b' (fun t ht => h1 t (by simp [ht])) (fun t ht => h2 t (by simp [ht])) (by simpa using h')
      | false => simp at h'; subst h'; exact g

omit [Arith] in
theorem and_still {f : Term → Term → BSt → Res BSt Bool} (hf : RecStill f) {l r l' r' : Term} {b b' : BSt}
    (hl : GroundIn true b.scope l ∧ GroundIn true b.scope l') (hr : GroundIn true b.scope r ∧ GroundIn true b.scope r')
    (h : ((f l r b).bind fun ok b => if ok then f l' r' b else .ok false b).leaves b') : b'.scope = b.scope := by
  rw [Res.leaves_bind] at h
  rcases h with ⟨e, h⟩ | ⟨a, s, h, h'⟩
  · exact hf _ _ _ _ hl.1 hr.1 (Or.inr ⟨e, h⟩)
  · have g := hf l r b s hl.1 hr.1 (Or.inl ⟨a, h⟩)
    cases a with
    | true => rw [← g] at hl hr ⊢; exact hf _ _ _ _ hl.2 hr.2 (by simpa using h')
    | false => simp at h'; subst h'; exact g

theorem varUnify_still {n : Nat} {f : Term → Term → BSt → Res BSt Bool} (hf : RecStill f)
    {x : VarId} {r : Term} {b b' : BSt} (hx : GroundIn true b.scope (.var x)) (hr : GroundIn true b.scope r)
    (h : (varUnify n f x r b).leaves b') : b'.scope = b.scope := by
  unfold varUnify at h
  split at h
  · rw [Res.leaves_bind] at h
    rcases h with ⟨e, h⟩ | ⟨a, s, h, h'⟩
    · rw [← Res.leaves_lift (Or.inr ⟨e, h⟩)]
    · obtain ⟨h1, rfl⟩ := Res.lift_eq_ok.1 h
      exact hf _ _ _ _ ((deref_groundIn (.refl _) h1).1 hx) hr h'
  · rename_i hn
    cases hx with
    | var h1 => rw [hn] at h1; cases h1

theorem litUnify_still {n : Nat} {f : Term → Term → BSt → Res BSt Bool} (hf : RecStill f) {g : String} {as xs : List Term}
    {r : Term} {b b' : BSt} (hl : ∀ a ∈ as, GroundIn true b.scope a) (hr : GroundIn true b.scope r)
    (h : (litUnify n f g as xs r b).leaves b') : b'.scope = b.scope := by
  unfold litUnify at h
  rw [Res.leaves_bind] at h
  rcases h with ⟨e, h⟩ | ⟨a, s, h, h'⟩
  · rw [← Res.leaves_lift (Or.inr ⟨e, h⟩)]
  · obtain ⟨h1, rfl⟩ := Res.lift_eq_ok.1 h
    have ha := ((eval_groundIn n).1 (.refl _) h1).1 hr
    split at h'
    · exact absurd rfl (evaluate_bound h1 hr _)
    · simp at h'; subst h'; rfl
    · split at h'
      · simp at h'; subst h'; rfl
      · split at h'
        · simp at h'; subst h'; rfl
        · refine unifyAll_still hf _ _ _ _ hl ?_ h'
          cases ha; assumption
    · simp at h'; subst h'; rfl

theorem methUnify_still {n : Nat} {f : Term → Term → BSt → Res BSt Bool} (hf : RecStill f) {l r : Term} {b b' : BSt}
    (hl : GroundIn true b.scope l) (hr : GroundIn true b.scope r) (h : (methUnify n f l r b).leaves b') : b'.scope = b.scope := by
  unfold methUnify at h
  split at h
  · exact varUnify_still hf hl hr h
  · simp at h; subst h; rfl
  · rw [Res.leaves_bind] at h
    rcases h with ⟨e, h⟩ | ⟨a, s, h, h'⟩
    · rw [← Res.leaves_lift (Or.inr ⟨e, h⟩)]
    · obtain ⟨h1, rfl⟩ := Res.lift_eq_ok.1 h
      exact hf _ _ _ _ (((eval_groundIn n).1 (.refl _) h1).1 hl) hr h'
  · rw [Res.leaves_bind] at h
    rcases h with ⟨e, h⟩ | ⟨a, s, h, h'⟩
    · rw [← Res.leaves_lift (Or.inr ⟨e, h⟩)]
    · obtain ⟨h1, rfl⟩ := Res.lift_eq_ok.1 h
      exact hf _ _ _ _ (((eval_groundIn n).1 (.refl _) h1).1 hl) hr h'
  · exact litUnify_still hf (by cases hl; assumption) hr h
  · unfold consUnify at h
    rw [Res.leaves_bind] at h
    rcases h with ⟨e, h⟩ | ⟨a, s, h, h'⟩
    · rw [← Res.leaves_lift (Or.inr ⟨e, h⟩)]
    · obtain ⟨h1, rfl⟩ := Res.lift_eq_ok.1 h
      have ha := ((eval_groundIn n).1 (.refl _) h1).1 hr
      have hl' := groundIn_cons hl
      split at h'
      · exact absurd rfl (evaluate_bound h1 hr _)
      · simp at h'; subst h'; rfl
      · simp at h'; subst h'; rfl
      · refine and_still hf hl' ?_ h'
        cases ha with
        | tup ha => exact ⟨ha _ (by simp), .tup fun x hx => ha x (by simp [hx])⟩
      · refine and_still hf hl' ?_ h'
        cases ha with
        | cons h1 h2 => exact ⟨h1, h2⟩
      · simp at h'; subst h'; rfl
  · simp at h; subst h; rfl

theorem unify_still : ∀ n, RecStill (unify n)
  | 0 => fun l r b b' _ _ h => by simp [unify] at h
  | n + 1 => fun l r b b' hl hr h => by
    have ih := unify_still n
    rw [unify] at h
    split at h
    · exact methUnify_still ih hl hr h
    · split at h
      · exact methUnify_still ih hr hl h
      · unfold plainUnify at h
        split at h
        · simp at h; subst h; rfl
        · split at h
          · simp at h; subst h; rfl
          · exact unifyAll_still ih _ _ _ _ (by cases hl; assumption) (by cases hr; assumption) h
        · simp at h; subst h; rfl
        · simp at h; subst h; rfl
        · simp at h; subst h; rfl

/-! ## Unification with a ground term -/

omit [Arith] in
theorem Grow.sub {b b' : BSt} (h : Grow b b') : b.scope.Sub b'.scope := by
  obtain ⟨xs, h⟩ := h
  intro x t hx
  rw [h.frame x ?_, hx]
  intro hm
  rw [h.wasFree x hm] at hx
  cases hx

/-- After unification, if one side is ground then so is the other. -/
structure Grounds (l r : Term) (b b' : BSt) : Prop where
  sub : b.scope.Sub b'.scope
  left : ∀ sc, b'.scope.Sub sc → GroundIn false sc r → GroundIn true sc l
  right : ∀ sc, b'.scope.Sub sc → GroundIn false sc l → GroundIn true sc r

omit [Arith] in
theorem Grounds.symm {l r : Term} {b b' : BSt} (h : Grounds l r b b') : Grounds r l b b' := ⟨h.sub, h.right, h.left⟩

/-- Specification of the recursive calls. -/
def RecGrounds (f : Term → Term → BSt → Res BSt Bool) : Prop := ∀ l r b b', f l r b = .ok true b' → Grounds l r b b'

omit [Arith] in
theorem unifyAll_grounds {f : Term → Term → BSt → Res BSt Bool} (hf : RecGrounds f) :
    ∀ ls rs b b', ls.length = rs.length → unifyAll f ls rs b = .ok true b' → b.scope.Sub b'.scope ∧
      ∀ sc, b'.scope.Sub sc → ((∀ r ∈ rs, GroundIn false sc r) → ∀ l ∈ ls, GroundIn true sc l) ∧
        ((∀ l ∈ ls, GroundIn false sc l) → ∀ r ∈ rs, GroundIn true sc r)
  | [], [], b, b', _, h => by simp [unifyAll] at h; subst h; exact ⟨.refl _, by simp⟩
  | l :: ls, r :: rs, b, b', hn, h => by
    simp only [unifyAll, Res.bind_eq_ok] at h
    obtain ⟨a, s, h, h'⟩ := h
    cases a with
    | false => simp at h'
    | true =>
      have h1 := hf _ _ _ _ h
      obtain ⟨h2, h3⟩ := unifyAll_grounds hf ls rs s b' (by simpa using hn) (by simpa using h')
      refine ⟨h1.sub.trans h2, fun sc hs => ⟨fun hr x hx => ?_, fun hr x hx => ?_⟩⟩
      · rcases List.mem_cons.1 hx with rfl | hx
        · exact h1.left sc (h2.trans hs) (hr r (by simp))
        · exact (h3 sc hs).1 (fun y hy => hr y (by simp [hy])) x hx
      · rcases List.mem_cons.1 hx with rfl | hx
        · exact h1.right sc (h2.trans hs) (hr l (by simp))
        · exact (h3 sc hs).2 (fun y hy => hr y (by simp [hy])) x hx

omit [Arith] in
theorem and_grounds {f : Term → Term → BSt → Res BSt Bool} (hf : RecGrounds f) {l r l' r' : Term} {b b' : BSt}
    (h : ((f l r b).bind fun ok b => if ok then f l' r' b else .ok false b) = .ok true b') :
    b.scope.Sub b'.scope ∧ ∀ sc, b'.scope.Sub sc →
      (GroundIn false sc r ∧ GroundIn false sc r' → GroundIn true sc l ∧ GroundIn true sc l') ∧
      (GroundIn false sc l ∧ GroundIn false sc l' → GroundIn true sc r ∧ GroundIn true sc r') := by
  rw [Res.bind_eq_ok] at h
  obtain ⟨a, s, h, h'⟩ := h
  cases a with
  | false => simp at h'
  | true =>
    have h1 := hf _ _ _ _ h
    have h2 := hf _ _ _ _ (by simpa using h')
    exact ⟨h1.sub.trans h2.sub, fun sc hs => ⟨fun h => ⟨h1.left sc (h2.sub.trans hs) h.1, h2.left sc hs h.2⟩,
      fun h => ⟨h1.right sc (h2.sub.trans hs) h.1, h2.right sc hs h.2⟩⟩⟩

omit [Arith] in
theorem bindVar_sub {x : VarId} {t : Term} {b b' : BSt} {u : Unit} (h : bindVar x t b = .ok u b') :
    (t = .var x ∧ b' = b) ∨ (b.scope.Sub b'.scope ∧ b'.scope x = some t) := by
  have key : ∀ b', (match b.scope x with
      | some _ => (.err (.py "RuntimeError") b : Res BSt Unit)
      | none => .ok () { b with scope := b.scope.set x t, stack := .v x :: b.stack }) = .ok u b' →
      b.scope.Sub b'.scope ∧ b'.scope x = some t := by
    intro b' h
    cases hx' : b.scope x with
    | some u => simp [hx'] at h
    | none =>
      simp [hx'] at h; subst h
      refine ⟨fun y s hy => ?_, by simp [Scope.set]⟩
      simp only [Scope.set]
      split
      · rename_i e; subst e; rw [hx'] at hy; cases hy
      · exact hy
  unfold bindVar at h
  split at h
  · split at h
    · rename_i e; subst e; simp at h; exact .inl ⟨rfl, h.symm⟩
    · exact .inr (key b' h)
  · exact .inr (key b' h)

omit [Arith] in
theorem not_wild {sc : Scope} (h : GroundIn false sc .wild) : False := by
  cases h with
  | wild h => cases h

omit [Arith] in
theorem groundIn_var {w : Bool} {sc : Scope} {x : VarId} {t : Term} (h : sc x = some t) : GroundIn w sc (.var x) ↔ GroundIn w sc t := by
  refine ⟨fun h' => ?_, .var h⟩
  cases h' with
  | var h1 h2 => rw [h] at h1; cases h1; exact h2

theorem varUnify_grounds {n : Nat} {f : Term → Term → BSt → Res BSt Bool} (hf : RecGrounds f)
    {x : VarId} {r : Term} {b b' : BSt} (h : varUnify n f x r b = .ok true b') : Grounds (.var x) r b b' := by
  unfold varUnify at h
  split at h
  · rw [Res.bind_eq_ok] at h
    obtain ⟨a, s, h, h'⟩ := h
    obtain ⟨h1, rfl⟩ := Res.lift_eq_ok.1 h
    have h2 := hf _ _ _ _ h'
    exact ⟨h2.sub, fun sc hs h => (deref_groundIn (h2.sub.trans hs) h1).2 (h2.left sc hs h),
      fun sc hs h => h2.right sc hs ((deref_groundIn (h2.sub.trans hs) h1).1 h)⟩
  · split at h
    · simp at h; subst h
      exact ⟨.refl _, fun _ _ h => (not_wild h).elim, fun _ _ _ => .wild rfl⟩
    · rw [Res.bind_eq_ok] at h
      obtain ⟨a, s, h, h'⟩ := h
      obtain ⟨h1, rfl⟩ := Res.lift_eq_ok.1 h
      rw [Res.bind_eq_ok] at h'
      obtain ⟨u, s', h2, h3⟩ := h'
      simp at h3; subst h3
      have key : b.scope.Sub s'.scope ∧ ∀ w sc, s'.scope.Sub sc → (GroundIn w sc (.var x) ↔ GroundIn w sc a) := by
        rcases bindVar_sub h2 with ⟨rfl, rfl⟩ | ⟨i1, i2⟩
        · exact ⟨.refl _, fun _ _ _ => .rfl⟩
        · exact ⟨i1, fun _ sc hs => groundIn_var (hs _ _ i2)⟩
      refine ⟨key.1, fun sc hs h => ?_, fun sc hs h => ?_⟩
      · exact (key.2 _ sc hs).2 (((eval_groundIn n).1 (key.1.trans hs) h1).1 h).lax
      · exact (((eval_groundIn n).1 (key.1.trans hs) h1).2 ((key.2 _ sc hs).1 h)).lax

theorem Grounds.eval {n : Nat} {l r a : Term} {b b' : BSt} (h : Grounds l a b b') (he : evaluate n b.scope r = .ok a) : Grounds l r b b' :=
  ⟨h.sub, fun sc hs hr => h.left sc hs (((eval_groundIn n).1 (h.sub.trans hs) he).1 hr),
    fun sc hs hl => ((eval_groundIn n).1 (h.sub.trans hs) he).2 (h.right sc hs hl)⟩

theorem litUnify_grounds {n : Nat} {f : Term → Term → BSt → Res BSt Bool} (hf : RecGrounds f) {g : String} {as xs : List Term}
    {r : Term} {b b' : BSt} (h : litUnify n f g as xs r b = .ok true b') : Grounds (.lit g as xs) r b b' := by
  unfold litUnify at h
  rw [Res.bind_eq_ok] at h
  obtain ⟨a, s, h, h'⟩ := h
  obtain ⟨h1, rfl⟩ := Res.lift_eq_ok.1 h
  refine Grounds.eval ?_ h1
  split at h'
  · exact (varUnify_grounds hf h').symm
  · simp at h'; subst h'
    exact ⟨.refl _, fun _ _ h => (not_wild h).elim, fun _ _ _ => .wild rfl⟩
  · split at h'
    · simp at h'
    · split at h'
      · simp at h'
      · rename_i hn
        obtain ⟨h2, h3⟩ := unifyAll_grounds hf _ _ _ _ (Classical.not_not.1 hn) h'
        refine ⟨h2, fun sc hs h => .lit ((h3 sc hs).1 ?_), fun sc hs h => .lit ((h3 sc hs).2 ?_)⟩ <;> (cases h; assumption)
  · simp at h'

theorem methUnify_grounds {n : Nat} {f : Term → Term → BSt → Res BSt Bool} (hf : RecGrounds f) {l r : Term} {b b' : BSt}
    (h : methUnify n f l r b = .ok true b') : Grounds l r b b' := by
  unfold methUnify at h
  split at h
  · exact varUnify_grounds hf h
  · simp at h; subst h
    exact ⟨.refl _, fun _ _ _ => .wild rfl, fun _ _ h => (not_wild h).elim⟩
  · rw [Res.bind_eq_ok] at h
    obtain ⟨a, s, h, h'⟩ := h
    obtain ⟨h1, rfl⟩ := Res.lift_eq_ok.1 h
    exact (Grounds.eval (hf _ _ _ _ h').symm h1).symm
  · rw [Res.bind_eq_ok] at h
    obtain ⟨a, s, h, h'⟩ := h
    obtain ⟨h1, rfl⟩ := Res.lift_eq_ok.1 h
    exact (Grounds.eval (hf _ _ _ _ h').symm h1).symm
  · exact litUnify_grounds hf h
  · unfold consUnify at h
    rw [Res.bind_eq_ok] at h
    obtain ⟨a, s, h, h'⟩ := h
    obtain ⟨h1, rfl⟩ := Res.lift_eq_ok.1 h
    refine Grounds.eval ?_ h1
    split at h'
    · exact (varUnify_grounds hf h').symm
    · simp at h'; subst h'
      exact ⟨.refl _, fun _ _ h => (not_wild h).elim, fun _ _ _ => .wild rfl⟩
    · simp at h'
    · obtain ⟨h2, h3⟩ := and_grounds hf h'
      refine ⟨h2, fun sc hs h => ?_, fun sc hs h => ?_⟩
      · cases h with
        | tup h =>
          obtain ⟨i1, i2⟩ := (h3 sc hs).1 ⟨h _ (by simp), .tup fun x hx => h x (by simp [hx])⟩
          exact .cons i1 i2
      · cases h with
        | cons j1 j2 =>
          obtain ⟨i1, i2⟩ := (h3 sc hs).2 ⟨j1, j2⟩
          refine .tup fun x hx => ?_
          rcases List.mem_cons.1 hx with rfl | hx
          · exact i1
          · cases i2 with
            | tup i2 => exact i2 x hx
    · obtain ⟨h2, h3⟩ := and_grounds hf h'
      refine ⟨h2, fun sc hs h => ?_, fun sc hs h => ?_⟩
      · cases h with
        | cons j1 j2 => exact .cons ((h3 sc hs).1 ⟨j1, j2⟩).1 ((h3 sc hs).1 ⟨j1, j2⟩).2
      · cases h with
        | cons j1 j2 => exact .cons ((h3 sc hs).2 ⟨j1, j2⟩).1 ((h3 sc hs).2 ⟨j1, j2⟩).2
    · simp at h'
  · simp at h

theorem unify_grounds : ∀ n, RecGrounds (unify n)
  | 0 => fun l r b b' h => by simp [unify] at h
  | n + 1 => fun l r b b' h => by
    have ih := unify_grounds n
    rw [unify] at h
    split at h
    · exact methUnify_grounds ih h
    · split at h
      · exact (methUnify_grounds ih h).symm
      · unfold plainUnify at h
        split at h
        · simp at h; exact h.2 ▸ ⟨.refl _, fun _ _ _ => .bool, fun _ _ _ => .bool⟩
        · split at h
          · simp at h
          · rename_i hn
            obtain ⟨h2, h3⟩ := unifyAll_grounds ih _ _ _ _ (Classical.not_not.1 hn) h
            refine ⟨h2, fun sc hs h => .tup ((h3 sc hs).1 ?_), fun sc hs h => .tup ((h3 sc hs).2 ?_)⟩ <;> (cases h; assumption)
        · simp at h; exact h.2 ▸ ⟨.refl _, fun _ _ _ => .num, fun _ _ _ => .num⟩
        · simp at h; exact h.2 ▸ ⟨.refl _, fun _ _ _ => .str, fun _ _ _ => .str⟩
        · simp at h

end

end Verif
