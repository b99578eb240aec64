import Verif.Lemmas.Compare

/-! `deref`, `evaluate` and `grounded` preserve the meaning of terms. -/

namespace Verif

section tame
variable {c : Bool}

@[simp] theorem Term.tame_bool {b} : (Term.bool b).Tame c := by cases c <;> simp [Term.Tame]
@[simp] theorem Term.tame_num {b} : (Term.num b).Tame c := by cases c <;> simp [Term.Tame]
@[simp] theorem Term.tame_str {b} : (Term.str b).Tame c := by cases c <;> simp [Term.Tame]
@[simp] theorem Term.tame_var {b} : (Term.var b).Tame c := by cases c <;> simp [Term.Tame]
@[simp] theorem Term.tame_wild : (Term.wild).Tame c := by cases c <;> simp [Term.Tame]
theorem Term.tame_lit {f as xs} :
    (Term.lit f as xs).Tame c ↔ (c = true → xs = []) ∧ ∀ t ∈ as, t.Tame c := by
  cases c <;> simp [Term.Tame]
@[simp] theorem Term.tame_tup {xs} : (Term.tup xs).Tame c ↔ ∀ t ∈ xs, t.Tame c := by
  cases c <;> simp [Term.Tame]
@[simp] theorem Term.tame_cons {h t} : (Term.cons h t).Tame c ↔ h.Tame c ∧ t.Tame c := by
  cases c <;> simp [Term.Tame]
@[simp] theorem Term.tame_un {o t} : (Term.un o t).Tame c ↔ t.Tame c := by
  cases c <;> simp [Term.Tame]
theorem Term.tame_bin {o l r} :
    (Term.bin o l r).Tame c ↔ (c = false → o.compOp = false) ∧ l.Tame c ∧ r.Tame c := by
  cases c <;> simp [Term.Tame]

theorem Term.Closed.tame_false {t : Term} (h : t.Closed) : t.Tame false := by
  simpa [Term.Tame] using h.noCmp
end tame

section
variable [Arith] {c : Bool} {sc : Scope}

/-- What `deref`/`evaluate` guarantee about their result. -/
structure EvalOK (c : Bool) (sc : Scope) (t t' : Term) : Prop where
  tame : t'.Tame c
  noWild : t.NoWild → t'.NoWild
  den : ∀ σ, Models σ sc → ∀ v, Den σ t v ↔ Den σ t' v
  unbound : ∀ y, t' = .var y → sc y = none

theorem deref_spec (hsc : ScopeOK c sc) : ∀ (n : Nat) (t t' : Term), t.Tame c → deref n sc t = .ok t' →
    EvalOK c sc t t'
  | 0, t, t', _, h => by simp [deref] at h
  | n + 1, .var x, t', ht, h => by
    rw [deref] at h
    cases hx : sc x with
    | none =>
      simp [hx] at h; subst h
      exact ⟨ht, id, fun _ _ _ => Iff.rfl, by intro y hy; injection hy with hy; rw [← hy, hx]⟩
    | some u =>
      simp only [hx] at h
      have hu := hsc x u hx
      have ih := deref_spec hsc n u t' hu.2 h
      refine ⟨ih.tame, fun _ => ih.noWild hu.1, fun σ hσ v => ?_, ih.unbound⟩
      rw [← ih.den σ hσ v]
      constructor
      · intro hv
        simp only [Den] at hv; subst hv
        exact hσ x u hx
      · intro hv
        exact den_unique u hu.1 _ _ hv (hσ x u hx)
  | n + 1, .bool b, t', ht, h => by
    simp [deref] at h; subst h; exact ⟨ht, id, fun _ _ _ => Iff.rfl, by simp⟩
  | n + 1, .num b, t', ht, h => by
    simp [deref] at h; subst h; exact ⟨ht, id, fun _ _ _ => Iff.rfl, by simp⟩
  | n + 1, .str b, t', ht, h => by
    simp [deref] at h; subst h; exact ⟨ht, id, fun _ _ _ => Iff.rfl, by simp⟩
  | n + 1, .lit _ _ _, t', ht, h => by
    simp [deref] at h; subst h; exact ⟨ht, id, fun _ _ _ => Iff.rfl, by simp⟩
  | n + 1, .tup _, t', ht, h => by
    simp [deref] at h; subst h; exact ⟨ht, id, fun _ _ _ => Iff.rfl, by simp⟩
  | n + 1, .cons _ _, t', ht, h => by
    simp [deref] at h; subst h; exact ⟨ht, id, fun _ _ _ => Iff.rfl, by simp⟩
  | n + 1, .wild, t', ht, h => by
    simp [deref] at h; subst h; exact ⟨ht, id, fun _ _ _ => Iff.rfl, by simp⟩
  | n + 1, .un _ _, t', ht, h => by
    simp [deref] at h; subst h; exact ⟨ht, id, fun _ _ _ => Iff.rfl, by simp⟩
  | n + 1, .bin _ _ _, t', ht, h => by
    simp [deref] at h; subst h; exact ⟨ht, id, fun _ _ _ => Iff.rfl, by simp⟩

theorem EvalOK.trans {t t' t'' : Term} (h : EvalOK c sc t t') (h' : EvalOK c sc t' t'') :
    EvalOK c sc t t'' :=
  ⟨h'.tame, fun w => h'.noWild (h.noWild w), fun σ hσ v => (h.den σ hσ v).trans (h'.den σ hσ v), h'.unbound⟩

theorem unFunc_spec {op : UnOp} {t t' : Term} (h : unFunc op t = .ok t') :
    (∀ σ : Asg, ∀ v, Den σ t' v ↔ ∃ a, Den σ t a ∧ Val.unSem op a = some v) ∧
    ((∃ b, t' = .bool b) ∨ ∃ q, t' = .num q) := by
  unfold unFunc at h
  split at h <;> simp at h <;> subst h <;> simp [Den, Val.unSem, eq_comm]

theorem binFunc_spec {op : BinOp} {l r t' : Term} (hc : op.compOp = false) (h : binFunc op l r = .ok t') :
    (∀ σ : Asg, ∀ v, Den σ t' v ↔ ∃ a b, Den σ l a ∧ Den σ r b ∧ Val.binSem op a b = some v) ∧
    ((∃ b, t' = .bool b) ∨ ∃ q, t' = .num q) := by
  unfold binFunc at h
  split at h
  · rename_i hb
    split at h
    · simp at h; subst h
      cases op <;> simp [BinOp.booleanOp] at hb <;>
        exact ⟨fun σ v => by simp [Den, Val.binSem, BinOp.compOp]; exact eq_comm, by simp⟩
    · simp at h
  · split at h
    · rename_i hb hn
      split at h
      · split at h
        · rename_i q hq
          simp at h; subst h
          cases op <;> simp [BinOp.numericOp] at hn <;>
            exact ⟨fun σ v => by simp [Den, Val.binSem, BinOp.compOp, BinOp.numericOp, hq]; exact eq_comm, by simp⟩
        · simp at h
      · simp at h
    · simp at h

omit [Arith] in
theorem mapL_mem {α β : Type} {f : α → Ev β} : ∀ {xs : List α} {ys : List β}, Ev.mapL f xs = .ok ys →
    ∀ y ∈ ys, ∃ x ∈ xs, f x = .ok y
  | [], ys, h => by simp [Ev.mapL] at h; subst h; simp
  | x :: xs, ys, h => by
    simp only [Ev.mapL, Ev.bind_eq_ok, Ev.map_eq_ok] at h
    obtain ⟨a, ha, as, has, rfl⟩ := h
    intro y hy
    rcases List.mem_cons.1 hy with rfl | hy
    · exact ⟨x, by simp, ha⟩
    · obtain ⟨x', hx', e⟩ := mapL_mem has y hy
      exact ⟨x', by simp [hx'], e⟩

omit [Arith] in
theorem mapL_length {α β : Type} {f : α → Ev β} : ∀ {xs : List α} {ys : List β}, Ev.mapL f xs = .ok ys →
    ys.length = xs.length
  | [], ys, h => by simp [Ev.mapL] at h; subst h; simp
  | x :: xs, ys, h => by
    simp only [Ev.mapL, Ev.bind_eq_ok, Ev.map_eq_ok] at h
    obtain ⟨a, ha, as, has, rfl⟩ := h
    simp [mapL_length has]

theorem mapL_den {σ : Asg} {f : Term → Ev Term} : ∀ {xs ys : List Term}, Ev.mapL f xs = .ok ys →
    (∀ x ∈ xs, ∀ y, f x = .ok y → ∀ v, Den σ x v ↔ Den σ y v) → ∀ v, DenL σ xs v ↔ DenL σ ys v
  | [], ys, h, _ => by simp [Ev.mapL] at h; subst h; simp
  | x :: xs, ys, h, hf => by
    simp only [Ev.mapL, Ev.bind_eq_ok, Ev.map_eq_ok] at h
    obtain ⟨a, ha, as, has, rfl⟩ := h
    intro v
    simp only [DenL, hf x (by simp) a ha, mapL_den has (fun x hx => hf x (by simp [hx]))]

/-- What `grounded` guarantees about its result. -/
structure GroundOK (c : Bool) (sc : Scope) (t g : Term) : Prop where
  tame : g.Tame c
  closed : g.Closed
  den : ∀ σ, Models σ sc → ∀ v, Den σ t v ↔ Den σ g v

theorem eval_grounded_spec (hsc : ScopeOK c sc) : ∀ (n : Nat),
    (∀ t t', t.Tame c → evaluate n sc t = .ok t' → EvalOK c sc t t') ∧
    (∀ t g, t.Tame c → grounded n sc t = .ok g → GroundOK c sc t g)
  | 0 => ⟨by simp [evaluate], by simp [grounded]⟩
  | n + 1 => by
    obtain ⟨ihe, ihg⟩ := eval_grounded_spec hsc n
    have base : ∀ t : Term, t.Tame c → (∀ y, t ≠ .var y) → EvalOK c sc t t := fun t ht hv =>
      ⟨ht, id, fun _ _ _ => Iff.rfl, fun y hy => absurd hy (hv y)⟩
    have he : ∀ t t', t.Tame c → evaluate (n + 1) sc t = .ok t' → EvalOK c sc t t' := by
      intro t t' ht h
      rw [evaluate.eq_def] at h
      cases t with
      | var x =>
        simp only at h
        cases hx : sc x with
        | none =>
          simp [hx] at h; subst h
          exact ⟨ht, id, fun _ _ _ => Iff.rfl, by intro y hy; injection hy with hy; rw [← hy, hx]⟩
        | some u =>
          simp only [hx, Ev.bind_eq_ok] at h
          obtain ⟨d, hd, h⟩ := h
          have := deref_spec hsc n _ _ ht hd
          exact this.trans (ihe d t' this.tame h)
      | un op t =>
        simp only [Ev.bind_eq_ok] at h
        obtain ⟨u, hu, h⟩ := h
        have i := ihe t u (by simpa using ht) hu
        obtain ⟨h1, h2⟩ := unFunc_spec h
        have h3 : t'.Tame c ∧ t'.NoWild ∧ ∀ y, t' ≠ .var y := by
          rcases h2 with ⟨b, rfl⟩ | ⟨q, rfl⟩ <;> simp
        refine ⟨h3.1, fun _ => h3.2.1, fun σ hσ v => ?_, fun y hy => absurd hy (h3.2.2 y)⟩
        rw [h1 σ v]
        simp only [Den, i.den σ hσ]
      | bin op l r =>
        simp only [Ev.bind_eq_ok] at h
        obtain ⟨l', hl, r', hr, h⟩ := h
        rw [Term.tame_bin] at ht
        have il := ihe l l' ht.2.1 hl
        have ir := ihe r r' ht.2.2 hr
        cases hop : op.compOp with
        | false =>
          simp [hop] at h
          obtain ⟨h1, h2⟩ := binFunc_spec hop h
          have h3 : t'.Tame c ∧ t'.NoWild ∧ ∀ y, t' ≠ .var y := by
            rcases h2 with ⟨b, rfl⟩ | ⟨q, rfl⟩ <;> simp
          refine ⟨h3.1, fun _ => h3.2.1, fun σ hσ v => ?_, fun y hy => absurd hy (h3.2.2 y)⟩
          rw [h1 σ v]
          simp only [Den, il.den σ hσ, ir.den σ hσ]
        | true =>
          simp only [hop, if_true, Ev.bind_eq_ok, Ev.map_eq_ok] at h
          obtain ⟨l'', hl', r'', hr', p, hp, rfl⟩ := h
          have hc : c = true := by
            cases c
            · simp [ht.1] at hop
            · rfl
          subst hc
          have gl := ihg l' l'' il.tame hl'
          have gr := ihg r' r'' ir.tame hr'
          refine ⟨by simp, fun _ => by simp, fun σ hσ v => ?_, by simp⟩
          obtain ⟨a, ha⟩ := den_exists (σ := σ) l'' gl.closed
          obtain ⟨b, hb⟩ := den_exists (σ := σ) r'' gr.closed
          have hcmp := pyCompare_den ⟨gl.closed, by simpa [Term.Tame] using gl.tame⟩
            ⟨gr.closed, by simpa [Term.Tame] using gr.tame⟩ ha hb hp
          simp only [Den, il.den σ hσ, ir.den σ hσ, gl.den σ hσ, gr.den σ hσ]
          constructor
          · rintro ⟨a', b', ha', hb', e⟩
            rw [den_unique l'' gl.closed.noWild _ _ ha' ha,
              den_unique r'' gr.closed.noWild _ _ hb' hb] at e
            simp [Val.binSem, hop, hcmp] at e
            exact e.symm
          · rintro rfl
            exact ⟨a, b, ha, hb, by simp [Val.binSem, hop, hcmp]⟩
      | _ => simp at h; subst h; exact base _ ht (by simp)
    refine ⟨he, ?_⟩
    intro t g ht h
    rw [grounded.eq_def] at h
    cases t with
    | var x =>
      simp only at h
      cases hx : sc x with
      | none => simp [hx] at h
      | some u =>
        simp only [hx, Ev.bind_eq_ok] at h
        obtain ⟨d, hd, h⟩ := h
        have i := deref_spec hsc n _ _ ht hd
        have j := ihg d g i.tame h
        exact ⟨j.tame, j.closed, fun σ hσ v => (i.den σ hσ v).trans (j.den σ hσ v)⟩
    | wild => simp at h
    | un op t =>
      simp only [Ev.bind_eq_ok] at h
      obtain ⟨d, hd, h⟩ := h
      have i := ihe _ d ht hd
      have j := ihg d g i.tame h
      exact ⟨j.tame, j.closed, fun σ hσ v => (i.den σ hσ v).trans (j.den σ hσ v)⟩
    | bin op l r =>
      simp only [Ev.bind_eq_ok] at h
      obtain ⟨d, hd, h⟩ := h
      have i := ihe _ d ht hd
      have j := ihg d g i.tame h
      exact ⟨j.tame, j.closed, fun σ hσ v => (i.den σ hσ v).trans (j.den σ hσ v)⟩
    | lit f args annots =>
      simp only [Ev.bind_eq_ok, Ev.ok.injEq] at h
      obtain ⟨args', h1, annots', h2, rfl⟩ := h
      rw [Term.tame_lit] at ht
      refine ⟨?_, ?_, fun σ hσ v => ?_⟩
      · rw [Term.tame_lit]
        refine ⟨fun hc => ?_, fun y hy => ?_⟩
        · have := ht.1 hc; subst this
          simp [Ev.mapL] at h2; subst h2; rfl
        · obtain ⟨x, hx, e⟩ := mapL_mem h1 y hy
          exact (ihg x y (ht.2 x hx) e).tame
      · simp only [Term.closed_lit]
        intro y hy
        obtain ⟨x, hx, e⟩ := mapL_mem h1 y hy
        exact (ihg x y (ht.2 x hx) e).closed
      · simp only [Den, mapL_den h1 (fun x hx y e => (ihg x y (ht.2 x hx) e).den σ hσ)]
    | cons hd tl =>
      simp only [Ev.bind_eq_ok, Ev.ok.injEq] at h
      obtain ⟨h', e1, t', e2, rfl⟩ := h
      simp at ht
      have i := ihg _ _ ht.1 e1
      have j := ihg _ _ ht.2 e2
      exact ⟨by simp [i.tame, j.tame], by simp [i.closed, j.closed],
        fun σ hσ v => by simp only [Den, i.den σ hσ, j.den σ hσ]⟩
    | tup xs =>
      simp only [Ev.map_eq_ok] at h
      obtain ⟨ys, h1, rfl⟩ := h
      simp at ht
      refine ⟨?_, ?_, fun σ hσ v => ?_⟩
      · simp only [Term.tame_tup]
        intro y hy
        obtain ⟨x, hx, e⟩ := mapL_mem h1 y hy
        exact (ihg x y (ht x hx) e).tame
      · simp only [Term.closed_tup]
        intro y hy
        obtain ⟨x, hx, e⟩ := mapL_mem h1 y hy
        exact (ihg x y (ht x hx) e).closed
      · simp only [Den, mapL_den h1 (fun x hx y e => (ihg x y (ht x hx) e).den σ hσ)]
    | bool b => simp at h; subst h; exact ⟨by simp, by simp, fun _ _ _ => Iff.rfl⟩
    | num b => simp at h; subst h; exact ⟨by simp, by simp, fun _ _ _ => Iff.rfl⟩
    | str b => simp at h; subst h; exact ⟨by simp, by simp, fun _ _ _ => Iff.rfl⟩

theorem evaluate_spec (hsc : ScopeOK c sc) {n : Nat} {t t' : Term} (ht : t.Tame c)
    (h : evaluate n sc t = .ok t') : EvalOK c sc t t' :=
  (eval_grounded_spec hsc n).1 t t' ht h

theorem grounded_spec (hsc : ScopeOK c sc) {n : Nat} {t g : Term} (ht : t.Tame c)
    (h : grounded n sc t = .ok g) : GroundOK c sc t g :=
  (eval_grounded_spec hsc n).2 t g ht h

/-- The result of evaluation is not an expression. -/
theorem evaluate_not_expr : ∀ {n : Nat} {t t' : Term}, evaluate n sc t = .ok t' →
    (∀ op u, t' ≠ .un op u) ∧ (∀ op l r, t' ≠ .bin op l r)
  | 0, t, t', h => by simp [evaluate] at h
  | n + 1, t, t', h => by
    rw [evaluate.eq_def] at h
    cases t with
    | var x =>
      simp only at h
      cases hx : sc x with
      | none => simp [hx] at h; subst h; simp
      | some u =>
        simp only [hx, Ev.bind_eq_ok] at h
        obtain ⟨d, _, h⟩ := h
        exact evaluate_not_expr h
    | un op t =>
      simp only [Ev.bind_eq_ok] at h
      obtain ⟨u, hu, h⟩ := h
      rcases (unFunc_spec h).2 with ⟨b, rfl⟩ | ⟨q, rfl⟩ <;> simp
    | bin op l r =>
      simp only [Ev.bind_eq_ok] at h
      obtain ⟨l', hl, r', hr, h⟩ := h
      cases hop : op.compOp with
      | false =>
        simp [hop] at h
        rcases (binFunc_spec hop h).2 with ⟨b, rfl⟩ | ⟨q, rfl⟩ <;> simp
      | true =>
        simp only [hop, if_true, Ev.bind_eq_ok, Ev.map_eq_ok] at h
        obtain ⟨l'', hl', r'', hr', p, hp, rfl⟩ := h
        simp
    | _ => simp at h; subst h; simp

/-- Closed terms evaluate to themselves. -/
theorem evaluate_closed {n : Nat} {t t' : Term} (ht : t.Closed) (h : evaluate n sc t = .ok t') : t' = t := by
  cases n with
  | zero => simp [evaluate] at h
  | succ n =>
    rw [evaluate.eq_def] at h
    cases t <;> simp_all

end

end Verif
