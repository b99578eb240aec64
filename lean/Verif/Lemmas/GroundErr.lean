import Verif.Lemmas.Freeze
import Verif.Spec.Beliefs

/-! `grounded` raises `AslError` only, unless there are expressions. -/

namespace Verif

variable [Arith]

omit [Arith] in
theorem mapL_err {α β : Type} {f : α → Ev β} : ∀ {xs : List α} {e : Err}, Ev.mapL f xs = .err e → ∃ x ∈ xs, f x = .err e
  | x :: xs, e, h => by
    rw [Ev.mapL] at h
    cases hx : f x with
    | ok y =>
      simp only [hx, Ev.bind_ok] at h
      cases hy : Ev.mapL f xs with
      | ok ys => simp [hy] at h
      | err e' =>
        simp [hy] at h; subst h
        obtain ⟨z, hz, h⟩ := mapL_err hy
        exact ⟨z, by simp [hz], h⟩
      | oof => simp [hy] at h
    | err e' => simp [hx] at h; subst h; exact ⟨x, by simp, hx⟩
    | oof => simp [hx] at h

omit [Arith] in
theorem deref_ne_err : ∀ (n : Nat) (sc : Scope) (t : Term) (e : Err), deref n sc t ≠ .err e
  | 0, _, _, _ => by simp [deref]
  | n + 1, sc, t, e => by
    cases t with
    | var x =>
      rw [deref]
      cases h : sc x with
      | none => simp
      | some u => exact deref_ne_err n sc u e
    | _ => simp [deref]

theorem grounded_err {sc : Scope} (hsc : ∀ x t, sc x = some t → t.ExprFree) : ∀ (n : Nat) (t : Term) (e : Err),
    t.ExprFree → grounded n sc t = .err e → ∃ m, e = .asl m
  | 0, _, _, _, h => by simp [grounded] at h
  | n + 1, t, e, ht, h => by
    have ih := grounded_err hsc n
    rw [grounded.eq_def] at h
    cases t with
    | var x =>
      simp only at h
      cases hx : sc x with
      | none => simp [hx] at h; exact ⟨_, h.symm⟩
      | some u =>
        simp only [hx] at h
        cases hd : deref n sc (.var x) with
        | ok v => rw [hd] at h; exact ih v e (deref_exprFree hsc n _ v ht hd) h
        | err e' => exact absurd hd (deref_ne_err _ _ _ _)
        | oof => simp [hd] at h
    | wild => simp at h; exact ⟨_, h.symm⟩
    | un o t => simp [Term.ExprFree, Term.All] at ht
    | bin o l r => simp [Term.ExprFree, Term.All] at ht
    | lit f as xs =>
      simp only [Term.ExprFree, Term.All, Term.allL_iff] at ht
      simp only at h
      cases h1 : Ev.mapL (grounded n sc) as with
      | err e' =>
        simp [h1] at h; subst h
        obtain ⟨x, hx, h1⟩ := mapL_err h1
        exact ih x e' (ht.2.1 x hx) h1
      | oof => simp [h1] at h
      | ok as' =>
        simp only [h1, Ev.bind_ok] at h
        cases h2 : Ev.mapL (grounded n sc) xs with
        | err e' =>
          simp [h2] at h; subst h
          obtain ⟨x, hx, h2⟩ := mapL_err h2
          exact ih x e' (ht.2.2 x hx) h2
        | oof => simp [h2] at h
        | ok xs' => simp [h2] at h
    | cons hd tl =>
      simp only [Term.ExprFree, Term.All] at ht
      simp only at h
      cases h1 : grounded n sc hd with
      | err e' => simp [h1] at h; subst h; exact ih hd e' ht.2.1 h1
      | oof => simp [h1] at h
      | ok as' =>
        simp only [h1, Ev.bind_ok] at h
        cases h2 : grounded n sc tl with
        | err e' => simp [h2] at h; subst h; exact ih tl e' ht.2.2 h2
        | oof => simp [h2] at h
        | ok xs' => simp [h2] at h
    | tup xs =>
      simp only [Term.ExprFree, Term.All, Term.allL_iff] at ht
      simp only at h
      cases h1 : Ev.mapL (grounded n sc) xs with
      | err e' =>
        simp [h1] at h; subst h
        obtain ⟨x, hx, h1⟩ := mapL_err h1
        exact ih x e' (ht.2 x hx) h1
      | oof => simp [h1] at h
      | ok as' => simp [h1] at h
    | _ => simp at h

omit [Arith] in
theorem deref_unbound {sc : Scope} : ∀ (n : Nat) (t v : Term), Unbound sc t → deref n sc t = .ok v → Unbound sc v
  | 0, _, _, _, h => by simp [deref] at h
  | n + 1, t, v, ht, h => by
    cases t with
    | var x =>
      rw [deref] at h
      cases hx : sc x with
      | none => simp [hx] at h; exact h ▸ ht
      | some u =>
        simp only [hx] at h
        refine deref_unbound n u v ?_ h
        cases ht with
        | var h' => rw [hx] at h'; cases h'
        | bound h' hu => rw [hx] at h'; cases h'; exact hu
    | _ => simp [deref] at h; exact h ▸ ht

omit [Arith] in
theorem allL_true_mem {α : Type} {f : α → Ev Bool} : ∀ {xs : List α}, Ev.allL f xs = .ok true → ∀ x ∈ xs, f x = .ok true
  | y :: ys, h, x, hx => by
    rw [Ev.allL, Ev.bind_eq_ok] at h
    obtain ⟨b, h1, h⟩ := h
    cases b with
    | false => simp at h
    | true =>
      simp at h
      rcases List.mem_cons.1 hx with rfl | hx
      · exact h1
      · exact allL_true_mem h x hx

omit [Arith] in
theorem isGround_unbound {sc : Scope} : ∀ (n : Nat) (t : Term), Unbound sc t → isGround n sc t ≠ .ok true
  | 0, _, _ => by simp [isGround]
  | n + 1, t, ht => by
    have ih := isGround_unbound (sc := sc) n
    intro h
    rw [isGround.eq_def] at h
    cases ht with
    | var hx => simp [hx] at h
    | bound hx hu =>
      simp only [hx, Ev.bind_eq_ok] at h
      obtain ⟨v, h1, h⟩ := h
      exact ih v (deref_unbound n _ v (.bound hx hu) h1) h
    | wild => simp at h
    | arg hm hu =>
      simp only [Ev.bind_eq_ok] at h
      obtain ⟨b, h1, h⟩ := h
      cases b with
      | false => simp at h
      | true => exact ih _ hu (allL_true_mem h1 _ hm)
    | annot hm hu =>
      simp only [Ev.bind_eq_ok] at h
      obtain ⟨b, h1, h⟩ := h
      cases b with
      | false => simp at h
      | true => simp at h; exact ih _ hu (allL_true_mem h _ hm)
    | item hm hu => exact ih _ hu (allL_true_mem h _ hm)
    | head hu =>
      simp only [Ev.bind_eq_ok] at h
      obtain ⟨b, h1, h⟩ := h
      cases b with
      | false => simp at h
      | true => exact ih _ hu h1
    | tail hu =>
      simp only [Ev.bind_eq_ok] at h
      obtain ⟨b, h1, h⟩ := h
      cases b with
      | false => simp at h
      | true => simp at h; exact ih _ hu h
    | un hu => exact ih _ hu h
    | left hu =>
      simp only [Ev.bind_eq_ok] at h
      obtain ⟨b, h1, h⟩ := h
      cases b with
      | false => simp at h
      | true => exact ih _ hu h1
    | right hu =>
      simp only [Ev.bind_eq_ok] at h
      obtain ⟨b, h1, h⟩ := h
      cases b with
      | false => simp at h
      | true => simp at h; exact ih _ hu h

theorem grounded_unbound {sc : Scope} {n : Nat} {t g : Term} (ht : Unbound sc t) : grounded n sc t ≠ .ok g := fun h => by
  obtain ⟨m, hm⟩ := (eval_grounded_isGround sc n).2 t g h
  exact isGround_unbound m t ht hm

/-- `grounded` keeps functor and arity. -/
theorem grounded_lit {sc : Scope} {n : Nat} {f : String} {as xs : List Term} {g : Term}
    (h : grounded n sc (.lit f as xs) = .ok g) : ∃ bs ys, g = .lit f bs ys ∧ bs.length = as.length := by
  cases n with
  | zero => simp [grounded] at h
  | succ n =>
    rw [grounded] at h
    simp only [Ev.bind_eq_ok] at h
    obtain ⟨bs, h1, ys, _, h⟩ := h
    simp only [Ev.ok.injEq] at h
    exact ⟨bs, _, h.symm, mapL_length h1⟩

end Verif
