import Verif.Lemmas.Safe
import Verif.Lemmas.Negation

/-! Annotated unification of ground terms. -/

namespace Verif

section
variable {W A G : Type} [Arith] [inst : QWorld W A G]
variable {P : String × Nat → Prop} {w : W} {c : Bool}

omit [Arith] in
theorem Above.subScope {a b : BSt} (h : Above a b) : a.scope.Sub b.scope := fun _ _ hx => h.sub hx

omit [Arith] in
theorem Term.Closed.groundIn {t : Term} (h : t.Closed) (hw : t.NoWild) {b : Bool} {sc : Scope} : GroundIn b sc t :=
  groundIn_over (D := fun _ => False) nofun h.over fun _ => hw

omit [Arith] in
mutual
theorem Term.Closed.noWild' : ∀ {t : Term}, t.Closed → t.NoWild
  | .bool _, _ | .num _, _ | .str _, _ => by simp [Term.NoWild, Term.Every]
  | .lit _ _ _, h | .tup _, h => ⟨by simp, Term.Closed.noWildL h.2⟩
  | .cons _ _, h => ⟨by simp, Term.Closed.noWild' h.2.1, Term.Closed.noWild' h.2.2⟩
  | .un _ _, h | .bin _ _ _, h => h.1.elim
  | .var _, h | .wild, h => False.elim h
theorem Term.Closed.noWildL : ∀ {ts : List Term}, Term.EveryL (fun t =>
    match t with
    | .var _ | .wild | .un _ _ | .bin _ _ _ => False
    | _ => True) ts → Term.EveryL (· ≠ .wild) ts
  | [], _ => trivial
  | _ :: _, h => ⟨Term.Closed.noWild' h.1, Term.Closed.noWildL h.2⟩
end

omit inst in
/-- Annotated unification of ground terms binds nothing. -/
theorem ua_still0 {n d : Nat} {l r : Term} {b b' : BSt} (hl : GroundIn true b.scope l) (hr : GroundIn true b.scope r)
    (ha : l.annots = []) (h : uaStart n l r b = .ok (some d) b') : b'.scope = b.scope := by
  cases n with
  | zero => simp [uaStart] at h
  | succ n =>
    by_cases hlit : l.isLiteral = true
    · cases l <;> simp [Term.isLiteral] at hlit
      rename_i f as xs
      have : xs = [] := ha
      subst this
      simp only [uaStart, uaLit, Res.bind_eq_ok] at h
      obtain ⟨a, s, h0, h⟩ := h
      obtain ⟨h1, rfl⟩ := Res.lift_eq_ok.1 h0
      split at h
      · exact absurd rfl (evaluate_bound h1 hr _)
      · simp at h; exact h.2 ▸ rfl
      · obtain ⟨_, h⟩ := yieldIf_some h
        rw [Res.bind_eq_ok] at h
        obtain ⟨ok, b₁, h2, h3⟩ := h
        have h4 : b₁.scope = b.scope := litUnify_still (b := b.mark) (unify_still n) (by cases hl; assumption)
          (((eval_groundIn n).1 (.refl _) h1).1 hr) (.inl ⟨_, h2⟩)
        cases ok with
        | false => simp at h3
        | true =>
          simp only [if_true, matchRight] at h3
          split at h3
          · simp [matchAnnots] at h3; exact h3 ▸ h4
          · simp at h3
    · have h' : uaStart (n + 1) l r b = yieldIf b.ncp (unify n l r b.mark) := by
        cases l <;> simp_all [Term.isLiteral, uaStart]
      rw [h'] at h
      exact unify_still n _ _ b.mark _ hl hr (.inl ⟨_, (yieldIf_some h).2⟩)

omit inst in
theorem findAnnot_still {n : Nat} {left : Term} (hl : left.Closed) (ha : left.annots = []) :
    ∀ {rs rest : List Term} {b b' : BSt}, (∀ r ∈ rs, r.Closed) → findAnnot (uaStart n) left rs b = .ok (some rest) b' → b'.scope = b.scope
  | [], rest, b, b', _, h => by simp [findAnnot] at h
  | r :: rs, rest, b, b', hr, h => by
    simp only [findAnnot, Res.bind_eq_ok] at h
    obtain ⟨y, b₁, h1, h⟩ := h
    cases y with
    | some d =>
      simp at h
      rw [← h.2]
      exact ua_still0 (hl.groundIn hl.noWild') ((hr r (by simp)).groundIn (hr r (by simp)).noWild') ha h1
    | none =>
      simp only [Res.bind_eq_ok] at h
      obtain ⟨o, b₂, h2, h⟩ := h
      simp at h
      obtain ⟨⟨o', rfl, rfl⟩, rfl⟩ := h
      rw [findAnnot_still hl ha (fun t ht => hr t (by simp [ht])) h2, ((ua_trail n _ _ _).none _ h1).scope]

omit inst in
theorem matchAnnots_still {n : Nat} : ∀ {ls rs : List Term} {b b' : BSt}, (∀ l ∈ ls, l.Closed ∧ l.annots = []) → (∀ r ∈ rs, r.Closed) →
    matchAnnots (uaStart n) ls rs b = .ok true b' → b'.scope = b.scope
  | [], rs, b, b', _, _, h => by simp [matchAnnots] at h; rw [h]
  | l :: ls, rs, b, b', hl, hr, h => by
    simp only [matchAnnots, Res.bind_eq_ok] at h
    obtain ⟨o, b₁, h1, h⟩ := h
    cases o with
    | none => simp at h
    | some rest =>
      rw [matchAnnots_still (fun t ht => hl t (by simp [ht])) (fun t ht => hr t (findAnnot_rest h1 t ht)) h,
        findAnnot_still (hl l (by simp)).1 (hl l (by simp)).2 hr h1]

omit inst in
/-- Annotated unification with a ground term. -/
theorem ua_grounds {n d : Nat} {l r : Term} {b b' : BSt} (h : uaStart n l r b = .ok (some d) b') : Grounds l r b b' := by
  have hsub : b.scope.Sub b'.scope := ((ua_trail n l r b).above (.inl ⟨_, h⟩)).subScope
  cases n with
  | zero => simp [uaStart] at h
  | succ n =>
    by_cases hlit : l.isLiteral = true
    · cases l <;> simp [Term.isLiteral] at hlit
      rename_i f as xs
      simp only [uaStart, uaLit, Res.bind_eq_ok] at h
      obtain ⟨a, s, h0, h⟩ := h
      obtain ⟨h1, rfl⟩ := Res.lift_eq_ok.1 h0
      refine Grounds.eval ?_ h1
      split at h
      · exact ⟨hsub, (varUnify_grounds (unify_grounds n) (yieldIf_some h).2).right, (varUnify_grounds (unify_grounds n) (yieldIf_some h).2).left⟩
      · simp at h
        exact ⟨hsub, fun _ _ h => (not_wild h).elim, fun _ _ _ => .wild rfl⟩
      · obtain ⟨_, h⟩ := yieldIf_some h
        rw [Res.bind_eq_ok] at h
        obtain ⟨ok, b₁, h2, h3⟩ := h
        cases ok with
        | false => simp at h3
        | true =>
          have h4 := litUnify_grounds (unify_grounds n) h2
          have h5 : b₁.scope.Sub b'.scope := by
            simp only [if_true, matchRight] at h3
            split at h3
            · exact (matchAnnots_above (fun l r b b' h => (ua_trail n l r b).above h) _ _ _ _ (.inl ⟨_, h3⟩)).subScope
            · simp at h3
          exact ⟨hsub, fun sc hs => h4.left sc (h5.trans hs), fun sc hs => h4.right sc (h5.trans hs)⟩
    · have h' : uaStart (n + 1) l r b = yieldIf b.ncp (unify n l r b.mark) := by
        cases l <;> simp_all [Term.isLiteral, uaStart]
      rw [h'] at h
      have h4 := unify_grounds n _ _ _ _ (yieldIf_some h).2
      exact ⟨hsub, h4.left, h4.right⟩

end

end Verif
