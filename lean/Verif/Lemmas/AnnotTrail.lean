import Verif.Lemmas.Trail

/-! Annotated unification and the trail. -/

namespace Verif

variable [Arith]

omit [Arith] in
theorem Same.refl (b : BSt) : Same b b := ⟨rfl, Nat.le_refl _⟩
omit [Arith] in
theorem Same.scope {b b' : BSt} (h : Same b b') : b'.scope = b.scope := by rw [h.1]
omit [Arith] in
theorem Same.stack {b b' : BSt} (h : Same b b') : b'.stack = b.stack := by rw [h.1]
omit [Arith] in
theorem Same.above {b b' : BSt} (h : Same b b') : Above b b' := by
  rw [h.1]; exact above_same h.2
omit [Arith] in
theorem Same.trans {a b c : BSt} (h : Same a b) (h' : Same b c) : Same a c := by
  refine ⟨?_, Nat.le_trans h.2 h'.2⟩
  have e : c = { b with ncp := c.ncp } := h'.1
  rw [e, h.1]

omit [Arith] in
theorem same_reroll {b b' : BSt} (h : Above b.mark b') : Same b (reroll b' b.ncp) := by
  rw [reroll_mark h]
  exact ⟨rfl, Nat.le_trans (Nat.le_succ _) (above_ncp h)⟩

omit [Arith] in
/-- Scope and stack are restored even if other things happened before the choicepoint. -/
theorem Same.of_above {a b b' : BSt} (h : Same a b) (h' : Above b.mark b') : Same a (reroll b' b.ncp) :=
  h.trans (same_reroll h')

/-- What the generator `unify_annotated` does to the trail up to its first `yield`. -/
structure UaTrail (l r : Term) (b : BSt) (x : Res BSt (Option Nat)) : Prop where
  none : ∀ b', x = .ok none b' → Same b b'
  some : ∀ c b', x = .ok (some c) b' → c = b.ncp ∧ Above b b' ∧
    (Above b.mark b' ∨ (l.isLiteral = true ∧ ∃ n r', evaluate n b.scope r = .ok r' ∧ (r' = .wild ∨ ∃ y, r' = .var y)))
  err : ∀ e b', x = .err e b' → Above b b'

theorem UaTrail.above {l r : Term} {b b' : BSt} {x : Res BSt (Option Nat)} (h : UaTrail l r b x)
    (hx : x.leaves b') : Above b b' := by
  rcases hx with ⟨a, hx⟩ | ⟨e, hx⟩
  · cases a with
    | none => exact (h.none b' hx).above
    | some c => exact (h.some c b' hx).2.1
  · exact h.err e b' hx

omit [Arith] in
theorem findAnnot_above {ua : Term → Term → BSt → Res BSt (Option Nat)} (hu : ∀ l r b b', (ua l r b).leaves b' → Above b b')
    (left : Term) : ∀ (rs : List Term) (b b' : BSt), (findAnnot ua left rs b).leaves b' → Above b b'
  | [], b, b', h => by
    rcases h with ⟨a, h⟩ | ⟨e, h⟩ <;> simp [findAnnot] at h
    rw [← h.2]; exact .refl _
  | r :: rs, b, b', h => by
    unfold findAnnot at h
    rcases Res.leaves_bind.1 h with h | ⟨y, b₁, h1, h⟩
    · exact hu _ _ _ _ (Or.inr h)
    · refine (hu _ _ _ _ (Or.inl ⟨_, h1⟩)).trans ?_
      cases y with
      | some c =>
        rcases h with ⟨a, h⟩ | ⟨e, h⟩ <;> simp at h
        rw [← h.2]; exact .refl _
      | none =>
        simp only at h
        rcases Res.leaves_bind.1 h with h | ⟨o, b₂, h2, h⟩
        · exact findAnnot_above hu left rs _ _ (Or.inr h)
        · refine (findAnnot_above hu left rs _ _ (Or.inl ⟨_, h2⟩)).trans ?_
          rcases h with ⟨a, h⟩ | ⟨e, h⟩ <;> simp at h
          rw [← h.2]; exact .refl _

omit [Arith] in
theorem matchAnnots_above {ua : Term → Term → BSt → Res BSt (Option Nat)} (hu : ∀ l r b b', (ua l r b).leaves b' → Above b b') :
    ∀ (ls rs : List Term) (b b' : BSt), (matchAnnots ua ls rs b).leaves b' → Above b b'
  | [], rs, b, b', h => by
    rcases h with ⟨a, h⟩ | ⟨e, h⟩ <;> simp [matchAnnots] at h
    rw [← h.2]; exact .refl _
  | l :: ls, rs, b, b', h => by
    unfold matchAnnots at h
    rcases Res.leaves_bind.1 h with h | ⟨o, b₁, h1, h⟩
    · exact findAnnot_above hu _ _ _ _ (Or.inr h)
    · refine (findAnnot_above hu _ _ _ _ (Or.inl ⟨_, h1⟩)).trans ?_
      cases o with
      | none =>
        rcases h with ⟨a, h⟩ | ⟨e, h⟩ <;> simp at h
        rw [← h.2]; exact .refl _
      | some rest => exact matchAnnots_above hu ls rest _ _ h

theorem litUnify_grow' {n : Nat} {f : String} {as xs : List Term} {r : Term} {b b' : BSt}
    (h : (litUnify n (unify n) f as xs r b).leaves b') : Grow b b' :=
  litUnify_grow (unify_grow n) h


omit [Arith] in
theorem yieldIf_none {c : Nat} {x : Res BSt Bool} {b' : BSt} (h : yieldIf c x = .ok none b') :
    ∃ b, x = .ok false b ∧ b' = reroll b c := by
  simp only [yieldIf, Res.bind_eq_ok] at h
  obtain ⟨a, b, h1, h⟩ := h
  cases a <;> simp at h
  exact ⟨b, h1, h.symm⟩

omit [Arith] in
theorem yieldIf_some {c d : Nat} {x : Res BSt Bool} {b' : BSt} (h : yieldIf c x = .ok (some d) b') :
    d = c ∧ x = .ok true b' := by
  simp only [yieldIf, Res.bind_eq_ok] at h
  obtain ⟨a, b, h1, h⟩ := h
  cases a <;> simp at h
  exact ⟨h.1.symm, by rw [h1, h.2]⟩

omit [Arith] in
theorem yieldIf_err {c : Nat} {x : Res BSt Bool} {e : Err} {b' : BSt} (h : yieldIf c x = .err e b') :
    x = .err e b' := by
  cases x with
  | ok a b => cases a <;> simp [yieldIf] at h
  | err e' b => simpa [yieldIf] using h
  | oof => simp [yieldIf] at h

omit [Arith] in
theorem yieldIf_mark_trail {l r : Term} {b : BSt} {x : Res BSt Bool} (h : ∀ b', x.leaves b' → Above b.mark b')
    (isAr : Arith) : UaTrail l r b (yieldIf b.ncp x) where
  none := fun b' hb => by
    obtain ⟨b₁, h1, rfl⟩ := yieldIf_none hb
    exact same_reroll (h _ (Or.inl ⟨_, h1⟩))
  some := fun c b' hb => by
    obtain ⟨rfl, h1⟩ := yieldIf_some hb
    have := h _ (Or.inl ⟨_, h1⟩)
    exact ⟨rfl, (above_mark b).trans this, Or.inl this⟩
  err := fun e b' hb => (above_mark b).trans (h _ (Or.inr ⟨e, yieldIf_err hb⟩))

/-- Unifying an unbound variable always succeeds. -/
theorem varUnify_unbound {n : Nat} {rec : Term → Term → BSt → Res BSt Bool} {y : VarId} {t : Term} {b b' : BSt} {a : Bool}
    (hy : b.scope y = none) (h : varUnify n rec y t b = .ok a b') : a = true := by
  unfold varUnify at h
  simp only [hy] at h
  split at h
  · simp at h; exact h.1
  · simp only [Res.bind_eq_ok] at h
    obtain ⟨_, _, _, _, _, _, h⟩ := h
    simp at h; exact h.1

theorem ua_trail : ∀ (n : Nat) (l r : Term) (b : BSt), UaTrail l r b (uaStart n l r b)
  | 0, _, _, _ => ⟨by simp [uaStart], by simp [uaStart], by simp [uaStart]⟩
  | n + 1, l, r, b => by
    have ih : ∀ l r b b', (uaStart n l r b).leaves b' → Above b b' := fun l r b b' h => (ua_trail n l r b).above h
    have gen : UaTrail l r b (yieldIf b.ncp (unify n l r b.mark)) :=
      yieldIf_mark_trail (fun b' hb => (unify_grow n _ _ _ _ hb).above) ‹_›
    cases l with
    | lit f as xs =>
      simp only [uaStart, uaLit]
      cases he : evaluate n b.scope r with
      | oof => exact ⟨by simp, by simp, by simp⟩
      | err e => exact ⟨by simp, by simp, by simp; exact .refl _⟩
      | ok r' =>
        simp only [Res.lift_ok, Res.bind_ok]
        split
        · rename_i y
          have hy : b.newCp.2.scope y = none := evaluate_var_unbound n _ _ _ he
          have hab : ∀ b', (varUnify n (unify n) y (.lit f as xs) b.newCp.2).leaves b' → Above b b' :=
            fun b' hb => ((Above.refl b).newCp).trans (varUnify_grow (unify_grow n) hb).above
          constructor
          · intro b' hb
            obtain ⟨b₁, h1, _⟩ := yieldIf_none hb
            simpa using varUnify_unbound hy h1
          · intro c b' hb
            obtain ⟨rfl, h1⟩ := yieldIf_some hb
            exact ⟨rfl, hab _ (Or.inl ⟨_, h1⟩), Or.inr ⟨rfl, n, _, he, Or.inr ⟨y, rfl⟩⟩⟩
          · intro e b' hb
            exact hab _ (Or.inr ⟨e, yieldIf_err hb⟩)
        · constructor
          · simp
          · intro c b' hb
            simp at hb
            obtain ⟨rfl, rfl⟩ := hb
            exact ⟨rfl, (Above.refl b).newCp, Or.inr ⟨rfl, n, _, he, Or.inl rfl⟩⟩
          · simp
        · refine yieldIf_mark_trail (fun b' hb => ?_) ‹_›
          rcases Res.leaves_bind.1 hb with ⟨e, h⟩ | ⟨a, b₁, h1, h⟩
          · exact (litUnify_grow' (Or.inr ⟨e, h⟩)).above
          · refine (litUnify_grow' (Or.inl ⟨_, h1⟩)).above.trans ?_
            cases a
            · simp at h; subst h; exact .refl _
            · simp only [if_true, matchRight] at h
              split at h
              · exact matchAnnots_above ih _ _ _ _ h
              · simp at h; subst h; exact .refl _
    | _ => exact gen
where
  evaluate_var_unbound : ∀ (n : Nat) (sc : Scope) (t : Term) (y : VarId), evaluate n sc t = .ok (.var y) → sc y = none
    | 0, _, _, _, h => by simp [evaluate] at h
    | n + 1, sc, t, y, h => by
      rw [evaluate.eq_def] at h
      cases t with
      | var x =>
        simp only at h
        cases hx : sc x with
        | none => simp [hx] at h; subst h; exact hx
        | some u =>
          simp only [hx, Ev.bind_eq_ok] at h
          obtain ⟨d, hd, h⟩ := h
          exact evaluate_var_unbound n sc d y h
      | un op t =>
        simp only [Ev.bind_eq_ok] at h
        obtain ⟨u, hu, h⟩ := h
        unfold unFunc at h; split at h <;> simp at h
      | bin op l r =>
        simp only [Ev.bind_eq_ok] at h
        obtain ⟨l', hl, r', hr, h⟩ := h
        split at h
        · simp only [Ev.bind_eq_ok, Ev.map_eq_ok] at h
          obtain ⟨_, _, _, _, _, _, h⟩ := h
          simp at h
        · unfold binFunc at h
          split at h
          · split at h <;> simp at h
          · split at h
            · split at h
              · split at h <;> simp at h
              · simp at h
            · simp at h
      | _ => simp at h

end Verif
