import Verif.Lemmas.Rename

/-! The side conditions on terms and queries are invariant under renaming. -/

namespace Verif

theorem Term.everyL_map {p : Term → Prop} {f : Term → Term} : ∀ {ts : List Term},
    (∀ t ∈ ts, (Term.Every p (f t) ↔ Term.Every p t)) → (Term.EveryL p (ts.map f) ↔ Term.EveryL p ts)
  | [], _ => Iff.rfl
  | t :: ts, h => by
    simp only [List.map_cons, Term.EveryL]
    rw [h t (by simp), Term.everyL_map fun t ht => h t (by simp [ht])]

theorem Term.every_rename {p : Term → Prop} {ρ : VarId → VarId} (hp : ∀ t : Term, p (t.rename ρ) ↔ p t) :
    ∀ t : Term, Term.Every p (t.rename ρ) ↔ Term.Every p t := by
  intro t
  induction t using Term.ind with
  | lit f as xs ih _ =>
    have h1 := hp (.lit f as xs)
    simp only [Term.rename, Term.Every, Term.renameL_eq] at h1 ⊢
    rw [h1, Term.everyL_map ih]
  | tup xs ih =>
    have h1 := hp (.tup xs)
    simp only [Term.rename, Term.Every, Term.renameL_eq] at h1 ⊢
    rw [h1, Term.everyL_map ih]
  | cons h t ih1 ih2 =>
    have h1 := hp (.cons h t)
    simp only [Term.rename, Term.Every] at h1 ⊢
    rw [h1, ih1, ih2]
  | un op t ih =>
    have h1 := hp (.un op t)
    simp only [Term.rename, Term.Every] at h1 ⊢
    rw [h1, ih]
  | bin op l r ih1 ih2 =>
    have h1 := hp (.bin op l r)
    simp only [Term.rename, Term.Every] at h1 ⊢
    rw [h1, ih1, ih2]
  | var x => exact hp (.var x)
  | wild => exact hp .wild
  | bool b => exact hp (.bool b)
  | num b => exact hp (.num b)
  | str b => exact hp (.str b)

theorem Term.noWild_rename {ρ : VarId → VarId} {t : Term} : (t.rename ρ).NoWild ↔ t.NoWild :=
  Term.every_rename (fun t => by cases t <;> simp [Term.rename]) t

theorem Term.closed_rename {ρ : VarId → VarId} {t : Term} : (t.rename ρ).Closed ↔ t.Closed :=
  Term.every_rename (fun t => by cases t <;> simp [Term.rename]) t

theorem Term.tame_rename {ρ : VarId → VarId} {c : Bool} {t : Term} : (t.rename ρ).Tame c ↔ t.Tame c := by
  unfold Term.Tame
  split
  · refine Term.every_rename (fun t => ?_) t
    cases t with
    | lit f as xs => cases xs <;> simp [Term.rename, Term.renameL]
    | _ => simp [Term.rename]
  · exact Term.every_rename (fun t => by cases t <;> simp [Term.rename]) t

theorem Term.valL_map {f : Term → Term} : ∀ {ts : List Term}, (∀ t ∈ ts, (f t).val = t.val) →
    Term.valL (ts.map f) = Term.valL ts
  | [], _ => rfl
  | t :: ts, h => by
    simp only [List.map_cons, Term.valL]
    rw [h t (by simp), Term.valL_map fun t ht => h t (by simp [ht])]

theorem Term.val_rename {ρ : VarId → VarId} : ∀ t : Term, (t.rename ρ).val = t.val := by
  intro t
  induction t using Term.ind with
  | lit f as xs ih _ => simp only [Term.rename, Term.val, Term.renameL_eq, Term.valL_map ih]
  | tup xs ih => simp only [Term.rename, Term.val, Term.renameL_eq, Term.valL_map ih]
  | cons h t ih1 ih2 => simp only [Term.rename, Term.val, ih1, ih2]
  | _ => simp [Term.rename, Term.val]

theorem Term.parts_rename {ρ : VarId → VarId} {p : Term → Prop} (hp : ∀ t, p t → p (t.rename ρ)) {t : Term}
    (h : t.Parts p) : (t.rename ρ).Parts p := by
  cases t <;> simp [Term.Parts] at h
  simp only [Term.rename, Term.Parts, Term.renameL_eq, List.mem_map]
  exact ⟨by rintro _ ⟨a, ha, rfl⟩; exact hp a (h.1 a ha), by rintro _ ⟨a, ha, rfl⟩; exact hp a (h.2 a ha)⟩

theorem Term.litOK_rename {ρ : VarId → VarId} {c : Bool} {t : Term} (h : t.LitOK c) : (t.rename ρ).LitOK c := by
  cases t <;> simp [Term.LitOK] at h
  simp only [Term.rename, Term.LitOK, Term.renameL_eq, List.mem_map]
  refine ⟨by rintro _ ⟨a, ha, rfl⟩; exact Term.tame_rename.2 (h.1 a ha), ?_⟩
  rintro _ ⟨a, ha, rfl⟩
  exact ⟨Term.tame_rename.2 (h.2 a ha).1, by rw [Term.annots_rename, (h.2 a ha).2]; rfl⟩

theorem Term.group_rename {ρ : VarId → VarId} (t : Term) : (t.rename ρ).group = t.group := by
  cases t <;> simp [Term.rename, Term.group, Term.renameL_eq]

theorem Term.bound_rename {k : Nat} : ∀ t : Term, (t.rename (k + ·)).bound ≤ k + t.bound := by
  intro t
  have key : ∀ (ts : List Term), (∀ t ∈ ts, (t.rename (k + ·)).bound ≤ k + t.bound) →
      Term.boundL (ts.map (Term.rename (k + ·))) ≤ k + Term.boundL ts := by
    intro ts ih
    rw [Term.boundL_le]
    intro u hu
    obtain ⟨t, ht, rfl⟩ := List.mem_map.1 hu
    exact Nat.le_trans (ih t ht) (Nat.add_le_add_left (Term.boundL_le.1 (Nat.le_refl _) t ht) k)
  induction t using Term.ind with
  | lit f as xs ih ih' =>
    have := key as ih
    have := key xs ih'
    simp only [Term.rename, Term.bound, Term.renameL_eq]
    omega
  | tup xs ih => simpa only [Term.rename, Term.bound, Term.renameL_eq] using key xs ih
  | cons h t ih1 ih2 => simp only [Term.rename, Term.bound]; omega
  | bin op l r ih1 ih2 => simp only [Term.rename, Term.bound]; omega
  | un op t ih => simpa only [Term.rename, Term.bound] using ih
  | var x => simp only [Term.rename, Term.bound]; omega
  | _ => simp [Term.rename, Term.bound]

section
variable {W A G : Type} [QWorld W A G] {w : W}

omit [QWorld W A G] in
theorem Query.bound_rename {k : Nat} : ∀ q : Query A, (q.rename (k + ·)).bound ≤ k + q.bound
  | .tru | .fls => by simp [Query.rename, Query.bound]
  | .act _ t | .term t => Term.bound_rename t
  | .and l r | .or l r => by
    have := Query.bound_rename (k := k) l
    have := Query.bound_rename (k := k) r
    simp only [Query.rename, Query.bound]; omega
  | .not q => Query.bound_rename q
  | .unify l r => by
    have := Term.bound_rename (k := k) l
    have := Term.bound_rename (k := k) r
    simp only [Query.rename, Query.bound]; omega

theorem Query.ok_rename {c : Bool} {ρ : VarId → VarId} : ∀ {q : Query A}, q.OK w c → (q.rename ρ).OK w c
  | .tru, _ | .fls, _ => trivial
  | .act .., h | .not _, h => h
  | .and _ _, h | .or _ _, h => ⟨Query.ok_rename h.1, Query.ok_rename h.2⟩
  | .term t, h => by
    simp only [Query.rename, Query.OK, Term.isLiteral_rename, Term.group_rename] at h ⊢
    split at h
    · rename_i hl
      rw [if_pos hl]
      exact ⟨Term.litOK_rename h.1, h.2.imp (Term.parts_rename fun _ h => Term.noWild_rename.2 h) id⟩
    · rename_i hl
      rw [if_neg hl]
      exact ⟨h.1, Term.noWild_rename.2 h.2.1, Term.tame_rename.2 h.2.2⟩
  | .unify l r, h => by
    rcases h with ⟨h1, h2, h3, h4, h5, h6⟩ | ⟨h1, h2, h3, h4⟩
    · refine Or.inl ⟨by rw [Term.annots_rename, h1]; rfl, Term.tame_rename.2 h2, Term.tame_rename.2 h3,
        Term.noWild_rename.2 h4, Term.noWild_rename.2 h5, ?_⟩
      rw [Term.isLiteral_rename]
      intro hl y hy
      have := h6 hl
      cases r <;> simp [Term.rename] at hy
      exact this _ rfl
    · exact Or.inr ⟨Term.litOK_rename h1, Term.parts_rename (fun _ h => Term.tame_rename.2 h) h2,
        Term.parts_rename (fun _ h => Term.noWild_rename.2 h) h3, Term.parts_rename (fun _ h => Term.noWild_rename.2 h) h4⟩

theorem closed_annots_rename {ρ : VarId → VarId} {t : Term} (h : ∀ x ∈ t.annots, x.Closed) :
    ∀ x ∈ (t.rename ρ).annots, x.Closed := by
  intro x hx
  rw [Term.annots_rename] at hx
  obtain ⟨y, hy, rfl⟩ := List.mem_map.1 hx
  exact Term.closed_rename.2 (h y hy)

theorem pairwise_annots_rename {ρ : VarId → VarId} {t : Term} (h : t.annots.Pairwise fun x y => x.val ≠ y.val) :
    (t.rename ρ).annots.Pairwise fun x y => x.val ≠ y.val := by
  rw [Term.annots_rename, List.pairwise_map]
  simpa only [Term.val_rename] using h

omit [QWorld W A G] in
theorem Query.groundAnnots_rename {ρ : VarId → VarId} : ∀ {q : Query A}, q.GroundAnnots → (q.rename ρ).GroundAnnots
  | .tru, _ | .fls, _ | .act .., _ => trivial
  | .term _, h => ⟨closed_annots_rename h.1, pairwise_annots_rename h.2⟩
  | .and _ _, h | .or _ _, h => ⟨Query.groundAnnots_rename h.1, Query.groundAnnots_rename h.2⟩
  | .not q, h => Query.groundAnnots_rename (q := q) h
  | .unify _ _, h => ⟨closed_annots_rename h.1, pairwise_annots_rename h.2.1, closed_annots_rename h.2.2⟩

end

end Verif
