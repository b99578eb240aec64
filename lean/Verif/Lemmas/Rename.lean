import Verif.Lemmas.Term
import Verif.Lemmas.Annot
import Verif.Spec.Logic

/-! Renaming of variables, and dependence on the variables that occur. -/

namespace Verif

theorem Term.renameL_eq (ρ : VarId → VarId) : ∀ ts : List Term, Term.renameL ρ ts = ts.map (Term.rename ρ)
  | [] => rfl
  | t :: ts => by simp [Term.renameL, Term.renameL_eq ρ ts]

theorem Term.boundL_le {k : Nat} : ∀ {ts : List Term}, Term.boundL ts ≤ k ↔ ∀ t ∈ ts, t.bound ≤ k
  | [] => by simp [Term.boundL]
  | t :: ts => by simp [Term.boundL, Nat.max_le, Term.boundL_le (ts := ts)]

section
variable [Arith]

theorem denL_map_iff {σ τ : Asg} {f : Term → Term} : ∀ {ts : List Term}, (∀ t ∈ ts, ∀ v, Den σ (f t) v ↔ Den τ t v) →
    ∀ v, DenL σ (ts.map f) v ↔ DenL τ ts v
  | [], _, v => by simp [DenL]
  | t :: ts, h, v => by
    simp only [List.map_cons, DenL]
    have h1 := h t (by simp)
    have h2 := denL_map_iff (ts := ts) (fun u hu => h u (by simp [hu]))
    simp only [h1, h2]

theorem den_rename {σ : Asg} {ρ : VarId → VarId} : ∀ (t : Term) (v : Val), Den σ (t.rename ρ) v ↔ Den (fun x => σ (ρ x)) t v := by
  intro t
  induction t using Term.ind with
  | lit f as xs ih _ => intro v; simp only [Term.rename, Den, Term.renameL_eq]; simp only [denL_map_iff ih]
  | tup xs ih => intro v; simp only [Term.rename, Den, Term.renameL_eq]; exact denL_map_iff ih v
  | cons h t ih1 ih2 => intro v; simp only [Term.rename, Den, ih1, ih2]
  | un op t ih => intro v; simp only [Term.rename, Den, ih]
  | bin op l r ih1 ih2 => intro v; simp only [Term.rename, Den, ih1, ih2]
  | _ => intro v; simp [Term.rename, Den]

theorem den_congr {σ τ : Asg} : ∀ (t : Term), EqBelow t.bound σ τ → ∀ v, Den σ t v ↔ Den τ t v := by
  have key : ∀ ts : List Term, (∀ t ∈ ts, EqBelow t.bound σ τ → ∀ v, Den σ t v ↔ Den τ t v) → EqBelow (Term.boundL ts) σ τ →
      ∀ v, DenL σ ts v ↔ DenL τ ts v := by
    intro ts ih h
    have := denL_map_iff (σ := σ) (τ := τ) (f := id) (ts := ts) (fun t ht v => ih t ht (fun x hx => h x ?_) v)
    · simpa using this
    · have := (Term.boundL_le (ts := ts)).1 (Nat.le_refl _) t ht
      exact Nat.lt_of_lt_of_le hx this
  intro t
  induction t using Term.ind with
  | lit f as xs ih _ =>
    intro h v
    simp only [Den]
    simp only [key as ih (fun x hx => h x (by simp only [Term.bound]; exact Nat.lt_of_lt_of_le hx (Nat.le_max_left _ _)))]
  | tup xs ih => intro h v; simp only [Den]; exact key xs ih h v
  | cons hd tl ih1 ih2 =>
    intro h v
    simp only [Den, ih1 (fun x hx => h x (by simp only [Term.bound]; exact Nat.lt_of_lt_of_le hx (Nat.le_max_left _ _))),
      ih2 (fun x hx => h x (by simp only [Term.bound]; exact Nat.lt_of_lt_of_le hx (Nat.le_max_right _ _)))]
  | un op t ih => intro h v; simp only [Den, ih h]
  | bin op l r ih1 ih2 =>
    intro h v
    simp only [Den, ih1 (fun x hx => h x (by simp only [Term.bound]; exact Nat.lt_of_lt_of_le hx (Nat.le_max_left _ _))),
      ih2 (fun x hx => h x (by simp only [Term.bound]; exact Nat.lt_of_lt_of_le hx (Nat.le_max_right _ _)))]
  | var x => intro h v; simp only [Den]; rw [h x (Nat.lt_succ_self _)]
  | _ => intro h v; simp [Den]

omit [Arith] in
theorem perm_map_inv {α β : Type} {g : α → β} {l m : List β} (h : l.Perm m) : ∀ ys : List α, m = ys.map g →
    ∃ l' : List α, l = l'.map g ∧ l'.Perm ys := by
  induction h with
  | nil => intro ys h; exact ⟨ys, h, .refl _⟩
  | cons x _ ih =>
    intro ys h
    cases ys with
    | nil => simp at h
    | cons y ys =>
      simp only [List.map_cons, List.cons.injEq] at h
      obtain ⟨l', rfl, hp⟩ := ih ys h.2
      exact ⟨y :: l', by simp [h.1], hp.cons y⟩
  | swap x y l =>
    intro ys h
    cases ys with
    | nil => simp at h
    | cons y₁ ys =>
      cases ys with
      | nil => simp at h
      | cons y₂ ys =>
        simp only [List.map_cons, List.cons.injEq] at h
        exact ⟨y₂ :: y₁ :: ys, by simp [h.1, h.2.1, h.2.2], .swap ..⟩
  | trans _ _ ih1 ih2 =>
    intro ys h
    obtain ⟨l2, rfl, hp2⟩ := ih2 ys h
    obtain ⟨l1, rfl, hp1⟩ := ih1 l2 rfl
    exact ⟨l1, rfl, hp1.trans hp2⟩

theorem agreeEach_map {σ τ : Asg} {f g : Term → Term} : ∀ {xs zs : List Term},
    (∀ x ∈ xs, ∀ v, Den σ (f x) v ↔ Den τ x v) → (∀ z ∈ zs, ∀ v, Den σ (g z) v ↔ Den τ z v) →
    (AgreeEach σ (xs.map f) (zs.map g) ↔ AgreeEach τ xs zs)
  | [], [], _, _ => by simp [AgreeEach]
  | [], z :: zs, _, _ => by simp [AgreeEach]
  | x :: xs, [], _, _ => by simp [AgreeEach]
  | x :: xs, z :: zs, h1, h2 => by
    simp only [List.map_cons, agreeEach_cons]
    rw [agreeEach_map (fun y hy => h1 y (by simp [hy])) (fun y hy => h2 y (by simp [hy]))]
    simp only [Agree, h1 x (by simp), h2 z (by simp)]

theorem annotsMatch_map {σ τ : Asg} {f g : Term → Term} {xs ys : List Term}
    (h1 : ∀ x ∈ xs, ∀ v, Den σ (f x) v ↔ Den τ x v) (h2 : ∀ z ∈ ys, ∀ v, Den σ (g z) v ↔ Den τ z v) :
    AnnotsMatch σ (xs.map f) (ys.map g) ↔ AnnotsMatch τ xs ys := by
  constructor
  · rintro ⟨zs, ⟨rest, hp⟩, ha⟩
    obtain ⟨l, e, hp'⟩ := perm_map_inv hp ys rfl
    obtain ⟨zs', rest', rfl, rfl, rfl⟩ := List.append_eq_map_iff.1 e
    refine ⟨zs', ⟨rest', hp'⟩, (agreeEach_map h1 ?_).1 ha⟩
    intro z hz
    exact h2 z (hp'.subset (by simp [hz]))
  · rintro ⟨zs, ⟨rest, hp⟩, ha⟩
    refine ⟨zs.map g, ⟨rest.map g, by rw [← List.map_append]; exact hp.map g⟩, (agreeEach_map h1 ?_).2 ha⟩
    intro z hz
    exact h2 z (hp.subset (by simp [hz]))

theorem den_ren {σ τ : Asg} {ρ : VarId → VarId} {t : Term} (h : ∀ x, x < t.bound → σ (ρ x) = τ x) (v : Val) :
    Den σ (t.rename ρ) v ↔ Den τ t v := by
  rw [den_rename]; exact den_congr t h v

omit [Arith] in
theorem Term.annots_rename {ρ : VarId → VarId} (t : Term) : (t.rename ρ).annots = t.annots.map (Term.rename ρ) := by
  cases t <;> simp [Term.rename, Term.annots, Term.renameL_eq]

omit [Arith] in
@[simp] theorem Term.isLiteral_rename {ρ : VarId → VarId} (t : Term) : (t.rename ρ).isLiteral = t.isLiteral := by
  cases t <;> simp [Term.rename, Term.isLiteral]

omit [Arith] in
theorem Term.annots_bound {t : Term} : ∀ x ∈ t.annots, x.bound ≤ t.bound := by
  intro x hx
  cases t <;> simp [Term.annots] at hx
  simp only [Term.bound]
  exact Nat.le_trans ((Term.boundL_le).1 (Nat.le_refl _) x hx) (Nat.le_max_right _ _)

theorem annotsMatch_ren {σ τ : Asg} {ρ : VarId → VarId} {t u : Term} (h : ∀ x, x < t.bound → σ (ρ x) = τ x)
    (h' : ∀ x, x < u.bound → σ (ρ x) = τ x) :
    AnnotsMatch σ (t.rename ρ).annots (u.rename ρ).annots ↔ AnnotsMatch τ t.annots u.annots := by
  rw [Term.annots_rename, Term.annots_rename]
  refine annotsMatch_map (fun x hx v => den_ren (fun y hy => h y ?_) v) (fun x hx v => den_ren (fun y hy => h' y ?_) v)
  · exact Nat.lt_of_lt_of_le hy (Term.annots_bound x hx)
  · exact Nat.lt_of_lt_of_le hy (Term.annots_bound x hx)

theorem annotsMatch_ren_closed {σ τ : Asg} {ρ : VarId → VarId} {t : Term} {ys : List Term} (h : ∀ x, x < t.bound → σ (ρ x) = τ x)
    (h' : ∀ y ∈ ys, y.Closed) :
    AnnotsMatch σ (t.rename ρ).annots ys ↔ AnnotsMatch τ t.annots ys := by
  rw [Term.annots_rename]
  have := annotsMatch_map (σ := σ) (τ := τ) (f := Term.rename ρ) (g := id) (xs := t.annots) (ys := ys)
    (fun x hx v => den_ren (fun y hy => h y (Nat.lt_of_lt_of_le hy (Term.annots_bound x hx))) v)
    (fun x hx v => den_indep x (h' x hx) v)
  simpa using this

omit [Arith] in
theorem Term.Parts.closed_lit {t : Term} (h : t.Parts Term.Closed) : t.Closed ∧ ∀ y ∈ t.annots, y.Closed := by
  cases t <;> simp [Term.Parts] at h
  exact ⟨by simp; exact h.1, h.2⟩

variable {W A G : Type} [QWorld W A G] {w : W}

/-- When a term query holds. -/
theorem holds_term_iff {σ : Asg} {t : Term} : Holds w σ (.term t) ↔
    Den σ t (.bool true) ∨ (∃ grp, ∃ b ∈ QWorld.beliefs w grp, Agree σ t b ∧ AnnotsMatch σ t.annots b.annots) ∨
    ∃ grp, ∃ r ∈ QWorld.rules w grp, ∃ τ v, Den σ t v ∧ Den τ r.head v ∧ Holds w τ r.query := by
  constructor
  · intro h
    cases h with
    | bool h => exact Or.inl h
    | belief h1 h2 h3 => exact Or.inr (Or.inl ⟨_, _, h1, h2, h3⟩)
    | rule h1 h2 h3 h4 => exact Or.inr (Or.inr ⟨_, _, h1, _, _, h2, h3, h4⟩)
  · rintro (h | ⟨_, _, h1, h2, h3⟩ | ⟨_, _, h1, _, _, h2, h3, h4⟩)
    · exact .bool h
    · exact .belief h1 h2 h3
    · exact .rule h1 h2 h3 h4

theorem holds_unify_iff {σ : Asg} {l r : Term} : Holds w σ (.unify l r) ↔
    Agree σ l r ∧ (l.isLiteral = true → r.isLiteral = true → AnnotsMatch σ l.annots r.annots) :=
  ⟨fun h => by cases h with | unify h1 h2 => exact ⟨h1, h2⟩, fun h => .unify h.1 h.2⟩

theorem holds_and_iff {σ : Asg} {p q : Query A} : Holds w σ (.and p q) ↔ Holds w σ p ∧ Holds w σ q :=
  ⟨fun h => by cases h with | and h1 h2 => exact ⟨h1, h2⟩, fun h => .and h.1 h.2⟩

theorem holds_or_iff {σ : Asg} {p q : Query A} : Holds w σ (.or p q) ↔ Holds w σ p ∨ Holds w σ q :=
  ⟨fun h => by cases h with | orL h => exact Or.inl h | orR h => exact Or.inr h,
    fun h => h.elim .orL .orR⟩

/-- The meaning of a query under renaming. -/
theorem holds_ren {c : Bool} (hw : KBOK w c) {σ τ : Asg} {ρ : VarId → VarId} : ∀ {q : Query A},
    (∀ x, x < q.bound → σ (ρ x) = τ x) → (Holds w σ (q.rename ρ) ↔ Holds w τ q)
  | .tru, _ => ⟨fun _ => .tru, fun _ => .tru⟩
  | .fls, _ => ⟨(fun h => nomatch h), (fun h => nomatch h)⟩
  | .act .., _ => ⟨(fun h => nomatch h), (fun h => nomatch h)⟩
  | .not _, _ => ⟨(fun h => nomatch h), (fun h => nomatch h)⟩
  | .and p q, h => by
    simp only [Query.rename, holds_and_iff]
    rw [holds_ren hw fun x hx => h x (Nat.lt_of_lt_of_le hx (Nat.le_max_left ..)),
      holds_ren hw fun x hx => h x (Nat.lt_of_lt_of_le hx (Nat.le_max_right ..))]
  | .or p q, h => by
    simp only [Query.rename, holds_or_iff]
    rw [holds_ren hw fun x hx => h x (Nat.lt_of_lt_of_le hx (Nat.le_max_left ..)),
      holds_ren hw fun x hx => h x (Nat.lt_of_lt_of_le hx (Nat.le_max_right ..))]
  | .unify l r, h => by
    have hl : ∀ x, x < l.bound → σ (ρ x) = τ x := fun x hx => h x (Nat.lt_of_lt_of_le hx (Nat.le_max_left ..))
    have hr : ∀ x, x < r.bound → σ (ρ x) = τ x := fun x hx => h x (Nat.lt_of_lt_of_le hx (Nat.le_max_right ..))
    simp only [Query.rename, holds_unify_iff, Agree, den_ren hl, den_ren hr, Term.isLiteral_rename, annotsMatch_ren hl hr]
  | .term t, h => by
    have h : ∀ x, x < t.bound → σ (ρ x) = τ x := h
    simp only [Query.rename, holds_term_iff, den_ren h]
    refine or_congr .rfl (or_congr ?_ .rfl)
    refine exists_congr fun grp => exists_congr fun b => ?_
    constructor
    · rintro ⟨hb, h1, h2⟩
      have hc := (hw.belief grp b hb).2.1.closed_lit
      refine ⟨hb, ?_, (annotsMatch_ren_closed h hc.2).1 h2⟩
      obtain ⟨v, h1, h2⟩ := h1
      exact ⟨v, (den_ren h v).1 h1, (den_indep b hc.1 v).1 h2⟩
    · rintro ⟨hb, h1, h2⟩
      have hc := (hw.belief grp b hb).2.1.closed_lit
      refine ⟨hb, ?_, (annotsMatch_ren_closed h hc.2).2 h2⟩
      obtain ⟨v, h1, h2⟩ := h1
      exact ⟨v, (den_ren h v).2 h1, (den_indep b hc.1 v).1 h2⟩

omit [Arith] [QWorld W A G] in
theorem Term.rename_id : ∀ t : Term, t.rename id = t := by
  intro t
  induction t using Term.ind with
  | lit f as xs ih ih' =>
    simp only [Term.rename, Term.renameL_eq]
    rw [List.map_congr_left ih, List.map_congr_left ih']; simp
  | tup xs ih => simp only [Term.rename, Term.renameL_eq]; rw [List.map_congr_left ih]; simp
  | cons h t ih1 ih2 => simp [Term.rename, ih1, ih2]
  | un op t ih => simp [Term.rename, ih]
  | bin op l r ih1 ih2 => simp [Term.rename, ih1, ih2]
  | _ => simp [Term.rename]

omit [Arith] [QWorld W A G] in
theorem Query.rename_id : ∀ q : Query A, q.rename id = q
  | .tru | .fls => rfl
  | .act .. | .term _ | .unify .. => by simp [Query.rename, Term.rename_id]
  | .and p q | .or p q => by simp [Query.rename, Query.rename_id p, Query.rename_id q]
  | .not p => by simp [Query.rename, Query.rename_id p]

theorem holds_congr {c : Bool} (hw : KBOK w c) {σ τ : Asg} {q : Query A} (h : EqBelow q.bound σ τ) :
    Holds w σ q ↔ Holds w τ q := by
  have := holds_ren hw (ρ := id) (σ := σ) (τ := τ) (q := q) h
  rwa [Query.rename_id] at this

theorem models_congr {k : Nat} {sc : Scope} (hs : ScopeBelow k sc) {σ τ : Asg} (h : EqBelow k σ τ) (hm : Models σ sc) :
    Models τ sc := by
  intro x t hx
  obtain ⟨h1, h2⟩ := hs x t hx
  rw [← h x h1]
  exact (den_congr t (fun y hy => h y (Nat.lt_of_lt_of_le hy h2)) _).1 (hm x t hx)

end

end Verif
