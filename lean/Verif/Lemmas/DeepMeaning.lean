import Verif.Lemmas.SafeGround
import Verif.Lemmas.Negation
import Verif.Spec.Deep

/-! Meaning of queries with nested negation, under renaming. -/

namespace Verif

section
variable {W A G : Type} [Arith] [inst : QWorld W A G]
variable {R : Val → Prop} {P M : String × Nat → Prop} {w : W} {c : Bool}

omit [Arith] inst in
theorem Query.deepIn_rename {ρ : VarId → VarId} : ∀ {q : Query A}, q.DeepIn P → (q.rename ρ).DeepIn P
  | .tru, _ | .fls, _ | .unify _ _, _ => trivial
  | .act _ _, h => h.elim
  | .not q, h => Query.deepIn_rename (q := q) h
  | .and _ _, h | .or _ _, h => ⟨deepIn_rename h.1, deepIn_rename h.2⟩
  | .term t, h => by
    cases t <;> simp_all [Query.DeepIn, Query.rename, Term.rename, Term.renameL_eq]

omit [Arith] in
theorem Query.deepOK_rename {ρ : VarId → VarId} : ∀ {q : Query A}, q.DeepOK w c P → (q.rename ρ).DeepOK w c P
  | .tru, _ | .fls, _ => trivial
  | .act .., h => h
  | .not _, h => ⟨Query.deepOK_rename h.1, Query.groundAnnots_rename h.2.1, Query.deepIn_rename h.2.2⟩
  | .and _ _, h | .or _ _, h => ⟨Query.deepOK_rename h.1, Query.deepOK_rename h.2⟩
  | .term t, h => Query.ok_rename (q := .term t) h
  | .unify l r, h => Query.ok_rename (q := .unify l r) h

omit [Arith] in
/-- Ground queries are safe. -/
theorem Query.safe_deep {D : VarId → Prop} : ∀ {q : Query A}, q.DeepOK w c P → q.Over D → q.Plain → q.Safe M D
  | .tru, _, _, _ | .fls, _, _, _ | .unify _ _, _, _, _ => trivial
  | .act _ _, h, _, _ => h.elim
  | .not _, _, h, h' => ⟨h, h'⟩
  | .term t, _, h, _ => by
    cases t with
    | lit f as xs => exact fun _ => h
    | var x => exact fun _ => h
    | _ => trivial
  | .and l _, h, ho, hp => ⟨Query.safe_deep h.1 ho.1 hp.1, Query.safe_mono l.after_sub (Query.safe_deep h.2 ho.2 hp.2)⟩
  | .or _ _, h, ho, hp => ⟨Query.safe_deep h.1 ho.1 hp.1, Query.safe_deep h.2 ho.2 hp.2⟩

/-- The meaning of a query under renaming. -/
theorem true_ren (hs : DeepStrata w c P M) {σ τ : Asg} {ρ : VarId → VarId} : ∀ {q : Query A},
    (∀ x, x < q.bound → σ (ρ x) = τ x) → (TrueIn R w σ (q.rename ρ) ↔ TrueIn R w τ q)
  | .tru, _ | .fls, _ | .act .., _ => .rfl
  | .not q, h => not_congr (true_ren (q := q) hs h)
  | .and p q, h => and_congr (true_ren hs fun x hx => h x (Nat.lt_of_lt_of_le hx (Nat.le_max_left ..)))
      (true_ren hs fun x hx => h x (Nat.lt_of_lt_of_le hx (Nat.le_max_right ..)))
  | .or p q, h => or_congr (true_ren hs fun x hx => h x (Nat.lt_of_lt_of_le hx (Nat.le_max_left ..)))
      (true_ren hs fun x hx => h x (Nat.lt_of_lt_of_le hx (Nat.le_max_right ..)))
  | .unify l r, h => by
    have hl : ∀ x, x < l.bound → σ (ρ x) = τ x := fun x hx => h x (Nat.lt_of_lt_of_le hx (Nat.le_max_left ..))
    have hr : ∀ x, x < r.bound → σ (ρ x) = τ x := fun x hx => h x (Nat.lt_of_lt_of_le hx (Nat.le_max_right ..))
    simp only [Query.rename, TrueIn, Agree, den_ren hl, den_ren hr, Term.isLiteral_rename, annotsMatch_ren hl hr]
  | .term t, h => by
    have h : ∀ x, x < t.bound → σ (ρ x) = τ x := h
    simp only [Query.rename, TrueIn, den_ren h]
    refine or_congr .rfl (or_congr ?_ .rfl)
    refine exists_congr fun grp => exists_congr fun b => ?_
    constructor
    · rintro ⟨hb, h1, h2⟩
      have hc := (hs.belief grp b hb).2.1.closed_lit
      refine ⟨hb, ?_, (annotsMatch_ren_closed h hc.2).1 h2⟩
      obtain ⟨v, h1, h2⟩ := h1
      exact ⟨v, (den_ren h v).1 h1, (den_indep b hc.1 v).1 h2⟩
    · rintro ⟨hb, h1, h2⟩
      have hc := (hs.belief grp b hb).2.1.closed_lit
      refine ⟨hb, ?_, (annotsMatch_ren_closed h hc.2).2 h2⟩
      obtain ⟨v, h1, h2⟩ := h1
      exact ⟨v, (den_ren h v).2 h1, (den_indep b hc.1 v).1 h2⟩

theorem true_congr (hs : DeepStrata w c P M) {σ τ : Asg} {q : Query A} (h : EqBelow q.bound σ τ) : TrueIn R w σ q ↔ TrueIn R w τ q := by
  have := true_ren (R := R) hs (ρ := id) (σ := σ) (τ := τ) (q := q) h
  rwa [Query.rename_id] at this

/-- A rule applies. -/
def TrueRule (R : Val → Prop) (w : W) (σ : Asg) (t : Term) (r : Rule A) : Prop :=
  ∃ τ v, Den σ t v ∧ Den τ r.head v ∧ TrueIn R w τ r.query

/-- How a literal can be true. -/
theorem true_cases (hs : DeepStrata w c P M) (hR : Supported R w) {f : String} {as xs : List Term} {σ : Asg}
    (h : TrueIn R w σ (.term (.lit f as xs) : Query A)) :
    (∃ x ∈ QWorld.beliefs w (f, as.length), BelMatch σ (.lit f as xs) x) ∨
      ∃ r ∈ QWorld.rules w (f, as.length), TrueRule R w σ (.lit f as xs) r := by
  rcases h with hd | ⟨grp, b, hb, hm⟩ | ⟨v, hv, hr⟩
  · simp [Den] at hd
  · obtain ⟨i1, i2, i3⟩ := hs.belief _ _ hb
    refine Or.inl ⟨b, ?_, hm⟩
    rw [← i1, group_of_agree i2.isLit hm.1] at hb
    exact hb
  · obtain ⟨grp, r, hr, τ, h1, h2⟩ := (hR v).1 hr
    obtain ⟨i1, i2, i3, i4⟩ := hs.rule _ _ hr
    refine Or.inr ⟨r, ?_, τ, v, hv, h1, h2⟩
    rw [← i1, ← group_of_den i2.isLit hv h1] at hr
    exact hr

theorem not_true_false (hs : DeepStrata w c P M) (hR : Supported R w) {σ : Asg} : ¬ TrueIn R w σ (.term (.bool false) : Query A) := by
  rintro (hd | ⟨grp, b, hb, ⟨v, h1, h2⟩, _⟩ | ⟨v, h1, hr⟩)
  · simp [Den] at hd
  · obtain ⟨f, u, rfl⟩ := den_lit_app (hs.belief _ _ hb).2.1.isLit h2
    simp [Den] at h1
  · obtain ⟨grp, r, hr, τ, h2, _⟩ := (hR v).1 hr
    obtain ⟨f, u, rfl⟩ := den_lit_app (hs.rule _ _ hr).2.1.isLit h2
    simp [Den] at h1

/-- A fresh copy of a rule is used with the assignment extended. -/
theorem true_extend (hs : DeepStrata w c P M) {t : Term} {N : Nat} {r : Rule A} (ht : t.bound ≤ N)
    {sc : Scope} (hsc : ScopeBelow N sc) {σ : Asg} (hσ : Models σ sc) (hm : TrueRule R w σ t r) :
    ∃ σ', EqBelow N σ σ' ∧ Models σ' sc ∧ Agree σ' t (r.deepcopy N).head ∧ TrueIn R w σ' (r.deepcopy N).query := by
  obtain ⟨τ, v, h1, h2, h3⟩ := hm
  have e := extend_eqBelow N σ τ
  refine ⟨extend N σ τ, e, models_congr hsc e hσ, ⟨v, ?_, ?_⟩, ?_⟩
  · exact (den_congr t (e.mono ht) v).1 h1
  · exact (den_ren (fun x _ => extend_add N σ τ x) v).2 h2
  · exact (true_ren hs fun x _ => extend_add N σ τ x).2 h3

theorem true_eval {sc : Scope} {t t' : Term} (he : EvalOK true sc t t') (hl : ¬ t.isLiteral = true) {σ : Asg}
    (hσ : Models σ sc) : TrueIn R w σ (.term t : Query A) ↔ TrueIn R w σ (.term t' : Query A) := by
  have ha := he.den σ hσ
  have h1 : t.annots = [] := by cases t <;> simp_all [Term.isLiteral, Term.annots]
  have h2 := tame_annots he.tame
  simp only [TrueIn, h1, h2, Agree, ha]

theorem true_rule (hs : DeepStrata w c P M) (hR : Supported R w) {t : Term} {N : Nat} {r : Rule A} {grp : String × Nat}
    (hr : r ∈ QWorld.rules w grp) {σ : Asg}
    (h1 : Agree σ t (r.deepcopy N).head) (h2 : TrueIn R w σ (r.deepcopy N).query) : TrueIn R w σ (.term t : Query A) := by
  obtain ⟨v, h1, h1'⟩ := h1
  exact .inr (.inr ⟨v, h1, (hR v).2 ⟨grp, r, hr, fun x => σ (N + x), (den_rename _ _).1 h1', (true_ren hs fun x _ => rfl).1 h2⟩⟩)

end

end Verif
