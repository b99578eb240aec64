import Verif.Props.FoldSafe
import Verif.Props.Deep

/-! # C89, C40: folded queries with nested negation -/

namespace Verif

section
variable {W A G : Type} [Arith] [inst : QWorld W A G]
variable {cmp : Bool} {R : Val → Prop} {P M : String × Nat → Prop} {D : VarId → Prop} {q q' : Query A}

/-- **C89** for folded queries (C40): replacing constant operations by their values, also in nested negated queries, does not
change what is true. -/
theorem C89_folded {w : W} (hs : DeepStrata w cmp P M) (hR : Supported R w) (h : QReduces q q') (σ : Asg) :
    TrueIn R w σ q ↔ TrueIn R w σ q' := by
  have ofBool : ∀ b, TrueIn R w σ (.ofBool b : Query A) ↔ b = true := by
    intro b
    cases b with
    | true => exact ⟨fun _ => rfl, fun _ => trivial⟩
    | false => exact ⟨nofun, nofun⟩
  have term : ∀ {t u : Term}, Reduces t u → (TrueIn R w σ (.term t : Query A) ↔ TrueIn R w σ (.term u : Query A)) := by
    intro t u h
    simp only [TrueIn, h.den σ, h.agree (.refl _), h.annots.match_iff (.refl _)]
  induction h with
  | refl => exact Iff.rfl
  | act => exact Iff.rfl
  | term h => exact term h
  | unify h1 h2 => simp only [TrueIn, h1.agree h2, h1.isLiteral, h2.isLiteral, h1.annots.match_iff h2.annots]
  | and _ _ ih1 ih2 => exact and_congr ih1 ih2
  | or _ _ ih1 ih2 => exact or_congr ih1 ih2
  | not _ ih => exact not_congr ih
  | @value t b h =>
    rw [term h, ofBool]
    constructor
    · cases b with
      | true => exact fun _ => rfl
      | false => exact fun h => (not_true_false hs hR h).elim
    · rintro rfl
      exact .inl rfl
  | andValue _ _ ih1 ih2 =>
    refine (and_congr ih1 ih2).trans ?_
    rw [ofBool, ofBool, ofBool, Bool.and_eq_true]
  | orValue _ _ ih1 ih2 =>
    refine (or_congr ih1 ih2).trans ?_
    rw [ofBool, ofBool, ofBool, Bool.or_eq_true]
  | notValue _ ih =>
    refine (not_congr ih).trans ?_
    rw [ofBool, ofBool]
    simp

theorem QReduces.deepIn (h : QReduces q q') (hq : q.DeepIn P) : q'.DeepIn P := by
  have ob : ∀ b, (Query.ofBool b : Query A).DeepIn P := fun b => by cases b <;> exact trivial
  induction h with
  | refl => exact hq
  | act => exact hq.elim
  | unify => exact trivial
  | and _ _ ih1 ih2 => exact ⟨ih1 hq.1, ih2 hq.2⟩
  | or _ _ ih1 ih2 => exact ⟨ih1 hq.1, ih2 hq.2⟩
  | not _ ih => exact ih hq
  | value | andValue | orValue | notValue => exact ob _
  | @term t u h =>
    rcases h.shape with rfl | ⟨f, ts, us, ts', us', rfl, rfl, h1, -⟩ | ⟨-, e, -, -, e', e''⟩
    · exact hq
    · change P _
      rw [← show ts.length = ts'.length from h1.length.symm]
      exact hq
    · cases u <;> first | (cases e; done) | exact absurd rfl (e' _) | exact absurd rfl e'' | exact trivial

theorem QReduces.deepOK {w : W} (h : QReduces q q') (hq : q.DeepOK w cmp P) : q'.DeepOK w cmp P := by
  have ob : ∀ b, (Query.ofBool b : Query A).DeepOK w cmp P := fun b => by cases b <;> exact trivial
  induction h with
  | refl => exact hq
  | act => exact hq.elim
  | term h => exact QReduces.ok (.term h) hq
  | unify h1 h2 => exact QReduces.ok (.unify h1 h2) hq
  | and _ _ ih1 ih2 => exact ⟨ih1 hq.1, ih2 hq.2⟩
  | or _ _ ih1 ih2 => exact ⟨ih1 hq.1, ih2 hq.2⟩
  | not h ih => exact ⟨ih hq.1, h.ground hq.2.1, h.deepIn hq.2.2⟩
  | value | andValue | orValue | notValue => exact ob _

/-- **C40**, answers of queries with safe negation to any depth (C89): every answer of the query is covered by the
answers of the folded query, and the other way round.  Missing: queries with actions. -/
theorem C40_answers_deep_partial {s s' s'' : QSt W} {l l' : List (QSt W)} (hs : DeepStrata s.w cmp P M) (hR : Supported R s.w) (h : QReduces q q')
    (hq : q.DeepOK s.w cmp P) (hg : q.GroundAnnots) (hsafe : q.Safe M D)
    (hD : ∀ x, D x → GroundIn false s.b.scope (.var x)) (hsc : ScopeOK cmp s.b.scope) (hb : ScopeBelow s.nv s.b.scope) (hqb : q.bound ≤ s.nv)
    (hd : Drain (fun s s' => s' = s) (.start q : Gen A G) s l s') (hd' : Drain (fun s s' => s' = s) (.start q' : Gen A G) s l' s'') :
    (∀ s₁ ∈ l, CoveredBy s s₁ l') ∧ ∀ s₁ ∈ l', CoveredBy s s₁ l := by
  have hqb' : q'.bound ≤ s.nv := Nat.le_trans h.bound hqb
  have d := deep_idle hs hR hq hg hsafe hD hsc hb hqb hd
  have d' := deep_idle hs hR (h.deepOK hq) (h.ground hg) (h.safe hsafe) hD hsc hb hqb' hd'
  constructor
  · intro s₁ hm σ h1 h2
    have a := C89_sound hs hR hq hg hsafe hD hsc hb hqb (d.answer hm) σ h2
    exact C89_complete hs hR (h.deepOK hq) (h.ground hg) (h.safe hsafe) hD hsc hb hqb' d' σ h1 ((C89_folded hs hR h σ).1 a)
  · intro s₁ hm σ h1 h2
    have a := C89_sound hs hR (h.deepOK hq) (h.ground hg) (h.safe hsafe) hD hsc hb hqb' (d'.answer hm) σ h2
    exact C89_complete hs hR hq hg hsafe hD hsc hb hqb d σ h1 ((C89_folded hs hR h σ).2 a)

end

section examples
attribute [local instance] exactArith

/-- `good(X) & not not X > 2 - 1` and, folded, `good(X) & not not X > 1`. -/
private abbrev gq (a : Term) : Query Empty := .and (.term (.lit "good" [.var 0] [])) (.not (.not (.term (.bin .gt (.var 0) a))))

private theorem gq_reduces : QReduces (gq (.bin .sub (.num 2) (.num 1))) (gq (.num 1)) :=
  .and (.refl _) (.not (.not (.term (.bin (.refl _) (.binValue (.refl _) (.refl _) rfl (by with_unfolding_all rfl))))))

/-- Both have the answer `X = 2`, and the theorem applies. -/
example : ∃ l l' : List (QSt KB), l.length = 1 ∧ l'.length = 1 ∧ (∀ s₁ ∈ l, CoveredBy ⟨BSt.init, 1, deepKB⟩ s₁ l') ∧
    ∀ s₁ ∈ l', CoveredBy ⟨BSt.init, 1, deepKB⟩ s₁ l := by
  have h : ∀ q : Query Empty, q = gq (.bin .sub (.num 2) (.num 1)) ∨ q = gq (.num 1) → ∃ (s₁ s' : QSt KB),
      Drain (fun s s' => s' = s) (.start q : Gen Empty Empty) ⟨BSt.init, 1, deepKB⟩ [s₁] s' := by
    intro q hq
    have h : ∃ (g : Gen Empty Empty) (s₁ s' : QSt KB), gnext 60 (.start q : Gen Empty Empty) ⟨BSt.init, 1, deepKB⟩ = .ok (some g) s₁ ∧
        gnext 60 g s₁ = .ok none s' := by
      rcases hq with rfl | rfl <;> exact ⟨_, _, _, by with_unfolding_all rfl, by with_unfolding_all rfl⟩
    obtain ⟨g, s₁, s', h1, h2⟩ := h
    exact ⟨_, _, .next h1 rfl (.stop h2)⟩
  obtain ⟨s₁, s', h1⟩ := h _ (.inl rfl)
  obtain ⟨t₁, t', h2⟩ := h _ (.inr rfl)
  obtain ⟨R, hR⟩ := deepKB_model
  refine ⟨_, _, rfl, rfl, C40_answers_deep_partial (D := fun _ => False) deepKB_strata hR gq_reduces ?_ ?_ ?_ nofun nofun nofun ?_ h1 h2⟩
  · simp [Term.Parts, Term.NoWild, Term.Tame, Term.NoAnnots, Term.Every, Query.DeepOK, Query.OK, Term.LitOK, Term.isLiteral,
          Query.GroundAnnots, Term.annots, Query.DeepIn]
  · simp [Query.GroundAnnots, Term.annots]
  · simp [Query.Safe, Query.Plain, Query.after, Query.Over, Term.Occurs, Term.Over, Term.Every, Term.EveryL]
  · decide

end examples

end Verif
