import Verif.Props.Safe
import Verif.Props.FoldQuery

/-!
# C40: answers of folded queries with safe negation
-/

namespace Verif

section
variable [Arith]

omit [Arith] in
theorem over_value {D : VarId → Prop} {t : Term} (h : t.isValue = true) : t.Over D := by
  cases t <;> first | (cases h; done) | exact trivial

mutual
/-- Folding keeps the variables. -/
theorem Reduces.over {D : VarId → Prop} : ∀ {t u : Term}, Reduces t u → (t.Over D ↔ u.Over D)
  | _, _, .refl t => Iff.rfl
  | _, _, .lit h1 _ => and_congr Iff.rfl h1.over
  | _, _, .tup h1 => and_congr Iff.rfl h1.over
  | _, _, .cons h1 h2 => and_congr Iff.rfl (and_congr h1.over h2.over)
  | _, _, .un h1 => and_congr Iff.rfl h1.over
  | _, _, .bin h1 h2 => and_congr Iff.rfl (and_congr h1.over h2.over)
  | _, _, .unValue h1 hf => ⟨fun _ => over_value (unFunc_ok hf).2, fun _ => ⟨trivial, h1.over.2 (over_value (unFunc_ok hf).1)⟩⟩
  | _, _, .binValue h1 h2 _ hf => ⟨fun _ => over_value (binFunc_ok hf).2.2,
      fun _ => ⟨trivial, h1.over.2 (over_value (binFunc_ok hf).1), h2.over.2 (over_value (binFunc_ok hf).2.1)⟩⟩
  | _, _, .compValue h1 h2 ha hb _ _ => ⟨fun _ => over_value rfl, fun _ => ⟨trivial, h1.over.2 (over_value ha), h2.over.2 (over_value hb)⟩⟩

theorem ReducesL.over {D : VarId → Prop} : ∀ {ts us : List Term}, ReducesL ts us →
    (Term.EveryL (fun t => match t with | .var x => D x | _ => True) ts ↔ Term.EveryL (fun t => match t with | .var x => D x | _ => True) us)
  | _, _, .nil => Iff.rfl
  | _, _, .cons h1 h2 => and_congr h1.over h2.over
end

theorem Reduces.occurs {x : VarId} {t u : Term} (h : Reduces t u) : t.Occurs x ↔ u.Occurs x := not_congr h.over

theorem Reduces.plain {t u : Term} (h : Reduces t u) (ht : t.Plain) : u.Plain :=
  h.every ⟨fun w hw => by cases w <;> first | (cases hw; done) | rfl, fun _ _ _ _ _ _ _ => rfl, fun _ _ _ => rfl, fun _ _ _ _ _ => rfl,
    fun _ _ _ h => h, fun _ _ _ _ _ h => h⟩ ht

omit [Arith] in
theorem plain_value {t : Term} (h : t.isValue = true) : t.Plain := by
  cases t <;> first | (cases h; done) | rfl

theorem Reduces.op {t u : Term} (h : Reduces t u) (ht : t.isOp = true ∨ t.Plain) : u.isOp = true ∨ u.Plain := by
  rcases ht with ht | ht
  · cases h with
    | refl => exact .inl ht
    | lit | tup | cons => cases ht
    | un | bin => exact .inl rfl
    | unValue _ hf => exact .inr (plain_value (unFunc_ok hf).2)
    | binValue _ _ _ hf => exact .inr (plain_value (binFunc_ok hf).2.2)
    | compValue => exact .inr (plain_value rfl)
  · exact .inr (h.plain ht)

theorem ReducesL.ops {ts us : List Term} (h : ReducesL ts us) (ht : ∀ a ∈ ts, a.isOp = true ∨ a.Plain) : ∀ a ∈ us, a.isOp = true ∨ a.Plain := by
  cases h with
  | nil => exact ht
  | cons h1 h2 =>
    intro a ha
    cases ha with
    | head => exact h1.op (ht _ (by simp))
    | tail _ ha => exact h2.ops (fun a h => ht a (by simp [h])) a ha

variable {W A G : Type}

omit [Arith] in
theorem ofBool_parts (b : Bool) {M : String × Nat → Prop} {D : VarId → Prop} : (Query.ofBool b : Query A).Over D ∧ (Query.ofBool b : Query A).Plain ∧
    (Query.ofBool b : Query A).Safe M D ∧ (Query.ofBool b : Query A).after D = D := by
  cases b <;> exact ⟨trivial, trivial, trivial, rfl⟩

theorem QReduces.over {D : VarId → Prop} {q q' : Query A} (h : QReduces q q') (hq : q.Over D) : q'.Over D := by
  induction h with
  | refl => exact hq
  | act h => exact h.over.1 hq
  | term h => exact h.over.1 hq
  | unify h1 h2 => exact ⟨h1.over.1 hq.1, h2.over.1 hq.2⟩
  | and _ _ ih1 ih2 => exact ⟨ih1 hq.1, ih2 hq.2⟩
  | or _ _ ih1 ih2 => exact ⟨ih1 hq.1, ih2 hq.2⟩
  | not _ ih => exact ih hq
  | value | andValue | orValue | notValue => exact (ofBool_parts _ (M := fun _ => True)).1

theorem QReduces.plain {q q' : Query A} (h : QReduces q q') (hq : q.Plain) : q'.Plain := by
  induction h with
  | refl => exact hq
  | act h => exact trivial
  | @term t u h =>
    rcases h.shape with rfl | ⟨f, ts, us, ts', us', rfl, rfl, h1, -⟩ | ⟨-, e, -⟩
    · exact hq
    · exact h1.ops hq
    · cases u <;> first | (cases e; done) | exact trivial
  | unify h1 h2 => exact ⟨h1.op hq.1, h2.op hq.2⟩
  | and _ _ ih1 ih2 => exact ⟨ih1 hq.1, ih2 hq.2⟩
  | or _ _ ih1 ih2 => exact ⟨ih1 hq.1, ih2 hq.2⟩
  | not _ ih => exact ih hq
  | value | andValue | orValue | notValue => exact (ofBool_parts _ (M := fun _ => True) (D := fun _ => True)).2.1

omit [Arith] in
theorem after_other {D : VarId → Prop} {t : Term} (h : t.isLiteral = false) : (Query.term t : Query A).after D = D := by
  cases t <;> first | (cases h; done) | rfl

/-- Folded queries bind the same variables. -/
theorem QReduces.after {q q' : Query A} (h : QReduces q q') : ∀ D, q.after D = q'.after D := by
  induction h with
  | refl => exact fun _ => rfl
  | act => exact fun _ => rfl
  | @term t u h =>
    intro D
    rcases h.shape with rfl | ⟨f, ts, us, ts', us', rfl, rfl, h1, -⟩ | ⟨e, e', -⟩
    · rfl
    · funext x
      exact propext (or_congr Iff.rfl h.occurs)
    · rw [after_other e, after_other e']
  | unify h1 h2 =>
    intro D
    funext x
    exact propext (or_congr Iff.rfl (or_congr (and_congr h1.over h2.occurs) (and_congr h2.over h1.occurs)))
  | and _ _ ih1 ih2 => intro D; simp only [Query.after, ih1, ih2]
  | or _ _ ih1 ih2 => intro D; simp only [Query.after, ih1, ih2]
  | not => exact fun _ => rfl
  | value h => intro D; rw [after_other h.isLiteral.symm, (ofBool_parts _ (M := fun _ => True)).2.2.2]
  | andValue _ _ ih1 ih2 => intro D; simp only [Query.after, ih1, ih2, (ofBool_parts _ (M := fun _ => True)).2.2.2]
  | orValue _ _ ih1 ih2 => intro D; simp only [Query.after, ih1, ih2, (ofBool_parts _ (M := fun _ => True)).2.2.2, and_self]
  | notValue => intro D; rw [(ofBool_parts _ (M := fun _ => True)).2.2.2]; rfl

/-- Folding preserves safety. -/
theorem QReduces.safe {M : String × Nat → Prop} {q q' : Query A} (h : QReduces q q') : ∀ {D : VarId → Prop}, q.Safe M D → q'.Safe M D := by
  induction h with
  | refl => exact fun h => h
  | act => exact fun _ => trivial
  | @term t u h =>
    intro D hq
    rcases h.shape with rfl | ⟨f, ts, us, ts', us', rfl, rfl, h1, -⟩ | ⟨-, e, -, -, e', -⟩
    · exact hq
    · intro hM
      rw [← show ts.length = ts'.length from h1.length.symm] at hM
      exact h.over.1 (hq hM)
    · cases u <;> first | (cases e; done) | exact absurd rfl (e' _) | exact trivial
  | unify => exact fun _ => trivial
  | and h1 _ ih1 ih2 => exact fun hq => ⟨ih1 hq.1, h1.after _ ▸ ih2 hq.2⟩
  | or _ _ ih1 ih2 => exact fun hq => ⟨ih1 hq.1, ih2 hq.2⟩
  | not h _ => exact fun hq => ⟨h.over hq.1, h.plain hq.2⟩
  | value | andValue | orValue | notValue => exact fun _ => (ofBool_parts _).2.2.1

theorem QReduces.within {P : String × Nat → Prop} {q q' : Query A} (h : QReduces q q') (hq : q.Within P) : q'.Within P := by
  have ob : ∀ b, (Query.ofBool b : Query A).Within P := fun b => by cases b <;> exact trivial
  induction h with
  | refl => exact hq
  | act | not | notValue => exact hq.elim
  | unify => exact trivial
  | and _ _ ih1 ih2 => exact ⟨ih1 hq.1, ih2 hq.2⟩
  | or _ _ ih1 ih2 => exact ⟨ih1 hq.1, ih2 hq.2⟩
  | value | andValue | orValue => exact ob _
  | @term t u h =>
    rcases h.shape with rfl | ⟨f, ts, us, ts', us', rfl, rfl, h1, -⟩ | ⟨-, e, -, -, e', e''⟩
    · exact hq
    · change P _
      rw [← show ts.length = ts'.length from h1.length.symm]
      exact hq
    · cases u <;> first | (cases e; done) | exact absurd rfl (e' _) | exact absurd rfl e'' | exact trivial

variable [inst : QWorld W A G]

theorem QReduces.negOK {cmp : Bool} {P : String × Nat → Prop} {w : W} {q q' : Query A} (h : QReduces q q') (hq : q.NegOK w cmp P) :
    q'.NegOK w cmp P := by
  have ob : ∀ b, (Query.ofBool b : Query A).NegOK w cmp P := fun b => by cases b <;> exact trivial
  induction h with
  | refl => exact hq
  | act => exact hq.elim
  | term h => exact QReduces.ok (.term h) hq
  | unify h1 h2 => exact QReduces.ok (.unify h1 h2) hq
  | and _ _ ih1 ih2 => exact ⟨ih1 hq.1, ih2 hq.2⟩
  | or _ _ ih1 ih2 => exact ⟨ih1 hq.1, ih2 hq.2⟩
  | not h _ => exact ⟨h.ok hq.1, h.ground hq.2.1, h.within hq.2.2⟩
  | value | andValue | orValue | notValue => exact ob _

/-- **C40**, answers of queries with safe negation (C83): every answer of the query is covered by the
answers of the folded query, and the other way round.  Missing: queries with actions. -/
theorem C40_answers_negation_partial {cmp : Bool} {P M : String × Nat → Prop} {D : VarId → Prop} {q q' : Query A} {s s' s'' : QSt W}
    {l l' : List (QSt W)} (hs : SafeStrata s.w cmp P M) (h : QReduces q q') (hq : q.NegOK s.w cmp P) (hg : q.GroundAnnots) (hsafe : q.Safe M D)
    (hD : ∀ x, D x → GroundIn false s.b.scope (.var x)) (hsc : ScopeOK cmp s.b.scope) (hb : ScopeBelow s.nv s.b.scope) (hqb : q.bound ≤ s.nv)
    (hd : Drain (fun s s' => s' = s) (.start q : Gen A G) s l s') (hd' : Drain (fun s s' => s' = s) (.start q' : Gen A G) s l' s'') :
    (∀ s₁ ∈ l, CoveredBy s s₁ l') ∧ ∀ s₁ ∈ l', CoveredBy s s₁ l := by
  have hqb' : q'.bound ≤ s.nv := Nat.le_trans h.bound hqb
  have d := safe_idle hs hq hg hsafe hD hsc hb hqb hd
  have d' := safe_idle hs (h.negOK hq) (h.ground hg) (h.safe hsafe) hD hsc hb hqb' hd'
  have weak : ∀ {s₁ s₂ : QSt W}, Consumer cmp true s₁ s₂ → Consumer cmp false s₁ s₂ := fun hc =>
    ⟨hc.world, hc.vars, Same.above (by simpa using hc.trail), hc.ok, hc.below⟩
  constructor
  · intro s₁ hm σ h1 h2
    have a := C80_sound_partial hs.toStrata hq hsc hb hqb ((d.mono fun _ _ h => weak h).answer hm) σ h2
    exact C83_complete_partial hs (h.negOK hq) (h.ground hg) (h.safe hsafe) hD hsc hb hqb' d' σ h1 ((C80_folded hs.toStrata h hq σ).1 a)
  · intro s₁ hm σ h1 h2
    have a := C80_sound_partial hs.toStrata (h.negOK hq) hsc hb hqb' ((d'.mono fun _ _ h => weak h).answer hm) σ h2
    exact C83_complete_partial hs hq hg hsafe hD hsc hb hqb d σ h1 ((C80_folded hs.toStrata h hq σ).2 a)

end

section examples
attribute [local instance] exactArith

/-- `free(X) & not at(a, 3 - 1) & not X > 2 + 3` and, folded, `free(X) & not at(a, 2) & not X > 5`. -/
private abbrev fq (a b : Term) : Query Empty :=
  .and (.and (.term (.lit "free" [.var 0] [])) (.not (.term (.lit "at" [.atom "a", a] [])))) (.not (.term (.bin .gt (.var 0) b)))

private abbrev fq1 : Query Empty := fq (.bin .sub (.num 3) (.num 1)) (.bin .add (.num 2) (.num 3))

private theorem fq_reduces : QReduces fq1 (fq (.num 2 ) (.num 5)) :=
  .and (.and (.refl _) (.not (.term (.lit (.cons (.refl _) (.cons (.binValue (.refl _) (.refl _) rfl (by with_unfolding_all rfl)) .nil)) .nil))))
    (.not (.term (.bin (.refl _) (.binValue (.refl _) (.refl _) rfl (by with_unfolding_all rfl)))))

/-- Both have the answers `X = 2` and `X = 3`, and the theorem applies. -/
example : ∃ l l' : List (QSt KB), l.length = 2 ∧ l'.length = 2 ∧ (∀ s₁ ∈ l, CoveredBy ⟨BSt.init, 1, roomKB⟩ s₁ l') ∧
    ∀ s₁ ∈ l', CoveredBy ⟨BSt.init, 1, roomKB⟩ s₁ l := by
  have h : ∀ q : Query Empty, q = fq1 ∨ q = fq (.num 2) (.num 5) → ∃ (s₁ s₂ s' : QSt KB),
      Drain (fun s s' => s' = s) (.start q : Gen Empty Empty) ⟨BSt.init, 1, roomKB⟩ [s₁, s₂] s' := by
    intro q hq
    have h : ∃ (g g' : Gen Empty Empty) (s₁ s₂ s' : QSt KB), gnext 60 (.start q : Gen Empty Empty) ⟨BSt.init, 1, roomKB⟩ = .ok (some g) s₁ ∧
        gnext 60 g s₁ = .ok (some g') s₂ ∧ gnext 60 g' s₂ = .ok none s' := by
      rcases hq with rfl | rfl <;> exact ⟨_, _, _, _, _, by with_unfolding_all rfl, by with_unfolding_all rfl, by with_unfolding_all rfl⟩
    obtain ⟨g, g', s₁, s₂, s', h1, h2, h3⟩ := h
    exact ⟨_, _, _, .next h1 rfl (.next h2 rfl (.stop h3))⟩
  obtain ⟨s₁, s₂, s', h1⟩ := h _ (.inl rfl)
  obtain ⟨t₁, t₂, t', h2⟩ := h _ (.inr rfl)
  refine ⟨_, _, rfl, rfl, C40_answers_negation_partial (D := fun _ => False) roomKB_safe fq_reduces ?_ ?_ ?_ nofun nofun nofun ?_ h1 h2⟩
  · simp [Term.Parts, Term.NoWild, Term.Tame, Term.NoAnnots, Term.Every, Term.EveryL, Query.NegOK, Query.OK, Term.LitOK, Term.isLiteral,
          Query.GroundAnnots, Term.annots, Query.Within, roomP]
  · simp [Query.GroundAnnots, Term.annots]
  · simp [Query.Safe, Query.Plain, Term.Plain, Term.isOp, Term.atom, roomM, Query.after, Query.Over, Term.Occurs, Term.Over, Term.Every, Term.EveryL]
  · decide

end examples

end Verif
