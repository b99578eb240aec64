import Verif.Lemmas.NegLower
import Verif.Lemmas.QEnum

/-! Soundness of queries with negation. -/

namespace Verif

section
variable {W A G : Type} [Arith] [inst : QWorld W A G]
variable {P : String × Nat → Prop} {w : W} {c : Bool}

theorem sat_term_iff {σ : Asg} {t : Term} : Sat w σ (.term t : Query A) ↔
    Den σ t (.bool true) ∨ (∃ grp, ∃ b ∈ QWorld.beliefs w grp, Agree σ t b ∧ AnnotsMatch σ t.annots b.annots) ∨
    ∃ grp, ∃ r ∈ QWorld.rules w grp, ∃ τ v, Den σ t v ∧ Den τ r.head v ∧ Sat w τ r.query := by
  constructor
  · intro h
    cases h with
    | bool h => exact Or.inl h
    | belief h1 h2 h3 => exact Or.inr (Or.inl ⟨_, _, h1, h2, h3⟩)
    | rule h1 h2 h3 h4 => exact Or.inr (Or.inr ⟨_, _, h1, _, _, h2, h3, h4⟩)
  · rintro (h | ⟨_, _, h1, h2, h3⟩ | ⟨_, _, h1, _, _, h2, h3, h4⟩)
    · exact .bool h
    · exact .belief h1 h2 h3
    · exact .rule h1 h2 h3 h4

theorem sat_unify_iff {σ : Asg} {l r : Term} : Sat w σ (.unify l r : Query A) ↔
    Agree σ l r ∧ (l.isLiteral = true → r.isLiteral = true → AnnotsMatch σ l.annots r.annots) :=
  ⟨fun h => by cases h with | unify h1 h2 => exact ⟨h1, h2⟩, fun h => .unify h.1 h.2⟩

theorem sat_and_iff {σ : Asg} {p q : Query A} : Sat w σ (.and p q) ↔ Sat w σ p ∧ Sat w σ q :=
  ⟨fun h => by cases h with | and h1 h2 => exact ⟨h1, h2⟩, fun h => .and h.1 h.2⟩

theorem sat_or_iff {σ : Asg} {p q : Query A} : Sat w σ (.or p q) ↔ Sat w σ p ∨ Sat w σ q :=
  ⟨fun h => by cases h with | orL h => exact Or.inl h | orR h => exact Or.inr h,
    fun h => h.elim .orL .orR⟩

theorem sat_not_iff {σ : Asg} {q : Query A} : Sat w σ (.not q) ↔ ¬ Holds w σ q :=
  ⟨fun h => by cases h with | not h => exact h, .not⟩

/-- What is true without negation is true. -/
theorem Holds.sat {σ : Asg} {q : Query A} (h : Holds w σ q) : Sat w σ q := by
  induction h with
  | tru => exact .tru
  | bool h => exact .bool h
  | belief h1 h2 h3 => exact .belief h1 h2 h3
  | rule h1 h2 h3 _ ih => exact .rule h1 h2 h3 ih
  | and _ _ ih1 ih2 => exact .and ih1 ih2
  | orL _ ih => exact .orL ih
  | orR _ ih => exact .orR ih
  | unify h1 h2 => exact .unify h1 h2

open Classical in
/-- Only the lower stratum matters for the truth of its queries. -/
theorem holds_lower_iff (hs : Strata w c P) {σ : Asg} {q : Query A} (hq : q.Within P) :
    Holds w σ q ↔ @Holds W A G _ (lowerWorld P inst) w σ q := by
  refine ⟨fun h => holds_lower hs h hq, fun h => ?_⟩
  clear hq
  induction h with
  | tru => exact .tru
  | bool h => exact .bool h
  | belief h1 h2 h3 => exact .belief h1 h2 h3
  | rule h1 h2 h3 _ ih => exact .rule (mem_lower h1).2 h2 h3 ih
  | and _ _ ih1 ih2 => exact .and ih1 ih2
  | orL _ ih => exact .orL ih
  | orR _ ih => exact .orR ih
  | unify h1 h2 => exact .unify h1 h2

/-- The meaning of a query under renaming. -/
theorem sat_ren (hs : Strata w c P) {σ τ : Asg} {ρ : VarId → VarId} : ∀ {q : Query A}, q.NegOK w c P →
    (∀ x, x < q.bound → σ (ρ x) = τ x) → (Sat w σ (q.rename ρ) ↔ Sat w τ q)
  | .tru, _, _ => ⟨fun _ => .tru, fun _ => .tru⟩
  | .fls, _, _ => ⟨(fun h => nomatch h), (fun h => nomatch h)⟩
  | .act .., h, _ => h.elim
  | .not q, hq, h => by
    simp only [Query.rename, sat_not_iff]
    rw [holds_lower_iff hs (Query.within_rename hq.2.2), holds_lower_iff hs hq.2.2, @holds_ren _ W A G (lowerWorld P inst) w c (lower_kb hs) σ τ ρ q h]
  | .and p q, hq, h => by
    simp only [Query.rename, sat_and_iff]
    rw [sat_ren hs hq.1 fun x hx => h x (Nat.lt_of_lt_of_le hx (Nat.le_max_left ..)),
      sat_ren hs hq.2 fun x hx => h x (Nat.lt_of_lt_of_le hx (Nat.le_max_right ..))]
  | .or p q, hq, h => by
    simp only [Query.rename, sat_or_iff]
    rw [sat_ren hs hq.1 fun x hx => h x (Nat.lt_of_lt_of_le hx (Nat.le_max_left ..)),
      sat_ren hs hq.2 fun x hx => h x (Nat.lt_of_lt_of_le hx (Nat.le_max_right ..))]
  | .unify l r, _, h => by
    have hl : ∀ x, x < l.bound → σ (ρ x) = τ x := fun x hx => h x (Nat.lt_of_lt_of_le hx (Nat.le_max_left ..))
    have hr : ∀ x, x < r.bound → σ (ρ x) = τ x := fun x hx => h x (Nat.lt_of_lt_of_le hx (Nat.le_max_right ..))
    simp only [Query.rename, sat_unify_iff, Agree, den_ren hl, den_ren hr, Term.isLiteral_rename, annotsMatch_ren hl hr]
  | .term t, _, h => by
    have h : ∀ x, x < t.bound → σ (ρ x) = τ x := h
    simp only [Query.rename, sat_term_iff, den_ren h]
    refine or_congr .rfl (or_congr ?_ .rfl)
    refine exists_congr fun grp => exists_congr fun b => ?_
    constructor
    · rintro ⟨hb, h1, h2⟩
      have hc := (hs.belief grp b hb).2.1.closed_lit
      refine ⟨hb, ?_, (annotsMatch_ren_closed h hc.2).1 h2⟩
      obtain ⟨v, h1, h2⟩ := h1
      exact ⟨v, (den_ren h v).1 h1, (den_indep b hc.1 v).1 h2⟩
    · rintro ⟨hb, h1, h2⟩
      have hc := (hs.belief grp b hb).2.1.closed_lit
      refine ⟨hb, ?_, (annotsMatch_ren_closed h hc.2).2 h2⟩
      obtain ⟨v, h1, h2⟩ := h1
      exact ⟨v, (den_ren h v).2 h1, (den_indep b hc.1 v).1 h2⟩

omit [Arith] in
theorem Query.negOK_rename {ρ : VarId → VarId} : ∀ {q : Query A}, q.NegOK w c P → (q.rename ρ).NegOK w c P
  | .tru, _ | .fls, _ => trivial
  | .act .., h => h
  | .not _, h => ⟨Query.ok_rename h.1, Query.groundAnnots_rename h.2.1, Query.within_rename h.2.2⟩
  | .and _ _, h | .or _ _, h => ⟨Query.negOK_rename h.1, Query.negOK_rename h.2⟩
  | .term t, h => Query.ok_rename (q := .term t) h
  | .unify l r, h => Query.ok_rename (q := .unify l r) h

/-- Invariant of a suspended generator that was started in `b₀`; the state is `b` now.  All
answers satisfy `φ`. -/
def NInv (w : W) (c : Bool) (P : String × Nat → Prop) (N : Nat) : Gen A G → BSt → BSt → (Asg → Prop) → Prop
  | .start q, b₀, b, φ => q.NegOK w c P ∧ q.bound ≤ N ∧ Above b₀ b ∧ ∀ σ, Models σ b.scope → Sat w σ q → φ σ
  | .done, b₀, b, _ => Above b₀ b
  | .act _, _, _, _ => False
  | .ua d, b₀, b, _ => ∃ b₁, Above b₀ b₁ ∧ d = b₁.ncp ∧ Above b₁.mark b
  | .belHead grp t rest _, b₀, b, φ => TermOK w c false t grp N ∧ (∀ x ∈ rest, x ∈ QWorld.beliefs w grp) ∧
    Above b₀ b ∧ ∀ σ, Models σ b.scope → Sat w σ (.term t) → φ σ
  | .bel d grp t rest _, b₀, b, φ => TermOK w c false t grp N ∧ (∀ x ∈ rest, x ∈ QWorld.beliefs w grp) ∧
    ∃ b₁, Above b₀ b₁ ∧ d = b₁.ncp ∧ Above b₁.mark b ∧ ∀ σ, Models σ b₁.scope → Sat w σ (.term t) → φ σ
  | .ruleHead d t rest, b₀, b, φ => ∃ grp, TermOK w c false t grp N ∧ (∀ r ∈ rest, r ∈ QWorld.rules w grp) ∧
    Above b₀ b ∧ b₀.ncp ≤ d ∧ d < b.ncp ∧ ∀ σ, Models σ b.scope → Sat w σ (.term t) → φ σ
  | .rule d t rest inner, b₀, b, φ => (∃ grp, TermOK w c false t grp N ∧ (∀ r ∈ rest, r ∈ QWorld.rules w grp)) ∧
    ∃ b₁ b₂, (∀ σ, Models σ b₁.scope → Sat w σ (.term t) → φ σ) ∧
      Above b₀ b₁ ∧ b₀.ncp ≤ d ∧ d < b₁.ncp ∧ Above (b₁.pushCp d) b₂ ∧ NInv w c P N inner b₂ b φ
  | .andHead l rq, b₀, b, φ => rq.NegOK w c P ∧ rq.bound ≤ N ∧ NInv w c P N l b₀ b (fun σ => Sat w σ rq → φ σ)
  | .and l rq r, b₀, b, φ => rq.NegOK w c P ∧ rq.bound ≤ N ∧ Susp (fun _ => True) l ∧
    ∃ b₁, NInv w c P N l b₀ b₁ (fun σ => Sat w σ rq → φ σ) ∧ NInv w c P N r b₁ b φ
  | .or l rq, b₀, b, φ => rq.NegOK w c P ∧ rq.bound ≤ N ∧
    ∃ b₁, Above b₀ b₁ ∧ NInv w c P N l b₁ b φ ∧ ∀ σ, Models σ b₁.scope → Sat w σ rq → φ σ

theorem NInv.above {N : Nat} : ∀ {g : Gen A G} {b₀ b : BSt} {φ : Asg → Prop}, NInv w c P N g b₀ b φ → Above b₀ b
  | .start _, _, _, _, h => h.2.2.1
  | .done, _, _, _, h => h
  | .ua _, _, _, _, ⟨_, h1, _, h2⟩ => h1.trans ((above_mark _).trans h2)
  | .belHead .., _, _, _, h => h.2.2.1
  | .bel .., _, _, _, ⟨_, _, _, h1, _, h2, _⟩ => h1.trans ((above_mark _).trans h2)
  | .ruleHead .., _, _, _, ⟨_, _, _, h, _⟩ => h
  | .rule .., _, _, _, ⟨_, _, _, _, h1, h2, h3, h4, h5⟩ => (above_push h3 h2 h1).trans (h4.trans (NInv.above h5))
  | .andHead .., _, _, _, ⟨_, _, h⟩ => NInv.above h
  | .and .., _, _, _, ⟨_, _, _, _, h1, h2⟩ => (NInv.above h1).trans (NInv.above h2)
  | .or .., _, _, _, ⟨_, _, _, h1, h2, _⟩ => h1.trans (NInv.above h2)

/-- Changes by the consumer are tolerated. -/
theorem NInv.closed {N : Nat} : ∀ {g : Gen A G} {b₀ b b' : BSt} {φ : Asg → Prop},
    NInv w c P N g b₀ b φ → Susp (fun _ => True) g → Above b b' → NInv w c P N g b₀ b' φ
  | .done, _, _, _, _, h, _, hb => h.trans hb
  | .ua _, _, _, _, _, ⟨b₁, h1, h2, h3⟩, _, hb => ⟨b₁, h1, h2, h3.trans hb⟩
  | .bel .., _, _, _, _, ⟨i1, i2, b₁, h1, h2, h3, h5⟩, _, hb => ⟨i1, i2, b₁, h1, h2, h3.trans hb, h5⟩
  | .rule .., _, _, _, _, ⟨i1, b₁, b₂, i2, h1, h2, h3, h4, h5⟩, hs, hb =>
    ⟨i1, b₁, b₂, i2, h1, h2, h3, h4, NInv.closed h5 hs hb⟩
  | .and .., _, _, _, _, ⟨i1, i2, i3, b₁, h1, h2⟩, hs, hb => ⟨i1, i2, i3, b₁, h1, NInv.closed h2 hs.2 hb⟩
  | .or .., _, _, _, _, ⟨i1, i2, b₁, h0, h1, h2⟩, hs, hb => ⟨i1, i2, b₁, h0, NInv.closed h1 hs hb, h2⟩

theorem NInv.mono {N N' : Nat} (hN : N ≤ N') : ∀ {g : Gen A G} {b₀ b : BSt} {φ : Asg → Prop},
    NInv w c P N g b₀ b φ → NInv w c P N' g b₀ b φ
  | .start _, _, _, _, ⟨h1, h2, h3⟩ => ⟨h1, Nat.le_trans h2 hN, h3⟩
  | .done, _, _, _, h | .ua _, _, _, _, h => h
  | .belHead .., _, _, _, ⟨h, h'⟩ | .bel .., _, _, _, ⟨h, h'⟩ => ⟨h.mono hN, h'⟩
  | .ruleHead .., _, _, _, ⟨grp, h, h'⟩ => ⟨grp, h.mono hN, h'⟩
  | .rule .., _, _, _, ⟨⟨grp, i0, i1⟩, b₁, b₂, i2, h1, h2, h3, h4, h5⟩ =>
    ⟨⟨grp, i0.mono hN, i1⟩, b₁, b₂, i2, h1, h2, h3, h4, NInv.mono hN h5⟩
  | .andHead .., _, _, _, ⟨i1, i2, h1⟩ => ⟨i1, Nat.le_trans i2 hN, NInv.mono hN h1⟩
  | .and .., _, _, _, ⟨i1, i2, i3, b₁, h1, h2⟩ => ⟨i1, Nat.le_trans i2 hN, i3, b₁, NInv.mono hN h1, NInv.mono hN h2⟩
  | .or .., _, _, _, ⟨i1, i2, b₁, h0, h1, h2⟩ => ⟨i1, Nat.le_trans i2 hN, b₁, h0, NInv.mono hN h1, h2⟩

/-- What `next` must do. -/
structure NOut (w : W) (c : Bool) (P : String × Nat → Prop) (N : Nat) (b₀ : BSt) (φ : Asg → Prop)
    (x : Res (QSt W) (Option (Gen A G))) : Prop where
  onNone : ∀ s', x = .ok none s' → s'.w = w ∧ N ≤ s'.nv ∧ Fine c s' ∧ Above b₀ s'.b
  onSome : ∀ g' s', x = .ok (some g') s' → s'.w = w ∧ N ≤ s'.nv ∧ Fine c s' ∧ Susp (fun _ => True) g' ∧
    (∀ σ, Models σ s'.b.scope → φ σ) ∧ NInv w c P s'.nv g' b₀ s'.b φ

theorem NOut.oof {N : Nat} {b₀ : BSt} {φ : Asg → Prop} : NOut (A := A) (G := G) w c P N b₀ φ .oof := ⟨nofun, nofun⟩

theorem NOut.err {N : Nat} {b₀ : BSt} {φ : Asg → Prop} {e : Err} {s : QSt W} :
    NOut (A := A) (G := G) w c P N b₀ φ (.err e s) := ⟨nofun, nofun⟩

theorem NOut.mkNone {N : Nat} {b₀ : BSt} {φ : Asg → Prop} {s : QSt W} (h1 : s.w = w) (h2 : N ≤ s.nv) (h3 : Fine c s)
    (h4 : Above b₀ s.b) : NOut (A := A) (G := G) w c P N b₀ φ (.ok none s) :=
  ⟨fun s' h => by cases h; exact ⟨h1, h2, h3, h4⟩, nofun⟩

theorem NOut.mkSome {N : Nat} {b₀ : BSt} {φ : Asg → Prop} {s : QSt W} {g : Gen A G} (h1 : s.w = w)
    (h2 : N ≤ s.nv) (h3 : Fine c s) (h4 : Susp (fun _ => True) g) (h5 : ∀ σ, Models σ s.b.scope → φ σ)
    (h6 : NInv w c P s.nv g b₀ s.b φ) : NOut (A := A) (G := G) w c P N b₀ φ (.ok (some g) s) :=
  ⟨nofun, fun g' s' h => by cases h; exact ⟨h1, h2, h3, h4, h5, h6⟩⟩

theorem NOut.weaken {N N' : Nat} {b₀ : BSt} {φ : Asg → Prop} {x : Res (QSt W) (Option (Gen A G))}
    (h : NOut w c P N' b₀ φ x) (hN : N ≤ N') : NOut w c P N b₀ φ x where
  onNone := fun s' hx => by
    obtain ⟨h1, h2, h3⟩ := h.onNone s' hx
    exact ⟨h1, Nat.le_trans hN h2, h3⟩
  onSome := fun g' s' hx => by
    obtain ⟨h1, h2, h3⟩ := h.onSome g' s' hx
    exact ⟨h1, Nat.le_trans hN h2, h3⟩

theorem NOut.onNext {N N' : Nat} {b₀ b₁ : BSt} {φ ψ : Asg → Prop} {x : Res (QSt W) (Option (Gen A G))}
    {f : Gen A G → QSt W → Res (QSt W) (Option (Gen A G))} {l : QSt W → Res (QSt W) (Option (Gen A G))}
    (h : NOut w c P N' b₁ ψ x)
    (hs : ∀ g' s', s'.w = w → N' ≤ s'.nv → Fine c s' → Susp (fun _ => True) g' → (∀ σ, Models σ s'.b.scope → ψ σ) →
      NInv w c P s'.nv g' b₁ s'.b ψ → NOut w c P N b₀ φ (f g' s'))
    (hn : ∀ s', s'.w = w → N' ≤ s'.nv → Fine c s' → Above b₁ s'.b → NOut w c P N b₀ φ (l s')) :
    NOut w c P N b₀ φ (x.onNext f l) := by
  cases x with
  | oof => exact .oof
  | err ex s' => exact .err
  | ok o s' =>
    cases o with
    | none => obtain ⟨h1, h2, h3, h4⟩ := h.onNone s' rfl; exact hn s' h1 h2 h3 h4
    | some g' =>
      obtain ⟨h1, h2, h3, h4, h5, h6⟩ := h.onSome g' s' rfl
      exact hs g' s' h1 h2 h3 h4 h5 h6

/-- Every run of `rec` is sound. -/
def SoundRec (w : W) (c : Bool) (P : String × Nat → Prop) (rec : Gen A G → QSt W → Res (QSt W) (Option (Gen A G))) : Prop :=
  ∀ g s b₀ φ, s.w = w → Fine c s → NInv w c P s.nv g b₀ s.b φ → NOut w c P s.nv b₀ φ (rec g s)

theorem sat_term_eval {sc : Scope} {t t' : Term} (he : EvalOK true sc t t') (hl : ¬ t.isLiteral = true) {σ : Asg}
    (hσ : Models σ sc) : Sat w σ (.term t : Query A) ↔ Sat w σ (.term t') := by
  have ha := he.den σ hσ
  have h1 : t.annots = [] := by cases t <;> simp_all [Term.isLiteral, Term.annots]
  have h2 := tame_annots he.tame
  rw [sat_term_iff, sat_term_iff, h1, h2]
  simp only [Agree, ha]

theorem sat_rule (hs : Strata w c P) {t : Term} {N : Nat} {r : Rule A} {grp : String × Nat} (hr : r ∈ QWorld.rules w grp) {σ : Asg}
    (h1 : Agree σ t (r.deepcopy N).head) (h2 : Sat w σ (r.deepcopy N).query) : Sat w σ (.term t : Query A) := by
  obtain ⟨v, h1, h1'⟩ := h1
  exact .rule (τ := fun x => σ (N + x)) hr h1 ((den_rename _ _).1 h1')
    ((sat_ren hs (hs.rule _ _ hr).2.2.2 fun x _ => rfl).1 h2)

open Classical in
theorem gnext_sound (hs : Strata w c P) (n : Nat) : SoundRec w c P (gnext (W := W) n) := by
  induction n
  case zero => exact fun _ _ _ _ _ _ _ => .oof
  rename_i n ih
  intro g s b₀ φ hsw hf h
  have ua : ∀ (l t : Term) (f : Nat → Gen A G) (kk : QSt W → Res (QSt W) (Option (Gen A G))) (goal : Asg → Prop),
      Above b₀ s.b → l.bound ≤ s.nv → t.bound ≤ s.nv →
      (l.isLiteral = true → ∀ n t', evaluate n s.b.scope t = .ok t' → t' ≠ .wild ∧ ∀ y, t' ≠ .var y) →
      UaSC c false goal s.b (uaStart n l t s.b) →
      (∀ c, Susp (fun _ => True) (f c)) → (∀ b, Above s.b.mark b → NInv w c P s.nv (f s.b.ncp) b₀ b φ) →
      (∀ σ, Models σ s.b.scope → goal σ → φ σ) →
      (∀ s' : QSt W, s'.w = w → s.nv = s'.nv → Fine c s' → Same s.b s'.b → NOut w c P s.nv b₀ φ (kk s')) →
      NOut w c P s.nv b₀ φ ((s.onB (uaStart n l t)).onNext (fun c s => .ok (some (f c)) s) kk) := by
    intro l t f kk goal hb hl ht hv hsc hfs hg hφ hkk
    have tr := ua_trail n l t s.b
    have below := ua_P (hered_bound s.nv) n l t s.b
    unfold QSt.onB
    cases hx : uaStart n l t s.b with
    | oof => exact .oof
    | err ex b' => exact .err
    | ok o b' =>
      cases o with
      | none =>
        have hsame := tr.none _ hx
        exact hkk { s with b := b' } hsw rfl (hf.same hsame.scope (Nat.le_refl _)) hsame
      | some d =>
        obtain ⟨rfl, _, h2⟩ := tr.some _ _ hx
        have ha : Above s.b.mark b' := by
          rcases h2 with h2 | ⟨hl, m, r', hev, h2⟩
          · exact h2
          · have := hv hl m r' hev
            rcases h2 with rfl | ⟨y, rfl⟩
            · exact absurd rfl this.1
            · exact absurd rfl (this.2 y)
        obtain ⟨i1, i2, i3⟩ := hsc.yes _ _ hx
        refine .mkSome hsw (Nat.le_refl _) ⟨i1, below b' hf.below hl ht (Or.inl ⟨_, hx⟩)⟩ (hfs _) ?_ (hg _ ha)
        intro σ hσ
        exact hφ σ (i2 σ hσ).1 (i2 σ hσ).2
  have evlit : ∀ (sc : Scope) (m : Nat) (f : String) (as xs : List Term) (t' : Term), evaluate m sc (.lit f as xs) = .ok t' →
      t' = .lit f as xs := by
    intro sc m f as xs t' hh
    cases m <;> simp [evaluate] at hh
    exact hh.symm
  rw [gnext]
  unfold gstep
  split
  · -- done
    exact .mkNone hsw (Nat.le_refl _) hf h
  · -- true
    obtain ⟨h1, h2, h3, h4⟩ := h
    exact .mkSome (g := .done) hsw (Nat.le_refl _) hf trivial (fun σ hσ => h4 σ hσ .tru) h3
  · -- false
    obtain ⟨h1, h2, h3, h4⟩ := h
    exact .mkNone hsw (Nat.le_refl _) hf h3
  · exact absurd h.1 (by simp [Query.NegOK, Query.OK])
  · exact absurd h (by simp [NInv])
  · -- term
    rename_i t
    obtain ⟨h1, h2, h3, h4⟩ := h
    cases hx : evaluate n s.b.scope t with
    | oof => exact .oof
    | err ex => exact .err
    | ok t' =>
      simp only [Res.lift_ok, Res.bind_ok]
      simp only [Query.NegOK, Query.OK] at h1
      have below : t'.bound ≤ s.nv := evaluate_P (hered_bound s.nv) hf.below h2 hx
      by_cases hl : t.isLiteral = true
      · rw [if_pos hl] at h1
        cases t <;> simp [Term.isLiteral] at hl
        rename_i f as xs
        rw [evlit _ _ _ _ _ _ hx]
        exact ih _ _ _ _ hsw hf ⟨⟨rfl, h1.1, h1.2, h2, nofun⟩, by simp [hsw], h3, h4⟩
      · rw [if_neg hl] at h1
        obtain ⟨rfl, h1, h1'⟩ := h1
        have he := evaluate_spec hf.ok h1' hx
        split
        · exact .mkSome (g := .done) hsw (Nat.le_refl _) hf trivial
            (fun σ hσ => h4 σ hσ (.bool ((he.den σ hσ _).2 rfl))) h3
        · exact .mkNone hsw (Nat.le_refl _) hf h3
        · rename_i f as xs
          have hxs : xs = [] := tame_annots (t := .lit f as xs) he.tame
          subst hxs
          have ht := he.tame
          have hnw := he.noWild h1
          rw [Term.tame_lit] at ht
          exact ih _ _ _ _ hsw hf ⟨⟨rfl, ⟨ht.2, by simp⟩, Or.inl ⟨by simpa using hnw, by simp⟩, below, nofun⟩,
            by simp [hsw], h3, fun σ hσ hh => h4 σ hσ ((sat_term_eval he hl hσ).2 hh)⟩
        · exact .err
  · -- belHead
    rename_i grp t rest size
    obtain ⟨h1, h2, h3, h4⟩ := h
    split
    · exact .err
    · split
      · exact ih (.ruleHead ..) { s with b := s.b.newCp.2 } _ _ hsw (hf.same rfl (Nat.le_refl _)) ⟨grp, h1, by rw [hsw]; exact fun _ h => h,
          h3.trans (Same.above ⟨rfl, Nat.le_succ _⟩), above_ncp h3, Nat.lt_succ_self _, h4⟩
      · rename_i belief rest
        have hbel := h2 belief (by simp)
        obtain ⟨_, i2, i3, i4⟩ := hs.belief _ _ hbel
        refine ua _ _ _ _ (BelMatch · t belief) h3 h1.bound ?_ ?_ (UaSC.lit hf.ok h1.lit i3 (Or.inr (Or.inr i2)) nofun)
          (fun _ => trivial) (fun b hb => ⟨h1, fun x hx => h2 x (by simp [hx]), s.b, h3, rfl, hb, h4⟩)
          (fun σ hσ hm => h4 σ hσ (.belief hbel hm.1 hm.2)) ?_
        · rw [i4]; exact Nat.zero_le _
        · intro _ m t' hev
          cases belief <;> simp [Term.Parts] at i2
          rw [evlit _ _ _ _ _ _ hev]
          simp
        · intro s' hw' hn hf' hsame
          rw [hn] at h1 ⊢
          refine ih (.belHead ..) _ _ _ hw' hf' ⟨h1, fun x hx => h2 x (by simp [hx]), h3.trans (Same.above hsame), ?_⟩
          intro σ hσ
          exact h4 σ ((models_same hsame).1 hσ)
  · -- bel
    obtain ⟨h1, h2, b₁, h3, rfl, h4, h5⟩ := h
    have hsame : Same b₁ (uaResume b₁.ncp s.b) := same_reroll h4
    refine ih (.belHead ..) { s with b := uaResume b₁.ncp s.b } _ _ hsw
      (hf.reroll ((above_mark _).trans h4) hsame (Nat.le_refl _)) ⟨h1, h2, h3.trans (Same.above hsame), ?_⟩
    intro σ hσ
    exact h5 σ ((models_same hsame).1 hσ)
  · -- ruleHead []
    obtain ⟨grp, h1, h2, h3, h4, h5, h6⟩ := h
    exact .mkNone hsw (Nat.le_refl _) hf h3
  · -- ruleHead
    rename_i d t rule rest
    obtain ⟨grp, h1, h2, h3, h4, h5, h6⟩ := h
    have hrule := h2 rule (by simp)
    have hrest : ∀ r ∈ rest, r ∈ QWorld.rules w grp := fun r hr => h2 r (by simp [hr])
    have hnw : t.Parts Term.NoWild := h1.wild.resolve_right (fun h => by rw [h] at hrule; cases hrule)
    obtain ⟨_, r2, r3, r4⟩ := hs.rule _ _ hrule
    have hu : UOK c (Agree · t (rule.deepcopy s.nv).head) (s.b.pushCp d) (unify n t (rule.deepcopy s.nv).head (s.b.pushCp d)) :=
      unify_lits hf.ok h1.lit (Term.parts_rename (fun _ h => Term.tame_rename.2 h) r3)
        (Or.inl ⟨hnw, Term.parts_rename (fun _ h => Term.noWild_rename.2 h) r2⟩)
    have hhead : (rule.deepcopy s.nv).head.bound ≤ s.nv + rule.bound :=
      Nat.le_trans (Term.bound_rename _) (Nat.add_le_add_left (Nat.le_max_left _ _) _)
    have hquery : (rule.deepcopy s.nv).query.bound ≤ s.nv + rule.bound :=
      Nat.le_trans (Query.bound_rename _) (Nat.add_le_add_left (Nat.le_max_right _ _) _)
    have below := unify_P (hered_bound (s.nv + rule.bound)) n t (rule.deepcopy s.nv).head (s.b.pushCp d)
    simp only [QSt.onB]
    cases hx : unify n t (rule.deepcopy s.nv).head (s.b.pushCp d) with
    | oof => exact .oof
    | err ex b' => exact .err
    | ok o b' =>
      have hb : Above (s.b.pushCp d) b' := (unify_grow n _ _ _ _ (Or.inl ⟨_, hx⟩)).above
      simp only [Res.bind_ok]
      have hle : s.nv ≤ s.nv + rule.bound := Nat.le_add_right _ _
      cases o with
      | true =>
        have hy := hu.yes _ hx
        have hfine : Fine c (⟨b', s.nv + rule.bound, s.w⟩ : QSt W) :=
          ⟨hy.1, below b' (hf.below.mono hle) (Nat.le_trans h1.bound hle) hhead (Or.inl ⟨_, hx⟩)⟩
        refine (ih (.rule d t rest (.start (rule.deepcopy s.nv).query)) ⟨b', s.nv + rule.bound, s.w⟩ b₀ φ hsw hfine
          ⟨⟨grp, h1.mono hle, hrest⟩, s.b, b', h6, h3, h4, h5, hb, ?_⟩).weaken hle
        refine ⟨Query.negOK_rename r4, hquery, .refl _, ?_⟩
        intro σ hσ hh
        have := (hy.2 σ).1 hσ
        exact h6 σ this.1 (sat_rule hs hrule this.2 hh)
      | false =>
        have hsame : Same s.b (reroll b' d) := reroll_push h5 hb
        refine (ih (.ruleHead d t rest) ⟨reroll b' d, s.nv + rule.bound, s.w⟩ b₀ φ hsw (hf.same hsame.scope hle)
          ⟨grp, h1.mono hle, hrest, h3.trans (Same.above hsame), h4, Nat.lt_of_lt_of_le h5 hsame.2, ?_⟩).weaken hle
        intro σ hσ
        exact h6 σ ((models_same hsame).1 hσ)
  · -- rule
    rename_i d t rest inner
    obtain ⟨⟨grp, h1, h2⟩, b₁, b₂, h3, h4, h5, h6, h7, h8⟩ := h
    refine (ih _ _ _ _ hsw hf h8).onNext ?_ ?_
    · intro g' s' i1 i2 i3 i4 i5 i6
      exact .mkSome (g := .rule ..) i1 i2 i3 i4 i5 ⟨⟨grp, h1.mono i2, h2⟩, b₁, b₂, h3, h4, h5, h6, h7, i6⟩
    · intro s' i1 i2 i3 i4
      have hab : Above (b₁.pushCp d) s'.b := h7.trans i4
      have hsame : Same b₁ (reroll s'.b d) := reroll_push h6 hab
      refine (ih (.ruleHead d t rest) { s' with b := reroll s'.b d } b₀ φ i1 ?_
        ⟨grp, h1.mono i2, h2, h4.trans (Same.above hsame), h5, Nat.lt_of_lt_of_le h6 hsame.2, ?_⟩).weaken i2
      · exact (i3.back (s' := { s' with b := b₁.pushCp d }) hab (Nat.le_refl _)).same hsame.scope (Nat.le_refl _)
      · intro σ hσ
        exact h3 σ ((models_same hsame).1 hσ)
  · -- start and
    rename_i l rq
    obtain ⟨h1, h2, h3, h4⟩ := h
    simp only [Query.bound, Nat.max_le] at h2
    exact ih (.andHead ..) _ _ _ hsw hf ⟨h1.2, h2.2, h1.1, h2.1, h3, fun σ hσ hl hr => h4 σ hσ (.and hl hr)⟩
  · -- andHead
    rename_i l rq
    obtain ⟨h1, h2, h3⟩ := h
    refine (ih _ _ _ _ hsw hf h3).onNext ?_ ?_
    · intro g' s' i1 i2 i3 i4 i5 i6
      exact (ih (.and g' rq (.start rq)) s' b₀ φ i1 i3 ⟨h1, Nat.le_trans h2 i2, i4, s'.b, i6, h1, Nat.le_trans h2 i2, .refl _, i5⟩).weaken i2
    · intro s' i1 i2 i3 i4
      exact .mkNone i1 i2 i3 i4
  · -- and
    rename_i l rq r
    obtain ⟨h1, h2, h3, b₁, h4, h5⟩ := h
    refine (ih _ _ _ _ hsw hf h5).onNext ?_ ?_
    · intro g' s' i1 i2 i3 i4 i5 i6
      exact .mkSome (g := .and ..) i1 i2 i3 ⟨h3, i4⟩ i5 ⟨h1, Nat.le_trans h2 i2, h3, b₁, h4.mono i2, i6⟩
    · intro s' i1 i2 i3 i4
      exact (ih (.andHead ..) s' b₀ φ i1 i3 ⟨h1, Nat.le_trans h2 i2, (h4.closed h3 i4).mono i2⟩).weaken i2
  · -- start or
    rename_i l rq
    obtain ⟨h1, h2, h3, h4⟩ := h
    simp only [Query.bound, Nat.max_le] at h2
    exact ih (.or ..) _ _ _ hsw hf ⟨h1.2, h2.2, s.b, h3, ⟨h1.1, h2.1, .refl _, fun σ hσ hh => h4 σ hσ (.orL hh)⟩,
      fun σ hσ hh => h4 σ hσ (.orR hh)⟩
  · -- or
    rename_i l rq
    obtain ⟨h1, h2, b₁, h3, h4, h5⟩ := h
    refine (ih _ _ _ _ hsw hf h4).onNext ?_ ?_
    · intro g' s' i1 i2 i3 i4 i5 i6
      exact .mkSome (g := .or ..) i1 i2 i3 i4 i5 ⟨h1, Nat.le_trans h2 i2, b₁, h3, i6, h5⟩
    · intro s' i1 i2 i3 i4
      refine (ih (.start _) s' b₀ φ i1 i3 ⟨h1, Nat.le_trans h2 i2, h3.trans i4, ?_⟩).weaken i2
      intro σ hσ
      exact h5 σ (i4.models hσ)
  · -- not
    rename_i q
    obtain ⟨⟨h1, h1', h1''⟩, h2, h3, h4⟩ := h
    have e := (lower_run hs n (.start q) { s with b := s.b.mark } hsw h1'').eq
    have hl := @gnext_logic W A G _ (lowerWorld P inst) w c true (lower_kb hs) (fun _ => lower_ground hs) n (.start q)
      { s with b := s.b.mark } s.nv s.b.mark (fun _ => True) (fun σ => @Holds W A G _ (lowerWorld P inst) w σ q) hsw
      (hf.same rfl (Nat.le_refl _)) (Nat.le_refl _)
      ⟨lower_ok h1, fun _ => h1', h2, rel_refl _ _, fun _ _ _ => trivial, fun _ _ _ hh => hh⟩
    rw [← e] at hl
    have hsome := @QOut.onSome W A G _ (lowerWorld P inst) w c true _ _ _ _ _ _ hl
    have hnone := @QOut.onNone W A G _ (lowerWorld P inst) w c true _ _ _ _ _ _ hl
    cases hx : gnext n (.start q : Gen A G) { s with b := s.b.mark } with
    | oof => exact .oof
    | err ex b' => exact .err
    | ok o s₁ =>
      cases o with
      | some g' =>
        obtain ⟨i1, i2, i3, i4, i5, ρ', i6, i7⟩ := hsome _ _ hx
        have hsame : Same s.b (reroll s₁.b s.b.ncp) := same_reroll (@QInv.above W A G _ (lowerWorld P inst) w c true _ _ _ _ _ _ _ i6)
        exact .mkNone (s := { s₁ with b := reroll s₁.b s.b.ncp }) i1 i2 (hf.same hsame.scope i2) (h3.trans (Same.above hsame))
      | none =>
        obtain ⟨i1, i2, i3, i4, i5⟩ := hnone _ hx
        have hsame : Same s.b (reroll s₁.b s.b.ncp) := same_reroll (rel_above i4)
        refine .mkSome (s := { s₁ with b := reroll s₁.b s.b.ncp }) (g := .done) i1 i2 (hf.same hsame.scope i2) trivial ?_ (h3.trans (Same.above hsame))
        intro σ hσ
        have hσ : Models σ s.b.scope := (models_same hsame).1 hσ
        exact h4 σ hσ (.not fun hh => i5 rfl σ hσ (holds_lower hs hh h1''))
  · -- unify
    rename_i l t
    obtain ⟨h1, h2, h3, h4⟩ := h
    simp only [Query.bound, Nat.max_le] at h2
    have h1 : (Query.unify (A := A) l t).OK w c := h1
    refine ua _ _ _ _ (fun σ => Holds w σ (.unify l t)) h3 h2.1 h2.2 ?_
      (ua_unify h1 nofun hf.ok) (fun _ => trivial) (fun b hb => ⟨s.b, h3, rfl, hb⟩) (fun σ hσ hh => h4 σ hσ hh.sat) ?_
    · intro hl m t' hev
      refine evaluate_notVar ?_ ?_ hev
      · rcases h1 with h1 | h1
        · rintro rfl
          simpa using h1.2.2.2.2.1
        · rintro rfl
          simpa [Term.Parts] using h1.2.1
      · rcases h1 with h1 | h1
        · exact h1.2.2.2.2.2 hl
        · rintro y rfl
          simpa [Term.Parts] using h1.2.1
    · intro s' i1 i2 i3 i4
      exact .mkNone i1 (Nat.le_of_eq i2) i3 (h3.trans (Same.above i4))
  · -- ua
    obtain ⟨b₁, h1, rfl, h3⟩ := h
    have hsame : Same b₁ (uaResume b₁.ncp s.b) := same_reroll h3
    exact .mkNone hsw (Nat.le_refl _) (hf.reroll ((above_mark _).trans h3) hsame (Nat.le_refl _)) (h1.trans (Same.above hsame))

theorem answer_sound (hs : Strata w c P) {g : Gen A G} {s s' : QSt W} {b₀ : BSt} {φ : Asg → Prop} (h : Answer (Uses c false) g s s') :
    s.w = w → Fine c s → NInv w c P s.nv g b₀ s.b φ → ∀ σ, Models σ s'.b.scope → φ σ := by
  induction h with
  | now hn =>
    intro h1 h2 h4
    obtain ⟨_, _, _, _, h5, _⟩ := (gnext_sound hs _ _ _ _ _ h1 h2 h4).onSome _ _ hn
    exact h5
  | later hn hr _ ih =>
    intro h1 h2 h4
    obtain ⟨i1, i2, _, i4, _, i6⟩ := (gnext_sound hs _ _ _ _ _ h1 h2 h4).onSome _ _ hn
    obtain ⟨j1, j2, j3, j4⟩ := hr
    exact ih (j1.trans i1) j4 ((i6.closed i4 (by simpa [rel] using j3)).mono j2)

end

end Verif
