import Verif.Lemmas.Hered
import Verif.Lemmas.RenameOK

/-! Variables of a running query are below the counter. -/

namespace Verif

variable {W A G : Type} [Arith] [QWorld W A G]

/-- All variables in the generator are below `N`; there are no actions. -/
def GenBelow (N : Nat) : Gen A G → Prop
  | .start q => q.Clean (fun _ _ => False) ∧ q.bound ≤ N
  | .done | .ua _ => True
  | .act _ => False
  | .belHead _ t rest _ | .bel _ _ t rest _ => t.bound ≤ N ∧ ∀ x ∈ rest, x.bound = 0
  | .ruleHead _ t rest => t.bound ≤ N ∧ ∀ r ∈ rest, r.query.Clean (fun _ _ => False)
  | .rule _ t rest inner => t.bound ≤ N ∧ (∀ r ∈ rest, r.query.Clean (fun _ _ => False)) ∧ GenBelow N inner
  | .andHead l rq => GenBelow N l ∧ rq.Clean (fun _ _ => False) ∧ rq.bound ≤ N
  | .and l rq r => GenBelow N l ∧ (rq.Clean (fun _ _ => False) ∧ rq.bound ≤ N) ∧ GenBelow N r
  | .or l rq => GenBelow N l ∧ rq.Clean (fun _ _ => False) ∧ rq.bound ≤ N

omit [Arith] [QWorld W A G] in
theorem GenBelow.mono {N N' : Nat} (hN : N ≤ N') : ∀ {g : Gen A G}, GenBelow N g → GenBelow N' g
  | .start _, h => ⟨h.1, Nat.le_trans h.2 hN⟩
  | .done, _ | .ua _, _ => trivial
  | .belHead .., h | .bel .., h => ⟨Nat.le_trans h.1 hN, h.2⟩
  | .ruleHead .., h => ⟨Nat.le_trans h.1 hN, h.2⟩
  | .rule .., h => ⟨Nat.le_trans h.1 hN, h.2.1, GenBelow.mono hN h.2.2⟩
  | .andHead .., h => ⟨GenBelow.mono hN h.1, h.2.1, Nat.le_trans h.2.2 hN⟩
  | .and .., h => ⟨GenBelow.mono hN h.1, ⟨h.2.1.1, Nat.le_trans h.2.1.2 hN⟩, GenBelow.mono hN h.2.2⟩
  | .or .., h => ⟨GenBelow.mono hN h.1, h.2.1, Nat.le_trans h.2.2 hN⟩

/-- Conditions on the world: no actions in rules, no variables in beliefs. -/
structure WBelow (w : W) : Prop where
  rules : RulesAre (fun r : Rule A => r.query.Clean (fun _ _ => False)) w
  bels : ∀ grp, ∀ x ∈ QWorld.beliefs w grp, x.bound = 0

/-- What `next` must respect. -/
structure BOut (w : W) (N : Nat) (x : Res (QSt W) (Option (Gen A G))) : Prop where
  st : ∀ s', x.leaves s' → s'.w = w ∧ N ≤ s'.nv ∧ ScopeBelow s'.nv s'.b.scope
  gen : ∀ g' s', x = .ok (some g') s' → GenBelow s'.nv g'

omit [Arith] [QWorld W A G] in
theorem BOut.weaken {w : W} {N N' : Nat} {x : Res (QSt W) (Option (Gen A G))} (h : BOut w N' x) (hN : N ≤ N') : BOut w N x :=
  ⟨fun s' hs => ⟨(h.st s' hs).1, Nat.le_trans hN (h.st s' hs).2.1, (h.st s' hs).2.2⟩, h.gen⟩

def BRec (w : W) (rec : Gen A G → QSt W → Res (QSt W) (Option (Gen A G))) : Prop :=
  ∀ g s, s.w = w → ScopeBelow s.nv s.b.scope → GenBelow s.nv g → BOut w s.nv (rec g s)

omit [Arith] [QWorld W A G] in
theorem BOut.oof {w : W} {N : Nat} : BOut (A := A) (G := G) w N .oof :=
  ⟨(fun s' h => by rcases h with ⟨_, h⟩ | ⟨_, h⟩ <;> cases h), nofun⟩

omit [Arith] [QWorld W A G] in
theorem BOut.mk' {w : W} {N : Nat} {o : Option (Gen A G)} {s : QSt W} (h1 : s.w = w) (h2 : N ≤ s.nv) (h3 : ScopeBelow s.nv s.b.scope)
    (h4 : ∀ g, o = some g → GenBelow s.nv g) : BOut w N (.ok o s) :=
  ⟨fun s' h => by rcases h with ⟨_, h⟩ | ⟨_, h⟩ <;> cases h; exact ⟨h1, h2, h3⟩, fun g' s' h => by cases h; exact h4 g' rfl⟩

omit [Arith] [QWorld W A G] in
theorem BOut.err {w : W} {N : Nat} {e : Err} {s : QSt W} (h1 : s.w = w) (h2 : N ≤ s.nv) (h3 : ScopeBelow s.nv s.b.scope) :
    BOut (A := A) (G := G) w N (.err e s) :=
  ⟨fun s' h => by rcases h with ⟨_, h⟩ | ⟨_, h⟩ <;> cases h; exact ⟨h1, h2, h3⟩, nofun⟩

omit [Arith] [QWorld W A G] in
theorem BOut.onNext {w : W} {N : Nat} {x : Res (QSt W) (Option (Gen A G))}
    {f : Gen A G → QSt W → Res (QSt W) (Option (Gen A G))} {l : QSt W → Res (QSt W) (Option (Gen A G))} (h : BOut w N x)
    (hs : ∀ g' s', s'.w = w → N ≤ s'.nv → ScopeBelow s'.nv s'.b.scope → GenBelow s'.nv g' → BOut w N (f g' s'))
    (hn : ∀ s', s'.w = w → N ≤ s'.nv → ScopeBelow s'.nv s'.b.scope → BOut w N (l s')) : BOut w N (x.onNext f l) := by
  cases x with
  | oof => exact .oof
  | err e s' => obtain ⟨h1, h2, h3⟩ := h.st s' (Or.inr ⟨e, rfl⟩); exact .err h1 h2 h3
  | ok o s' =>
    obtain ⟨h1, h2, h3⟩ := h.st s' (Or.inl ⟨o, rfl⟩)
    cases o with
    | none => exact hn s' h1 h2 h3
    | some g' => exact hs g' s' h1 h2 h3 (h.gen g' s' rfl)

omit [Arith] [QWorld W A G] in
theorem scopeBelow_reroll {k c : Nat} {b : BSt} (h : ScopeBelow k b.scope) : ScopeBelow k (reroll b c).scope :=
  scopeBelow_iff.2 (ScopeP.reroll (scopeBelow_iff.1 h))

theorem gstep_below {w : W} (hw : WBelow w) {n : Nat} {rec : Gen A G → QSt W → Res (QSt W) (Option (Gen A G))}
    (ih : BRec w rec) : BRec w (gstep n rec) := by
  intro g s hsw hb h
  have ua : ∀ (l t : Term) (f : Nat → Gen A G) (k : QSt W → Res (QSt W) (Option (Gen A G))), l.bound ≤ s.nv → t.bound ≤ s.nv →
      (∀ c, GenBelow s.nv (f c)) → (∀ s' : QSt W, s'.w = w → s'.nv = s.nv → ScopeBelow s'.nv s'.b.scope → BOut w s.nv (k s')) →
      BOut w s.nv ((s.onB (uaStart n l t)).onNext (fun c s => .ok (some (f c)) s) k) := by
    intro l t f k hl ht hf hk
    have below := ua_P (hered_bound s.nv) n l t s.b
    unfold QSt.onB
    cases hx : uaStart n l t s.b with
    | oof => exact .oof
    | err ex b' => exact .err hsw (Nat.le_refl _) (below b' hb hl ht (Or.inr ⟨_, hx⟩))
    | ok o b' =>
      have hb' := below b' hb hl ht (Or.inl ⟨_, hx⟩)
      cases o with
      | none => exact hk { s with b := b' } hsw rfl hb'
      | some c => exact .mk' hsw (Nat.le_refl _) hb' fun g hg => by cases hg; exact hf c
  unfold gstep
  split
  · exact .mk' hsw (Nat.le_refl _) hb nofun
  · exact .mk' hsw (Nat.le_refl _) hb fun g hg => by cases hg; trivial
  · exact .mk' hsw (Nat.le_refl _) hb nofun
  · exact absurd h.1 (by simp [Query.Clean])
  · exact absurd h (by simp [GenBelow])
  · -- term
    rename_i t
    cases hx : evaluate n s.b.scope t with
    | oof => exact .oof
    | err ex => exact .err hsw (Nat.le_refl _) hb
    | ok t' =>
      have below : t'.bound ≤ s.nv := evaluate_P (hered_bound s.nv) hb h.2 hx
      simp only [Res.lift_ok, Res.bind_ok]
      split
      · exact .mk' hsw (Nat.le_refl _) hb fun g hg => by cases hg; trivial
      · exact .mk' hsw (Nat.le_refl _) hb nofun
      · exact ih _ _ hsw hb ⟨below, by rw [hsw]; exact hw.bels _⟩
      · exact .err hsw (Nat.le_refl _) hb
  · -- belHead
    rename_i grp t rest size
    split
    · exact .err hsw (Nat.le_refl _) hb
    · split
      · exact ih _ { s with b := s.b.newCp.2 } hsw hb ⟨h.1, by rw [hsw]; exact hw.rules _⟩
      · rename_i belief rest
        refine ua _ _ _ _ h.1 (by rw [h.2 belief (by simp)]; exact Nat.zero_le _)
          (fun c => ⟨h.1, fun x hx => h.2 x (by simp [hx])⟩) ?_
        intro s' h1 h2 h3
        rw [← h2]
        exact ih _ _ h1 h3 ⟨h2 ▸ h.1, fun x hx => h.2 x (by simp [hx])⟩
  · exact ih _ { s with b := uaResume _ s.b } hsw (scopeBelow_reroll hb) h
  · exact .mk' hsw (Nat.le_refl _) hb nofun
  · -- ruleHead
    rename_i c t rule rest
    have hrest : ∀ r ∈ rest, r.query.Clean (fun _ _ => False) := fun r hr => h.2 r (by simp [hr])
    have hle : s.nv ≤ s.nv + rule.bound := Nat.le_add_right _ _
    have hhead : (rule.deepcopy s.nv).head.bound ≤ s.nv + rule.bound :=
      Nat.le_trans (Term.bound_rename _) (Nat.add_le_add_left (Nat.le_max_left _ _) _)
    have hquery : (rule.deepcopy s.nv).query.bound ≤ s.nv + rule.bound :=
      Nat.le_trans (Query.bound_rename _) (Nat.add_le_add_left (Nat.le_max_right _ _) _)
    have hb2 : ScopeBelow (s.nv + rule.bound) s.b.scope := fun x t hx =>
      ⟨Nat.lt_of_lt_of_le (hb x t hx).1 hle, Nat.le_trans (hb x t hx).2 hle⟩
    have below := fun b' => unify_P (hered_bound (s.nv + rule.bound)) n t (rule.deepcopy s.nv).head (s.b.pushCp c) b' hb2
      (Nat.le_trans h.1 hle) hhead
    simp only [QSt.onB]
    cases hx : unify n t (rule.deepcopy s.nv).head (s.b.pushCp c) with
    | oof => exact .oof
    | err ex b' => exact .err hsw hle (below b' (Or.inr ⟨_, hx⟩))
    | ok o b' =>
      have hb' := below b' (Or.inl ⟨_, hx⟩)
      cases o with
      | true =>
        exact (ih (.rule c t rest (.start (rule.deepcopy s.nv).query)) ⟨b', s.nv + rule.bound, s.w⟩ hsw hb'
          ⟨Nat.le_trans h.1 hle, hrest, Query.clean_rename (fun _ _ _ h => h) _ _ (h.2 rule (by simp)), hquery⟩).weaken hle
      | false =>
        exact (ih (.ruleHead c t rest) ⟨reroll b' c, s.nv + rule.bound, s.w⟩ hsw (scopeBelow_reroll (scopeBelow_iff.2 hb'))
          ⟨Nat.le_trans h.1 hle, hrest⟩).weaken hle
  · -- rule
    obtain ⟨h1, h2, h3⟩ := h
    refine (ih _ _ hsw hb h3).onNext ?_ ?_
    · intro g' s' i1 i2 i3 i4
      exact .mk' i1 i2 i3 fun g hg => by cases hg; exact ⟨Nat.le_trans h1 i2, h2, i4⟩
    · intro s' i1 i2 i3
      exact (ih (.ruleHead ..) { s' with b := reroll s'.b _ } i1 (scopeBelow_reroll i3) ⟨Nat.le_trans h1 i2, h2⟩).weaken i2
  · have h2 := h.2
    simp only [Query.bound, Nat.max_le] at h2
    exact ih (.andHead ..) _ hsw hb ⟨⟨h.1.1, h2.1⟩, h.1.2, h2.2⟩
  · -- andHead
    obtain ⟨h1, h2⟩ := h
    refine (ih _ _ hsw hb h1).onNext ?_ ?_
    · intro g' s' i1 i2 i3 i4
      have : _ ∧ _ := ⟨h2.1, Nat.le_trans h2.2 i2⟩
      exact (ih (.and _ _ (.start _)) _ i1 i3 ⟨i4, this, this⟩).weaken i2
    · intro s' i1 i2 i3
      exact .mk' i1 i2 i3 nofun
  · -- and
    obtain ⟨h1, h2, h3⟩ := h
    refine (ih _ _ hsw hb h3).onNext ?_ ?_
    · intro g' s' i1 i2 i3 i4
      exact .mk' i1 i2 i3 fun g hg => by cases hg; exact ⟨h1.mono i2, ⟨h2.1, Nat.le_trans h2.2 i2⟩, i4⟩
    · intro s' i1 i2 i3
      exact (ih (.andHead ..) _ i1 i3 ⟨h1.mono i2, h2.1, Nat.le_trans h2.2 i2⟩).weaken i2
  · have h2 := h.2
    simp only [Query.bound, Nat.max_le] at h2
    exact ih (.or ..) _ hsw hb ⟨⟨h.1.1, h2.1⟩, h.1.2, h2.2⟩
  · -- or
    obtain ⟨h1, h2⟩ := h
    refine (ih _ _ hsw hb h1).onNext ?_ ?_
    · intro g' s' i1 i2 i3 i4
      exact .mk' i1 i2 i3 fun g hg => by cases hg; exact ⟨i4, h2.1, Nat.le_trans h2.2 i2⟩
    · intro s' i1 i2 i3
      exact (ih (.start _) _ i1 i3 ⟨h2.1, Nat.le_trans h2.2 i2⟩).weaken i2
  · -- not
    rename_i q
    refine (ih (.start q) { s with b := s.b.mark } hsw hb h).onNext ?_ ?_
    · intro g' s' i1 i2 i3 i4
      exact .mk' i1 i2 (scopeBelow_reroll i3) nofun
    · intro s' i1 i2 i3
      exact .mk' i1 i2 (scopeBelow_reroll i3) fun g hg => by cases hg; trivial
  · -- unify
    have h2 := h.2
    simp only [Query.bound, Nat.max_le] at h2
    exact ua _ _ _ _ h2.1 h2.2 (fun _ => trivial) fun s' i1 i2 i3 => .mk' i1 (Nat.le_of_eq i2.symm) i3 nofun
  · exact .mk' hsw (Nat.le_refl _) (scopeBelow_reroll hb) nofun

theorem gnext_below {w : W} (hw : WBelow w) : ∀ n, BRec w (gnext (W := W) n)
  | 0 => fun _ _ _ _ _ => .oof
  | n + 1 => gstep_below hw (gnext_below hw n)

end Verif
