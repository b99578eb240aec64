import Verif.Lemmas.DeepMeaning

/-! Stratified rules have a supported set of derived facts. -/

namespace Verif

section
variable {W A G : Type} [Arith] [inst : QWorld W A G]
variable {lev : String × Nat → Nat} {w : W}

/-- Truth with the facts `X` of the level at hand and the facts `N` of lower levels; negated queries are about
lower levels. -/
def Pos (X N : Val → Prop) (w : W) (σ : Asg) : Query A → Prop
  | .not q => ¬ TrueIn N w σ q
  | .and p q => Pos X N w σ p ∧ Pos X N w σ q
  | .or p q => Pos X N w σ p ∨ Pos X N w σ q
  | q => TrueIn (fun v => X v ∨ N v) w σ q

theorem Pos.mono {X X' N : Val → Prop} (h : ∀ v, X v → X' v) {σ : Asg} : ∀ {q : Query A}, Pos X N w σ q → Pos X' N w σ q
  | .tru, hq | .fls, hq | .act .., hq | .unify .., hq | .not _, hq => hq
  | .and _ _, hq => ⟨Pos.mono h hq.1, Pos.mono h hq.2⟩
  | .or _ _, hq => hq.imp (Pos.mono h) (Pos.mono h)
  | .term _, hq => by
    rcases hq with hq | hq | ⟨v, h1, h2⟩
    · exact .inl hq
    · exact .inr (.inl hq)
    · exact .inr (.inr ⟨v, h1, h2.imp (h v) id⟩)

/-- `X` is closed under the rules of level `k`. -/
def LevelClosed (lev : String × Nat → Nat) (w : W) (k : Nat) (N X : Val → Prop) : Prop :=
  ∀ grp, lev grp = k → ∀ r ∈ QWorld.rules w grp, ∀ τ u, Den τ r.head u → Pos X N w τ r.query → X u

/-- The facts derived by the rules of level `k`. -/
def Level (lev : String × Nat → Nat) (w : W) (k : Nat) (N : Val → Prop) (v : Val) : Prop := ∀ X, LevelClosed lev w k N X → X v

theorem level_closed (k : Nat) (N : Val → Prop) : LevelClosed lev w k N (Level lev w k N) :=
  fun grp hg r hr τ u h1 h2 X hX => hX grp hg r hr τ u h1 (Pos.mono (fun _ h => h X hX) h2)

theorem level_cases {k : Nat} {N : Val → Prop} {v : Val} (h : Level lev w k N v) :
    ∃ grp, lev grp = k ∧ ∃ r ∈ QWorld.rules w grp, ∃ τ, Den τ r.head v ∧ Pos (Level lev w k N) N w τ r.query :=
  h (fun v => ∃ grp, lev grp = k ∧ ∃ r ∈ QWorld.rules w grp, ∃ τ, Den τ r.head v ∧ Pos (Level lev w k N) N w τ r.query)
    fun grp hg r hr τ _ h1 h2 => ⟨grp, hg, r, hr, τ, h1, Pos.mono (fun v ⟨grp, hg, r, hr, τ, h1, h2⟩ => level_closed k N grp hg r hr τ v h1 h2) h2⟩

/-- The facts of the levels below `k`. -/
def Levels (lev : String × Nat → Nat) (w : W) : Nat → Val → Prop
  | 0, _ => False
  | k + 1, v => Levels lev w k v ∨ Level lev w k (Levels lev w k) v

theorem levels_le {k j : Nat} (h : k ≤ j) {v : Val} (hv : Levels lev w k v) : Levels lev w j v := by
  induction h with
  | refl => exact hv
  | step _ ih => exact .inl ih

theorem levels_cases : ∀ {k : Nat} {v : Val}, Levels lev w k v → ∃ j < k, Level lev w j (Levels lev w j) v
  | 0, _, h => h.elim
  | k + 1, _, h => h.elim (fun h => let ⟨j, h1, h2⟩ := levels_cases h; ⟨j, Nat.lt_succ_of_lt h1, h2⟩) fun h => ⟨k, Nat.lt_succ_self _, h⟩

/-- The facts of all levels. -/
def AllLevels (lev : String × Nat → Nat) (w : W) (v : Val) : Prop := ∃ k, Levels lev w k v

/-- Rule heads are literals, filed under their predicate. -/
abbrev Heads (w : W) : Prop := ∀ grp, ∀ r ∈ QWorld.rules w grp, r.head.group = grp ∧ r.head.Parts Term.NoWild

/-- Facts are found on the level of their predicate. -/
theorem levels_find (hh : Heads w) {v : Val} (h : AllLevels lev w v) {σ : Asg} {f : String} {as xs : List Term}
    (ht : Den σ (.lit f as xs) v) : Level lev w (lev (f, as.length)) (Levels lev w (lev (f, as.length))) v := by
  obtain ⟨k, h⟩ := h
  obtain ⟨j, _, h⟩ := levels_cases h
  obtain ⟨grp, hg, r, hr, τ, h1, _⟩ := level_cases h
  obtain ⟨i1, i2⟩ := hh _ _ hr
  have := group_of_den i2.isLit ht h1
  have hl : lev (f, as.length) = j := by
    rw [← hg, ← i1, ← this]
  rw [hl]
  exact h

/-- Queries about levels up to `j` need only the facts below `k > j`. -/
theorem true_levels (hh : Heads w) {k : Nat} {σ : Asg} : ∀ {q : Query A} {j : Nat}, q.Strat lev j → j < k →
    (TrueIn (Levels lev w k) w σ q ↔ TrueIn (AllLevels lev w) w σ q)
  | .tru, _, _, _ | .fls, _, _, _ | .unify .., _, _, _ => .rfl
  | .act .., _, h, _ => h.elim
  | .and _ _, _, h, hk => and_congr (true_levels hh h.1 hk) (true_levels hh h.2 hk)
  | .or _ _, _, h, hk => or_congr (true_levels hh h.1 hk) (true_levels hh h.2 hk)
  | .not _, _, ⟨_, hj, h⟩, hk => not_congr (true_levels hh h (Nat.lt_trans hj hk))
  | .term t, j, h, hk => by
    refine or_congr .rfl (or_congr .rfl ⟨fun ⟨v, h1, h2⟩ => ⟨v, h1, k, h2⟩, fun ⟨v, h1, h2⟩ => ⟨v, h1, ?_⟩⟩)
    cases t with
    | var x => exact h.elim
    | wild => exact h.elim
    | lit f as xs => exact levels_le (k := lev (f, as.length) + 1) (Nat.lt_of_le_of_lt h hk) (.inr (levels_find hh h2 h1))
    | _ =>
      obtain ⟨k', h2⟩ := h2
      obtain ⟨_, _, h2⟩ := levels_cases h2
      obtain ⟨_, _, r, hr, _, h3, _⟩ := level_cases h2
      obtain ⟨f, u, rfl⟩ := den_lit_app (hh _ _ hr).2.isLit h3
      rcases den_app h1 with h | ⟨_, h⟩ | h <;> cases h

/-- The bodies of rules of level `k`. -/
theorem pos_levels (hh : Heads w) {k : Nat} {σ : Asg} : ∀ {q : Query A}, q.Strat lev k →
    (Pos (Level lev w k (Levels lev w k)) (Levels lev w k) w σ q ↔ TrueIn (AllLevels lev w) w σ q)
  | .tru, _ | .fls, _ | .unify .., _ => .rfl
  | .act .., h => h.elim
  | .and _ _, h => and_congr (pos_levels hh h.1) (pos_levels hh h.2)
  | .or _ _, h => or_congr (pos_levels hh h.1) (pos_levels hh h.2)
  | .not _, ⟨_, hj, h⟩ => not_congr (true_levels hh h hj)
  | .term t, h => by
    have e : (fun v => Level lev w k (Levels lev w k) v ∨ Levels lev w k v) = Levels lev w (k + 1) := funext fun v => propext or_comm
    change TrueIn (fun v => Level lev w k (Levels lev w k) v ∨ Levels lev w k v) w σ (.term t : Query A) ↔ _
    rw [e]
    exact true_levels hh h (Nat.lt_succ_self k)

theorem levels_supported (hh : Heads w) (hs : ∀ grp, ∀ r ∈ QWorld.rules w grp, r.query.Strat lev (lev grp)) :
    Supported (AllLevels lev w) w := by
  intro v
  constructor
  · rintro ⟨k, h⟩
    obtain ⟨j, _, h⟩ := levels_cases h
    obtain ⟨grp, rfl, r, hr, τ, h1, h2⟩ := level_cases h
    exact ⟨grp, r, hr, τ, h1, (pos_levels hh (hs _ _ hr)).1 h2⟩
  · rintro ⟨grp, r, hr, τ, h1, h2⟩
    exact ⟨lev grp + 1, .inr (level_closed _ _ grp rfl r hr τ v h1 ((pos_levels hh (hs _ _ hr)).2 h2))⟩

end

end Verif
