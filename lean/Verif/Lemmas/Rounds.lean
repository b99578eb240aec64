import Verif.Spec.Rounds
import Verif.Lemmas.Order
import Verif.Lemmas.QTrail
import Verif.Lemmas.NegLower
import Verif.Lemmas.QEnum
import Verif.Lemmas.Symmetry

/-! # Lemmas: queries that are interrupted -/

namespace Verif

section
variable {W A G : Type} [Arith] [QWorld W A G]

set_option linter.unusedSectionVars false

variable {D : String × Nat → Prop}

theorem SameKB.refl (w : W) : SameKB (A := A) (G := G) D w w := fun _ _ => ⟨rfl, rfl⟩

theorem uaStart_fresh {n c : Nat} {l r : Term} {b b' : BSt} (h : uaStart n l r b = .ok (some c) b') : b.ncp ≤ b'.ncp ∧ c < b'.ncp := by
  refine ⟨above_ncp ((ua_trail n l r b).above (.inl ⟨_, h⟩)), ?_⟩
  obtain ⟨rfl, _, h3⟩ := (ua_trail n l r b).some _ _ h
  rcases h3 with h3 | ⟨hl, m, r', he, hv⟩
  · exact above_ncp h3
  · cases n with
    | zero => cases h
    | succ n =>
      cases l <;> cases hl
      rw [uaStart, uaLit] at h
      cases he' : evaluate n b.scope r with
      | oof => rw [he'] at h; cases h
      | err e => rw [he'] at h; cases h
      | ok u =>
        rw [he'] at h
        simp only [Res.lift_ok, Res.bind_ok] at h
        split at h
        · obtain ⟨_, h1⟩ := yieldIf_some h
          have := above_ncp (varUnify_grow (unify_grow n) (.inl ⟨_, h1⟩)).above
          exact this
        · cases h; exact Nat.lt_succ_self _
        · obtain ⟨_, h1⟩ := yieldIf_some h
          obtain ⟨ok, b₁, h1, h2⟩ := Res.bind_eq_ok.1 h1
          have e1 := above_ncp (litUnify_grow' (.inl ⟨_, h1⟩)).above
          have e2 : b₁.ncp ≤ b'.ncp := by
            split at h2
            · unfold matchRight at h2
              split at h2
              · exact above_ncp (matchAnnots_above (fun l r b b' h => (ua_trail n l r b).above h) _ _ _ _ (.inl ⟨_, h2⟩))
              · cases h2
            · cases h2
          exact Nat.lt_of_lt_of_le (Nat.lt_succ_self _) (Nat.le_trans e1 e2)

theorem unify_ncp {n : Nat} {l r : Term} {b b' : BSt} {ok : Bool} (h : unify n l r b = .ok ok b') : b.ncp ≤ b'.ncp :=
  above_ncp (unify_grow n _ _ _ _ (.inl ⟨_, h⟩)).above

/-- What has been pushed on top does not matter for going back. -/
theorem rerollGo_skip {c : Nat} : ∀ (δ rest : List Entry) (sc : Scope), .cp c ∉ δ → rerollGo c sc (δ ++ rest) = rerollGo c (undo δ sc) rest
  | [], rest, sc, _ => rfl
  | .v x :: δ, rest, sc, h => by
    simp at h
    simp only [List.cons_append, rerollGo, undo]
    exact rerollGo_skip δ rest _ h
  | .cp d :: δ, rest, sc, h => by
    simp at h
    have : d ≠ c := fun e => h.1 e.symm
    simp only [List.cons_append, rerollGo, undo, if_neg this]
    exact rerollGo_skip δ rest _ h.2

theorem reroll_above {b b' : BSt} {c : Nat} (hc : c < b.ncp) (h : Above b b') : reroll b' c = reroll { b with ncp := b'.ncp } c := by
  obtain ⟨δ, h1, h2, h3, h4⟩ := h
  have hn : Entry.cp c ∉ δ := fun hh => by have := (h3 _ hh).1; omega
  simp only [reroll, h1, rerollGo_skip δ _ _ hn, h2]

/-! ## Worlds with the same beliefs and rules -/

variable {w₀ : W}

/-- The state with another world. -/
def QSt.inWorld (w₀ : W) (s : QSt W) : QSt W := { s with w := w₀ }

/-- What consumers have to leave alone. -/
structure Calmly (D : String × Nat → Prop) (w₀ : W) (p : QSt W × QSt W) : Prop where
  kb : SameKB (A := A) (G := G) D w₀ p.1.w → SameKB (A := A) (G := G) D w₀ p.2.w
  ncp : SameKB (A := A) (G := G) D w₀ p.1.w → p.1.b.ncp ≤ p.2.b.ncp

/-- What is known about the states of a query then. -/
structure Through (D : String × Nat → Prop) (w₀ : W) (s : QSt W) (ps : List (QSt W × QSt W)) (s' : QSt W) : Prop where
  kb : SameKB (A := A) (G := G) D w₀ s'.w
  ncp : s.b.ncp ≤ s'.b.ncp
  each : ∀ p ∈ ps, SameKB (A := A) (G := G) D w₀ p.1.w ∧ s.b.ncp ≤ p.1.b.ncp

/-- A pair of states in another world. -/
def both (w₀ : W) (p : QSt W × QSt W) : QSt W × QSt W := (p.1.inWorld w₀, p.2.inWorld w₀)

theorem Through.append {s s₁ s' : QSt W} {ps qs : List (QSt W × QSt W)} (h : Through (A := A) (G := G) D w₀ s ps s₁) (h' : Through (A := A) (G := G) D w₀ s₁ qs s') :
    Through (A := A) (G := G) D w₀ s (ps ++ qs) s' :=
  ⟨h'.kb, Nat.le_trans h.ncp h'.ncp, fun p hp => by
    rcases List.mem_append.1 hp with hp | hp
    · exact h.each p hp
    · exact ⟨(h'.each p hp).1, Nat.le_trans h.ncp (h'.each p hp).2⟩⟩

theorem Through.from {s t s' : QSt W} {ps : List (QSt W × QSt W)} (h : Through (A := A) (G := G) D w₀ t ps s') (hn : s.b.ncp ≤ t.b.ncp) :
    Through (A := A) (G := G) D w₀ s ps s' :=
  ⟨h.kb, Nat.le_trans hn h.ncp, fun p hp => ⟨(h.each p hp).1, Nat.le_trans hn (h.each p hp).2⟩⟩

theorem BelsInOrder.through {grp : String × Nat} {t : Term} {size : Nat} {xs : List Term} {s s' : QSt W} {ps : List (QSt W × QSt W)}
    (h : BelsInOrder (A := A) (G := G) grp t size xs s ps s') (hd : D grp) :
    SameKB (A := A) (G := G) D w₀ s.w → (∀ p ∈ ps, Calmly (A := A) (G := G) D w₀ p) →
    Through (A := A) (G := G) D w₀ s ps s' ∧ BelsInOrder (A := A) (G := G) grp t size xs (s.inWorld w₀) (ps.map (both w₀)) (s'.inWorld w₀) := by
  induction h with
  | nil h => exact fun hw _ => ⟨⟨hw, Nat.le_refl _, nofun⟩, .nil (by rw [← h, (hw grp hd).1]; rfl)⟩
  | skip h1 h2 _ ih =>
    intro hw hp
    obtain ⟨i1, i2⟩ := ih hw hp
    exact ⟨i1.from ((ua_trail _ _ _ _).none _ h2).2, .skip (by rw [← h1, (hw grp hd).1]; rfl) h2 i2⟩
  | @take n x xs s c b s₂ ps s' h1 h2 _ ih =>
    intro hw hp
    have hc := hp _ List.mem_cons_self
    obtain ⟨i1, i2⟩ := ih (hc.kb hw) fun p h => hp p (List.mem_cons_of_mem _ h)
    have hn := (uaStart_fresh h2).1
    refine ⟨⟨i1.kb, ?_, fun p h => ?_⟩, .take (by rw [← h1, (hw grp hd).1]; rfl) h2 i2⟩
    · exact Nat.le_trans hn (Nat.le_trans (hc.ncp hw) i1.ncp)
    · rcases List.mem_cons.1 h with rfl | h
      · exact ⟨hw, hn⟩
      · exact ⟨(i1.each p h).1, Nat.le_trans hn (Nat.le_trans (hc.ncp hw) (i1.each p h).2)⟩

theorem Query.quick_rename (ρ : VarId → VarId) : ∀ q : Query A, (q.rename ρ).quick = q.quick
  | .tru | .fls | .act _ _ | .not _ | .unify _ _ => rfl
  | .term t => by cases t <;> simp [Query.rename, Query.quick, Term.rename]
  | .or l r => rfl
  | .and l r => by simp only [Query.rename, Query.quick, Query.quick_rename ρ l, Query.quick_rename ρ r]

/-- Comparisons are not literals. -/
theorem quick_not_lit {n : Nat} {sc : Scope} {t : Term} {f : String} {as xs : List Term} (hq : (Query.term t : Query A).quick = true)
    (h : evaluate n sc t = .ok (.lit f as xs)) : False := by
  cases t <;> first | (simp [Query.quick] at hq; done) | skip
  · cases n <;> simp [evaluate] at h
  · have := evaluate_expr (.inl ⟨_, _, rfl⟩) h
    simp_all
  · have := evaluate_expr (.inr ⟨_, _, _, rfl⟩) h
    simp_all

theorem Query.clean_rename_iff (ρ : VarId → VarId) : ∀ q : Query A, ((q.rename ρ).Clean fun _ _ => False) ↔ q.Clean fun _ _ => False
  | .tru | .fls | .act _ _ | .term _ => Iff.rfl
  | .not q => by simp only [Query.rename, Query.Clean, Query.clean_rename_iff ρ q]
  | .and l r | .or l r => by simp only [Query.rename, Query.Clean, Query.clean_rename_iff ρ l, Query.clean_rename_iff ρ r]
  | .unify l r => by
    simp only [Query.rename, Query.Clean, Term.isLiteral_rename]
    cases r <;> simp [Term.rename]

theorem Query.asksOnly_rename (ρ : VarId → VarId) : ∀ q : Query A, (q.rename ρ).AsksOnly D ↔ q.AsksOnly D
  | .tru | .fls | .act _ _ | .unify _ _ => Iff.rfl
  | .not q => by
    simp only [Query.rename, Query.AsksOnly, Query.asksOnly_rename ρ q, Query.clean_rename_iff]
  | .term t => by
    have := Query.quick_rename (A := A) ρ (.term t)
    simp only [Query.rename] at this
    simp only [Query.rename, Query.AsksOnly, Term.isLiteral_rename, Term.group_rename, this]
  | .and l r | .or l r => by simp only [Query.rename, Query.AsksOnly, Query.asksOnly_rename ρ l, Query.asksOnly_rename ρ r]

theorem within_lit {n : Nat} {sc : Scope} {t : Term} {f : String} {as xs : List Term} (hq : (Query.term t : Query A).AsksOnly D)
    (h : evaluate n sc t = .ok (.lit f as xs)) : D (f, as.length) := by
  unfold Query.AsksOnly at hq
  split at hq
  · next hl =>
    cases t <;> cases hl
    cases n <;> cases h
    exact hq
  · exact (quick_not_lit hq h).elim

/-! ### The first answer in another world -/

/-- Generators that ask only for the predicates `D`. -/
def Gen.AsksOnly (D : String × Nat → Prop) : Gen A G → Prop
  | .start q => q.AsksOnly D
  | .done | .ua _ => True
  | .act _ => False
  | .belHead grp _ _ _ | .bel _ grp _ _ _ => D grp
  | .ruleHead _ _ rest => ∀ r ∈ rest, r.query.AsksOnly D
  | .rule _ _ rest inner => (∀ r ∈ rest, r.query.AsksOnly D) ∧ inner.AsksOnly D
  | .andHead l rq => l.AsksOnly D ∧ rq.AsksOnly D
  | .and l rq r => l.AsksOnly D ∧ rq.AsksOnly D ∧ r.AsksOnly D
  | .or l rq => l.AsksOnly D ∧ rq.AsksOnly D

/-- What happens in the world `w` happens in the world `w₀`. -/
structure OtherRun (D : String × Nat → Prop) (w₀ w : W) (x y : Res (QSt W) (Option (Gen A G))) : Prop where
  atNone : ∀ s', x = .ok none s' → s'.w = w ∧ y = .ok none (s'.inWorld w₀)
  atSome : ∀ g s', x = .ok (some g) s' → s'.w = w ∧ g.AsksOnly D ∧ y = .ok (some g) (s'.inWorld w₀)

theorem OtherRun.err {w : W} {s s' : QSt W} {e e' : Err} : OtherRun (A := A) (G := G) D w₀ w (.err e s) (.err e' s') := ⟨nofun, nofun⟩
theorem OtherRun.oof {w : W} {y : Res (QSt W) (Option (Gen A G))} : OtherRun (A := A) (G := G) D w₀ w .oof y := ⟨nofun, nofun⟩
theorem OtherRun.mkNone {w : W} {s : QSt W} (h : s.w = w) : OtherRun (A := A) (G := G) D w₀ w (.ok none s) (.ok none (s.inWorld w₀)) :=
  ⟨fun s' h' => by cases h'; exact ⟨h, rfl⟩, nofun⟩
theorem OtherRun.mkSome {w : W} {s : QSt W} {g : Gen A G} (h : s.w = w) (hg : g.AsksOnly D) :
    OtherRun D w₀ w (.ok (some g) s) (.ok (some g) (s.inWorld w₀)) :=
  ⟨nofun, fun g' s' h' => by cases h'; exact ⟨h, hg, rfl⟩⟩

theorem OtherRun.onNext {w : W} {x y : Res (QSt W) (Option (Gen A G))} (h : OtherRun D w₀ w x y)
    {f f' : Gen A G → QSt W → Res (QSt W) (Option (Gen A G))} {l l' : QSt W → Res (QSt W) (Option (Gen A G))}
    (hs : ∀ g s, s.w = w → g.AsksOnly D → OtherRun D w₀ w (f g s) (f' g (s.inWorld w₀)))
    (hn : ∀ s, s.w = w → OtherRun D w₀ w (l s) (l' (s.inWorld w₀))) : OtherRun D w₀ w (x.onNext f l) (y.onNext f' l') := by
  obtain ⟨h1, h2⟩ := h
  cases x with
  | oof => exact .oof
  | err e s => exact ⟨nofun, nofun⟩
  | ok o s =>
    cases o with
    | none =>
      obtain ⟨h3, rfl⟩ := h1 s rfl
      exact hn s h3
    | some g =>
      obtain ⟨h3, h4, rfl⟩ := h2 g s rfl
      exact hs g s h3 h4

theorem other_run {w : W} (hr : RulesAsk (A := A) (G := G) D w₀) (hk : SameKB (A := A) (G := G) D w₀ w) : ∀ (n : Nat) (g : Gen A G) (s : QSt W),
    s.w = w → g.AsksOnly D → OtherRun D w₀ w (gnext n g s) (gnext n g (s.inWorld w₀))
  | 0, _, _, _, _ => .oof
  | n + 1, g, s, hw, hg => by
    have ih := other_run hr hk n
    simp only [gnext]
    unfold gstep
    cases g with
    | done => exact .mkNone hw
    | act g => exact hg.elim
    | ua d => exact .mkNone (s := { s with b := uaResume d s.b }) hw
    | start q =>
      cases q with
      | tru => exact .mkSome hw trivial
      | fls => exact .mkNone hw
      | act a t => exact hg.elim
      | not q =>
        exact (ih (.start q) { s with b := s.b.mark } hw hg.1).onNext
          (fun g s' h1 _ => .mkNone (s := { s' with b := reroll s'.b s.b.ncp }) h1)
          (fun s' h1 => .mkSome (s := { s' with b := reroll s'.b s.b.ncp }) h1 trivial)
      | and l r => exact ih (.andHead ..) _ hw hg
      | or l r => exact ih (.or ..) _ hw hg
      | unify l r =>
        simp only [QSt.onB, QSt.inWorld]
        cases uaStart n l r s.b with
        | oof => exact .oof
        | err e b => exact .err
        | ok o b =>
          cases o with
          | none => exact .mkNone (s := { s with b := b }) hw
          | some d => exact .mkSome (s := { s with b := b }) hw trivial
      | term t =>
        simp only [QSt.inWorld]
        cases hx : evaluate n s.b.scope t with
        | oof => exact .oof
        | err e => exact .err
        | ok t' =>
          simp only [Res.lift_ok, Res.bind_ok]
          split
          · exact .mkSome hw trivial
          · exact .mkNone hw
          · rename_i f as xs
            have hd : D (f, as.length) := within_lit hg hx
            have := (hk _ hd).1
            rw [hw, this]
            exact ih (.belHead ..) _ hw hd
          · exact .err
    | belHead grp t rest size =>
      have hb := (hk _ hg).1
      have hrs := (hk _ hg).2
      have e : QWorld.beliefs (A := A) (G := G) s.w grp = QWorld.beliefs (A := A) (G := G) (s.inWorld w₀).w grp := by rw [hw, hb]; rfl
      simp only [e]
      by_cases hl : (QWorld.beliefs (A := A) (G := G) (s.inWorld w₀).w grp).length ≠ size
      · rw [if_pos hl, if_pos hl]; exact .err
      · rw [if_neg hl, if_neg hl]
        simp only [QSt.inWorld]
        cases rest with
        | nil =>
          simp only [hw, hrs]
          exact ih (.ruleHead ..) ⟨s.b.newCp.2, s.nv, w⟩ rfl fun r h => (hr _ hg r h).1
        | cons x rest =>
          simp only [QSt.onB]
          cases uaStart n t x s.b with
          | oof => exact .oof
          | err e b => exact .err
          | ok o b =>
            cases o with
            | none => exact ih (.belHead ..) { s with b := b } hw hg
            | some d => exact .mkSome (s := { s with b := b }) (g := .bel ..) hw hg
    | bel d grp t rest size => exact ih (.belHead ..) { s with b := uaResume d s.b } hw hg
    | ruleHead d t rest =>
      cases rest with
      | nil => exact .mkNone hw
      | cons r rest =>
        simp only [QSt.onB, QSt.inWorld]
        cases unify n t (r.deepcopy s.nv).head (s.b.pushCp d) with
        | oof => exact .oof
        | err e b => exact .err
        | ok o b =>
          have hr : ∀ r ∈ rest, r.query.AsksOnly D := fun x hx => hg x (by simp [hx])
          simp only [Res.bind_ok]
          cases o with
          | true => exact ih (.rule ..) ⟨b, s.nv + r.bound, s.w⟩ hw ⟨hr, (Query.asksOnly_rename _ _).2 (hg r (by simp))⟩
          | false => exact ih (.ruleHead ..) ⟨reroll b d, s.nv + r.bound, s.w⟩ hw hr
    | rule d t rest inner =>
      exact (ih inner s hw hg.2).onNext (fun g s h1 h2 => .mkSome (g := .rule ..) h1 ⟨hg.1, h2⟩)
        (fun s h => ih (.ruleHead ..) { s with b := reroll s.b d } h hg.1)
    | andHead l rq =>
      exact (ih l s hw hg.1).onNext (fun g s h1 h2 => ih (.and ..) _ h1 ⟨h2, hg.2, hg.2⟩) (fun s h => .mkNone h)
    | and l rq r =>
      exact (ih r s hw hg.2.2).onNext (fun g s h1 h2 => .mkSome (g := .and ..) h1 ⟨hg.1, hg.2.1, h2⟩)
        (fun s h => ih (.andHead ..) _ h ⟨hg.1, hg.2.1⟩)
    | or l rq =>
      exact (ih l s hw hg.1).onNext (fun g s h1 h2 => .mkSome (g := .or ..) h1 ⟨h2, hg.2⟩) (fun s h => ih (.start _) _ h hg.2)

/-- The first step of a query does not depend on the rest of the world and makes only trailed changes. -/
theorem start_other (hp : Plain (A := A) (G := G) w₀) (hr : RulesAsk (A := A) (G := G) D w₀) {n : Nat} {q : Query A} {s s₁ : QSt W}
    {o : Option (Gen A G)} (hq : q.AsksOnly D) (hc : q.Clean fun _ _ => False) (hw : SameKB (A := A) (G := G) D w₀ s.w)
    (h : gnext n (.start q) s = .ok o s₁) :
    s₁.w = s.w ∧ Above s.b s₁.b ∧ gnext n (.start q) (s.inWorld w₀) = .ok o (s₁.inWorld w₀) := by
  have ho := other_run hr hw n (.start q) s rfl hq
  have ht := gnext_trail (T := noActs Plain (fun w h => h.rules) (fun w h => h.bels)) noActs_good n (.start q) (s.inWorld w₀) false false s.b hp
    ⟨hc, by simp, rel_refl _ _⟩
  cases o with
  | none =>
    obtain ⟨h1, h2⟩ := ho.atNone _ h
    exact ⟨h1, (ht.onNone _ h2).2, h2⟩
  | some g =>
    obtain ⟨h1, _, h2⟩ := ho.atSome _ _ h
    exact ⟨h1, (ht.onSome _ _ h2).2.2.above, h2⟩

mutual
theorem InOrder.through (hpl : Plain (A := A) (G := G) w₀) (hr : RulesAsk (A := A) (G := G) D w₀) : ∀ {q : Query A} {s s' : QSt W} {ps : List (QSt W × QSt W)},
    InOrder (G := G) q s ps s' → q.AsksOnly D → SameKB (A := A) (G := G) D w₀ s.w → (∀ p ∈ ps, Calmly (A := A) (G := G) D w₀ p) →
    Through (A := A) (G := G) D w₀ s ps s' ∧ InOrder (G := G) q (s.inWorld w₀) (ps.map (both w₀)) (s'.inWorld w₀)
  | _, s, s', _, .tru, _, hw, hp => ⟨⟨(hp _ List.mem_cons_self).kb hw, (hp _ List.mem_cons_self).ncp hw, fun p h => by
      cases List.mem_singleton.1 h; exact ⟨hw, Nat.le_refl _⟩⟩, .tru⟩
  | _, _, _, _, .fls, _, hw, hp => ⟨⟨hw, Nat.le_refl _, nofun⟩, .fls⟩
  | _, _, _, _, .act h, hq, _, _ => by cases hq
  | _, _, _, _, .yes h, _, hw, hp => ⟨⟨(hp _ List.mem_cons_self).kb hw, (hp _ List.mem_cons_self).ncp hw, fun p h => by
      cases List.mem_singleton.1 h; exact ⟨hw, Nat.le_refl _⟩⟩, .yes h⟩
  | _, _, _, _, .no h, _, hw, hp => ⟨⟨hw, Nat.le_refl _, nofun⟩, .no h⟩
  | _, s, s', _, .lit (f := f) (as := as) (s₁ := s₁) h h1 h2, hq, hw, hp => by
    have hd := within_lit hq h
    obtain ⟨i1, i2⟩ := h1.through hd hw fun p h => hp p (List.mem_append_left _ h)
    have hrs := (i1.kb (f, as.length) hd).2
    obtain ⟨j1, j2⟩ := h2.through hpl hr (by rw [hrs]; exact fun r h => (hr _ hd r h).1) i1.kb fun p h => hp p (List.mem_append_right _ h)
    refine ⟨i1.append (j1.from (Nat.le_succ _)), ?_⟩
    rw [List.map_append]
    refine .lit h (s₁ := s₁.inWorld w₀) ?_ (by rw [hrs] at j2; exact j2)
    have hb := (hw (f, as.length) hd).1
    rw [hb] at i2
    exact i2
  | _, _, _, _, .and h1 h2, hq, hw, hp => by
    replace hq : _ ∧ _ := hq
    obtain ⟨j1, j2⟩ := h2.through hpl hr hq.2 hp
    obtain ⟨i1, i2⟩ := h1.through hpl hr hq.1 hw j1
    obtain ⟨k1, k2⟩ := j2 fun p h => (i1.each p h).1
    refine ⟨⟨i1.kb, i1.ncp, fun p h => ?_⟩, .and i2 k1⟩
    obtain ⟨k3, p', hp', k4⟩ := k2 p h
    exact ⟨k3, Nat.le_trans (i1.each p' hp').2 k4⟩
  | _, _, _, _, .or h1 h2, hq, hw, hp => by
    replace hq : _ ∧ _ := hq
    obtain ⟨i1, i2⟩ := h1.through hpl hr hq.1 hw fun p h => hp p (List.mem_append_left _ h)
    obtain ⟨j1, j2⟩ := h2.through hpl hr hq.2 i1.kb fun p h => hp p (List.mem_append_right _ h)
    refine ⟨i1.append j1, ?_⟩
    rw [List.map_append]
    exact .or i2 j2
  | _, _, _, _, .notYes (s := s) (s₁ := s₁) (s₂ := s₂) h, hq, hw, hp => by
    replace hq : _ ∧ _ := hq
    obtain ⟨i1, i2⟩ := h.through hpl hr hq.1 hw nofun
    have hc := hp _ List.mem_cons_self
    have hn : s.b.ncp ≤ s₁.b.ncp := Nat.le_trans (Nat.le_succ _) i1.ncp
    exact ⟨⟨hc.kb i1.kb, Nat.le_trans hn (hc.ncp i1.kb), fun p h => by
      cases List.mem_singleton.1 h; exact ⟨i1.kb, hn⟩⟩,
      .notYes (s := s.inWorld w₀) (s₁ := s₁.inWorld w₀) (s₂ := s₂.inWorld w₀) i2⟩
  | _, _, _, _, .notNo (s := s) (s₁ := s₁) h, hq, hw, hp => by
    replace hq : _ ∧ _ := hq
    obtain ⟨i1, i2, i3⟩ := start_other (s := { s with b := s.b.mark }) hpl hr hq.1 hq.2 hw h
    have hn : s.b.ncp ≤ s₁.b.ncp := Nat.le_trans (Nat.le_succ _) (above_ncp i2)
    exact ⟨⟨by rw [show ({ s₁ with b := reroll s₁.b s.b.ncp } : QSt W).w = s.w from i1]; exact hw, hn, nofun⟩,
      .notNo (s := s.inWorld w₀) (s₁ := s₁.inWorld w₀) i3⟩
  | _, _, _, _, .unifyYes h, _, hw, hp => ⟨⟨(hp _ List.mem_cons_self).kb hw, Nat.le_trans (uaStart_fresh h).1 ((hp _ List.mem_cons_self).ncp hw), fun p hh => by
      cases List.mem_singleton.1 hh; exact ⟨hw, (uaStart_fresh h).1⟩⟩, .unifyYes h⟩
  | _, _, _, _, .unifyNo h, _, hw, hp => ⟨⟨hw, ((ua_trail _ _ _ _).none _ h).2, nofun⟩, .unifyNo h⟩
theorem RulesInOrder.through (hpl : Plain (A := A) (G := G) w₀) (hr : RulesAsk (A := A) (G := G) D w₀) : ∀ {c : Nat} {t : Term} {rs : List (Rule A)} {s s' : QSt W}
    {ps : List (QSt W × QSt W)}, RulesInOrder (G := G) c t rs s ps s' → (∀ r ∈ rs, r.query.AsksOnly D) → SameKB (A := A) (G := G) D w₀ s.w →
    (∀ p ∈ ps, Calmly (A := A) (G := G) D w₀ p) →
    Through (A := A) (G := G) D w₀ s ps s' ∧ RulesInOrder (G := G) c t rs (s.inWorld w₀) (ps.map (both w₀)) (s'.inWorld w₀)
  | _, _, _, _, _, _, .nil, _, hw, _ => ⟨⟨hw, Nat.le_refl _, nofun⟩, .nil⟩
  | _, _, _, _, _, _, .skip h h', hq, hw, hp => by
    obtain ⟨i1, i2⟩ := h'.through hpl hr (fun r h => hq r (List.mem_cons_of_mem _ h)) hw hp
    have hn := unify_ncp h
    exact ⟨i1.from hn, .skip h i2⟩
  | _, _, _, _, _, _, .use (r := r) h h1 h2, hq, hw, hp => by
    have hx := hq r List.mem_cons_self
    obtain ⟨i1, i2⟩ := h1.through hpl hr (by exact (Query.asksOnly_rename _ _).2 hx) hw fun p h => hp p (List.mem_append_left _ h)
    obtain ⟨j1, j2⟩ := h2.through hpl hr (fun r h => hq r (List.mem_cons_of_mem _ h)) i1.kb fun p h => hp p (List.mem_append_right _ h)
    have hn := unify_ncp h
    refine ⟨Through.append (i1.from hn) (j1.from (Nat.le_refl _)), ?_⟩
    rw [List.map_append]
    exact .use h i2 j2
theorem EachInOrder.through (hpl : Plain (A := A) (G := G) w₀) (hr : RulesAsk (A := A) (G := G) D w₀) : ∀ {q : Query A} {ps qs : List (QSt W × QSt W)},
    EachInOrder (G := G) q ps qs → q.AsksOnly D → (∀ p ∈ qs, Calmly (A := A) (G := G) D w₀ p) →
    (∀ p ∈ ps, Calmly (A := A) (G := G) D w₀ p) ∧ ((∀ p ∈ ps, SameKB (A := A) (G := G) D w₀ p.1.w) →
      EachInOrder (G := G) q (ps.map (both w₀)) (qs.map (both w₀)) ∧
      ∀ p ∈ qs, SameKB (A := A) (G := G) D w₀ p.1.w ∧ ∃ p' ∈ ps, p'.1.b.ncp ≤ p.1.b.ncp)
  | _, _, _, .nil, _, _ => ⟨nofun, fun _ => ⟨.nil, nofun⟩⟩
  | _, _, _, .cons (s := s) (s' := s') h h', hq, hp => by
    have i := fun hw => h.through hpl hr hq hw fun p h => hp p (List.mem_append_left _ h)
    obtain ⟨j1, j2⟩ := h'.through hpl hr hq fun p h => hp p (List.mem_append_right _ h)
    refine ⟨fun p h => ?_, fun hk => ?_⟩
    · rcases List.mem_cons.1 h with rfl | h
      · exact ⟨fun hw => (i hw).1.kb, fun hw => (i hw).1.ncp⟩
      · exact j1 p h
    · obtain ⟨i1, i2⟩ := i (hk _ List.mem_cons_self)
      obtain ⟨k1, k2⟩ := j2 fun p h => hk p (List.mem_cons_of_mem _ h)
      rw [List.map_append]
      refine ⟨.cons i2 k1, fun p h => ?_⟩
      rcases List.mem_append.1 h with h | h
      · exact ⟨(i1.each p h).1, _, List.mem_cons_self, (i1.each p h).2⟩
      · obtain ⟨k3, p', k4, k5⟩ := k2 p h
        exact ⟨k3, p', List.mem_cons_of_mem _ k4, k5⟩
end

/-! ## Bindings of the consumer -/

/-- The consumer has undone its bindings. -/
def undone (p : QSt W × QSt W) : QSt W × QSt W := (p.1, { p.2 with b := { p.1.b with ncp := p.2.b.ncp } })

/-- The consumer has only added bindings. -/
def Adds (p : QSt W × QSt W) : Prop := Above p.1.b p.2.b

theorem Query.resets_rename (ρ : VarId → VarId) : ∀ q : Query A, (q.rename ρ).resets = q.resets
  | .tru | .fls | .act _ _ | .not _ | .unify _ _ => rfl
  | .term t => by simp [Query.rename, Query.resets]
  | .or l r | .and l r => by simp only [Query.rename, Query.resets, Query.resets_rename ρ l, Query.resets_rename ρ r, Query.quick_rename]

theorem Query.tidy_rename (ρ : VarId → VarId) (q : Query A) : (q.rename ρ).tidy = q.tidy := by
  simp only [Query.tidy, Query.quick_rename, Query.resets_rename]

theorem InOrder.of_quick (hm : FuelSteady W A G) (hpl : Plain (A := A) (G := G) w₀) (hr : RulesAsk (A := A) (G := G) D w₀) :
    ∀ {q : Query A} {s s' : QSt W} {ps : List (QSt W × QSt W)}, InOrder (G := G) q s ps s' → q.quick = true →
    q.AsksOnly D → SameKB (A := A) (G := G) D w₀ s.w →
    (ps = [] ∧ Same s.b s'.b ∧ s'.w = s.w) ∨
    ∃ s₀, ps = [(s₀, s')] ∧ Same s.b s₀.b ∧ s₀.w = s.w ∧ ∀ s'', InOrder (G := G) q s [(s₀, s'')] s''
  | _, s, _, _, .tru, _, _, _ => .inr ⟨s, rfl, .refl _, rfl, fun _ => .tru⟩
  | _, _, _, _, .fls, _, _, _ => .inl ⟨rfl, .refl _, rfl⟩
  | _, s, _, _, .yes h, _, _, _ => .inr ⟨s, rfl, .refl _, rfl, fun _ => .yes h⟩
  | _, _, _, _, .no h, _, _, _ => .inl ⟨rfl, .refl _, rfl⟩
  | _, _, _, _, .lit h _ _, hq, _, _ => (quick_not_lit hq h).elim
  | _, _, _, _, .notYes (s := s) (s₁ := s₁) h, _, hq, hw => by
    replace hq : _ ∧ _ := hq
    cases h.visits hm with
    | stop hn =>
      obtain ⟨i1, i2, _⟩ := start_other (s := { s with b := s.b.mark }) hpl hr hq.1 hq.2 hw hn
      exact .inr ⟨_, rfl, same_reroll i2, i1, fun _ => .notYes h⟩
  | _, _, _, _, .notNo (s := s) h, _, hq, hw => by
    replace hq : _ ∧ _ := hq
    obtain ⟨i1, i2, _⟩ := start_other (s := { s with b := s.b.mark }) hpl hr hq.1 hq.2 hw h
    exact .inl ⟨rfl, same_reroll i2, i1⟩
  | _, _, _, _, .and h1 h2, hq, ha, hw => by
    simp only [Query.quick, Bool.and_eq_true] at hq
    replace ha : _ ∧ _ := ha
    rcases h1.of_quick hm hpl hr hq.1 ha.1 hw with ⟨rfl, h3, h4⟩ | ⟨s₀, rfl, h3, h4, k⟩
    · cases h2; exact .inl ⟨rfl, h3, h4⟩
    · cases h2 with
      | cons h5 h6 =>
        cases h6
        rw [List.append_nil]
        rcases h5.of_quick hm hpl hr hq.2 ha.2 (by rw [h4]; exact hw) with ⟨rfl, h6, h7⟩ | ⟨s₁, rfl, h6, h7, k'⟩
        · exact .inl ⟨rfl, h3.trans h6, h7.trans h4⟩
        · exact .inr ⟨s₁, rfl, h3.trans h6, h7.trans h4, fun s'' => .and (k s'') (.cons (k' s'') .nil)⟩

/-- A query with at most one answer on the right side of a conjunction. -/
theorem EachInOrder.of_quick (hm : FuelSteady W A G) (hpl : Plain (A := A) (G := G) w₀) (hr : RulesAsk (A := A) (G := G) D w₀) {q : Query A}
    (hq : q.quick = true) (hq' : q.AsksOnly D) : ∀ {ps qs : List (QSt W × QSt W)}, EachInOrder (G := G) q ps qs →
    (∀ p ∈ ps, SameKB (A := A) (G := G) D w₀ p.1.w) → (∀ p ∈ qs, Adds p) →
    (∀ p ∈ ps, Adds p) ∧ ∃ ps', ps' = ps.map undone ∧ EachInOrder (G := G) q ps' (qs.map undone)
  | _, _, .nil, _, _ => ⟨nofun, _, rfl, .nil⟩
  | _, _, .cons (s := s) (s' := s') h h', hw, hp => by
    obtain ⟨i1, _, rfl, i3⟩ := h'.of_quick hm hpl hr hq hq' (fun p h => hw p (List.mem_cons_of_mem _ h)) fun p h => hp p (List.mem_append_right _ h)
    rcases h.of_quick hm hpl hr hq hq' (hw _ List.mem_cons_self) with ⟨rfl, h1, _⟩ | ⟨s₀, rfl, h1, _, k⟩
    · refine ⟨fun p h => ?_, _, rfl, ?_⟩
      · rcases List.mem_cons.1 h with rfl | h
        · exact h1.above
        · exact i1 p h
      · have e : Verif.undone (s, s') = (s, s') := by
          simp only [Verif.undone, ← h1.1]
        rw [List.map_cons, e]
        exact .cons h i3
    · refine ⟨fun p h => ?_, _, rfl, ?_⟩
      · rcases List.mem_cons.1 h with rfl | h
        · exact h1.above.trans (hp _ List.mem_cons_self)
        · exact i1 p h
      · have e : Verif.undone (s₀, s') = (s₀, (Verif.undone (s, s')).2) := by
          simp only [Verif.undone]
          rw [h1.1]
        simp only [List.cons_append, List.nil_append, List.map_cons, e]
        exact .cons (k _) i3

theorem BelsInOrder.undone {grp : String × Nat} {t : Term} {size : Nat} {xs : List Term} {s s' : QSt W} {ps : List (QSt W × QSt W)}
    (h : BelsInOrder (A := A) (G := G) grp t size xs s ps s') :
    (∀ p ∈ ps, Adds p) → BelsInOrder (A := A) (G := G) grp t size xs s (ps.map undone) s' := by
  induction h with
  | nil h => exact fun _ => .nil h
  | skip h1 h2 _ ih => exact fun hp => .skip h1 h2 (ih hp)
  | @take n x xs s c b s₂ ps s' h1 h2 _ ih =>
    intro hp
    have i := ih fun p h => hp p (List.mem_cons_of_mem _ h)
    refine .take h1 h2 (s₂ := { s₂ with b := { b with ncp := s₂.b.ncp } }) ?_
    have := reroll_above (uaStart_fresh h2).2 (hp _ List.mem_cons_self)
    rw [← this]
    exact i

mutual
theorem InOrder.undone (hm : FuelSteady W A G) (hpl : Plain (A := A) (G := G) w₀) (hr : RulesAsk (A := A) (G := G) D w₀) :
    ∀ {q : Query A} {s s' : QSt W} {ps : List (QSt W × QSt W)},
    InOrder (G := G) q s ps s' → q.AsksOnly D → q.resets = true → SameKB (A := A) (G := G) D w₀ s.w → (∀ p ∈ ps, Calmly (A := A) (G := G) D w₀ p) →
    (∀ p ∈ ps, Adds p) → InOrder (G := G) q s (ps.map undone) s'
  | _, _, _, _, .tru, _, hq, _, _, _ => by cases hq
  | _, _, _, _, .fls, _, hq, _, _, _ => by cases hq
  | _, _, _, _, .act h, _, hq, _, _, _ => by cases hq
  | _, _, _, _, .notYes _, _, hq, _, _, _ => by cases hq
  | _, _, _, _, .notNo _, _, hq, _, _, _ => by cases hq
  | _, _, _, _, .yes (n := n) (t := t) h, _, hq, _, _, _ => by
    cases t <;> cases hq
    cases n <;> cases h
  | _, _, _, _, .no h, _, _, _, _, _ => .no h
  | _, s, s', _, .lit (f := f) (as := as) (s₁ := s₁) h h1 h2, hq, _, hw, hp, ha => by
    have hd := within_lit hq h
    have i1 := (h1.through hd hw fun p h => hp p (List.mem_append_left _ h)).1
    have hrs := (i1.kb (f, as.length) hd).2
    rw [List.map_append]
    exact .lit h (h1.undone fun p h => ha p (List.mem_append_left _ h))
      (h2.undone hm hpl hr (Nat.lt_succ_self _) (by rw [hrs]; exact hr _ hd) i1.kb (fun p h => hp p (List.mem_append_right _ h)) fun p h => ha p (List.mem_append_right _ h))
  | _, _, _, _, .and (r := r) h1 h2, hq, hz, hw, hp, ha => by
    replace hq : _ ∧ _ := hq
    simp only [Query.resets, Bool.or_eq_true, Bool.and_eq_true] at hz
    obtain ⟨j1, _⟩ := h2.through hpl hr hq.2 hp
    by_cases hx : r.resets = true
    · have i1 := (h1.through hpl hr hq.1 hw j1).1
      exact .and h1 (h2.undone hm hpl hr hq.2 hx (fun p h => (i1.each p h).1) hp ha)
    · have hz := hz.resolve_left hx
      have i1 := (h1.through hpl hr hq.1 hw j1).1
      obtain ⟨k1, _, rfl, k2⟩ := h2.of_quick hm hpl hr hz.1 hq.2 (fun p h => (i1.each p h).1) ha
      exact .and (h1.undone hm hpl hr hq.1 hz.2 hw j1 k1) k2
  | _, _, _, _, .or h1 h2, hq, hz, hw, hp, ha => by
    replace hq : _ ∧ _ := hq
    simp only [Query.resets, Bool.and_eq_true] at hz
    have i1 := (h1.through hpl hr hq.1 hw fun p h => hp p (List.mem_append_left _ h)).1
    rw [List.map_append]
    exact .or (h1.undone hm hpl hr hq.1 hz.1 hw (fun p h => hp p (List.mem_append_left _ h)) fun p h => ha p (List.mem_append_left _ h))
      (h2.undone hm hpl hr hq.2 hz.2 i1.kb (fun p h => hp p (List.mem_append_right _ h)) fun p h => ha p (List.mem_append_right _ h))
  | _, _, _, _, .unifyYes (s := s) (s₂ := s₂) (b := b) h, _, _, _, _, ha => by
    have e := reroll_above (uaStart_fresh h).2 (ha _ List.mem_cons_self)
    have := InOrder.unifyYes (A := A) (G := G) h (s₂ := { s₂ with b := { b with ncp := s₂.b.ncp } })
    simp only [] at this e
    rw [← e] at this
    exact this
  | _, _, _, _, .unifyNo h, _, _, _, _, _ => .unifyNo h
theorem RulesInOrder.undone (hm : FuelSteady W A G) (hpl : Plain (A := A) (G := G) w₀) (hr : RulesAsk (A := A) (G := G) D w₀) :
    ∀ {c : Nat} {t : Term} {rs : List (Rule A)} {s s' : QSt W} {ps : List (QSt W × QSt W)}, RulesInOrder (G := G) c t rs s ps s' → c < s.b.ncp →
    (∀ r ∈ rs, r.query.AsksOnly D ∧ r.query.tidy = true) → SameKB (A := A) (G := G) D w₀ s.w → (∀ p ∈ ps, Calmly (A := A) (G := G) D w₀ p) →
    (∀ p ∈ ps, Adds p) → RulesInOrder (G := G) c t rs s (ps.map undone) s'
  | _, _, _, _, _, _, .nil, _, _, _, _, _ => .nil
  | _, _, _, _, _, _, .skip h h', hc, hq, hw, hp, ha => by
    have hn := unify_ncp h
    exact .skip h (h'.undone hm hpl hr (Nat.lt_of_lt_of_le hc hn) (fun r h => hq r (List.mem_cons_of_mem _ h)) hw hp ha)
  | c, t, _, s, _, _, .use (r := r) (b := b) (s₁ := s₁) h h1 h2, hc, hq, hw, hp, ha => by
    have hx := hq r List.mem_cons_self
    have hn := unify_ncp h
    replace hn : c < b.ncp := Nat.lt_of_lt_of_le hc hn
    have hx1 : (r.deepcopy s.nv).query.AsksOnly D := by exact (Query.asksOnly_rename _ _).2 hx.1
    have i1 := (h1.through hpl hr hx1 hw fun p h => hp p (List.mem_append_left _ h)).1
    have j := h2.undone hm hpl hr (Nat.lt_of_lt_of_le hn i1.ncp) (fun r h => hq r (List.mem_cons_of_mem _ h)) i1.kb
      (fun p h => hp p (List.mem_append_right _ h)) fun p h => ha p (List.mem_append_right _ h)
    rw [List.map_append]
    by_cases hz : (r.deepcopy s.nv).query.resets = true
    · exact .use h (h1.undone hm hpl hr hx1 hz hw (fun p h => hp p (List.mem_append_left _ h)) fun p h => ha p (List.mem_append_left _ h)) j
    · have hz' : (r.deepcopy s.nv).query.quick = true := by
        have : (r.deepcopy s.nv).query.tidy = true := by rw [Rule.deepcopy, Query.tidy_rename]; exact hx.2
        simpa [Query.tidy, hz] using this
      rcases h1.of_quick hm hpl hr hz' hx1 hw with ⟨rfl, _⟩ | ⟨s₀, rfl, h3, _, k⟩
      · exact .use h h1 j
      · refine .use h (k { s₁ with b := { s₀.b with ncp := s₁.b.ncp } }) ?_
        have e := reroll_above (Nat.lt_of_lt_of_le hn h3.2) (ha _ List.mem_cons_self)
        simp only [] at e ⊢
        rw [← e]
        exact j
theorem EachInOrder.undone (hm : FuelSteady W A G) (hpl : Plain (A := A) (G := G) w₀) (hr : RulesAsk (A := A) (G := G) D w₀) :
    ∀ {q : Query A} {ps qs : List (QSt W × QSt W)}, EachInOrder (G := G) q ps qs → q.AsksOnly D → q.resets = true →
    (∀ p ∈ ps, SameKB (A := A) (G := G) D w₀ p.1.w) → (∀ p ∈ qs, Calmly (A := A) (G := G) D w₀ p) → (∀ p ∈ qs, Adds p) →
    EachInOrder (G := G) q ps (qs.map undone)
  | _, _, _, .nil, _, _, _, _, _ => .nil
  | _, _, _, .cons h h', hq, hz, hw, hp, ha => by
    rw [List.map_append]
    exact .cons (h.undone hm hpl hr hq hz (hw _ List.mem_cons_self) (fun p h => hp p (List.mem_append_left _ h)) fun p h => ha p (List.mem_append_left _ h))
      (h'.undone hm hpl hr hq hz (fun p h => hw p (List.mem_cons_of_mem _ h)) (fun p h => hp p (List.mem_append_right _ h)) fun p h => ha p (List.mem_append_right _ h))
end

/-! ## Consumers that leave the beliefs and rules alone and only add bindings -/

/-- A consumer that may change everything but the beliefs and rules, and may bind variables. -/
structure Rounder (D : String × Nat → Prop) (w₀ : W) (s s' : QSt W) : Prop where
  kb : SameKB (A := A) (G := G) D w₀ s.w → SameKB (A := A) (G := G) D w₀ s'.w
  nv : s.nv ≤ s'.nv
  adds : Above s.b s'.b

theorem drain_rounds (hm : FuelSteady W A G) {q : Query A} {s s' : QSt W} {l : List (QSt W)} (hq : q.AsksOnly D) (hz : q.tidy = true)
    (hpl : Plain (A := A) (G := G) s.w) (hr : RulesAsk (A := A) (G := G) D s.w)
    (h : Drain (Rounder (A := A) (G := G) D s.w) (.start q : Gen A G) s l s') :
    ∃ s'', Drain (fun s s' => s'.w = s.w ∧ s.nv ≤ s'.nv ∧ Same s.b s'.b) (.start q : Gen A G) s (l.map (QSt.inWorld s.w)) s'' := by
  obtain ⟨ps, h1, rfl, h3⟩ := drain_visits.1 h
  have hc : ∀ p ∈ ps, Calmly (A := A) (G := G) D s.w p := fun p hp => ⟨(h3 p hp).kb, fun _ => above_ncp (h3 p hp).adds⟩
  have h1 : InOrder (G := G) q s ps s' := h1.rest
  have hi : ∃ s'', InOrder (G := G) q s (ps.map undone) s'' := by
    by_cases hx : q.resets = true
    · exact ⟨_, h1.undone hm hpl hr hq hx (SameKB.refl _) hc fun p hp => (h3 p hp).adds⟩
    · rcases h1.of_quick hm hpl hr (by simpa [Query.tidy, hx] using hz) hq (SameKB.refl _) with ⟨rfl, _⟩ | ⟨s₀, rfl, _, _, k⟩
      · exact ⟨_, h1⟩
      · exact ⟨_, k _⟩
  obtain ⟨s'', h4⟩ := hi
  have hc' : ∀ p ∈ ps.map undone, Calmly (A := A) (G := G) D s.w p := by
    intro p hp
    obtain ⟨p', hp', rfl⟩ := List.mem_map.1 hp
    exact ⟨(hc p' hp').kb, (hc p' hp').ncp⟩
  have h5 := (h4.through hpl hr hq (SameKB.refl _) hc').2.visits hm
  refine ⟨_, drain_visits.2 ⟨_, h5, ?_, ?_⟩⟩
  · simp [both, Verif.undone, Function.comp_def]
  · intro p hp
    obtain ⟨p', hp', rfl⟩ := List.mem_map.1 hp
    obtain ⟨p'', hp'', rfl⟩ := List.mem_map.1 hp'
    have hn := above_ncp (h3 _ hp'').adds
    exact ⟨rfl, (h3 _ hp'').nv, rfl, hn⟩

theorem Term.parts_isLiteral {p : Term → Prop} {t : Term} (h : t.Parts p) : t.isLiteral = true := by
  cases t <;> first | rfl | exact h.elim

theorem Query.ok_clean {w : W} {c : Bool} : ∀ {q : Query A}, q.OK w c → q.Clean fun _ _ => False
  | .tru, _ | .fls, _ | .term _, _ => trivial
  | .act _ _, h | .not _, h => h.elim
  | .and _ _, h | .or _ _, h => ⟨ok_clean h.1, ok_clean h.2⟩
  | .unify l r, h => by
    intro hl
    rcases h with ⟨_, _, _, _, h1, h2⟩ | ⟨_, h, _⟩
    · refine ⟨?_, h2 hl⟩
      rintro rfl
      simp [Term.NoWild, Term.Every] at h1
    · have := Term.parts_isLiteral h
      exact ⟨(by rintro rfl; cases this), (by rintro y rfl; cases this)⟩

theorem KBOK.plain {w : W} {c : Bool} (h : KBOK w c) : Plain (A := A) (G := G) w :=
  ⟨fun grp r hr => Query.ok_clean (h.rule grp r hr).2.2.2, fun grp b hb => Term.parts_isLiteral (h.belief grp b hb).2.1⟩

/-- … is a consumer for the logical theorems. -/
theorem drain_back {c cm : Bool} {w : W} (hw : KBOK w c) (hcm : cm = true → RulesAre (fun r : Rule A => r.query.GroundAnnots) w)
    {g : Gen A G} {s s' : QSt W} {l : List (QSt W)} {k : Nat} {b₀ : BSt} {φ : Asg → Prop}
    (h : Drain (fun s s' => s'.w = s.w ∧ s.nv ≤ s'.nv ∧ Same s.b s'.b) g s l s') :
    ∀ ρ, s.w = w → Fine c s → k ≤ s.nv → QInv w c cm s.nv g k b₀ s.b φ ρ → Drain (Uses c cm) g s l s' := by
  induction h with
  | stop hn => exact fun _ _ _ _ _ => .stop hn
  | next hn hr _ ih =>
    intro ρ h1 h2 h3 h4
    obtain ⟨i1, i2, i3, i4, _, ρ', i6, _⟩ := (gnext_logic hw hcm _ _ _ _ _ _ _ h1 h2 h3 h4).onSome _ _ hn
    obtain ⟨j1, j2, j3⟩ := hr
    have hf := i3.same j3.scope j2
    exact .next hn ⟨j1, j2, rel_of_same j3, hf⟩ (ih ρ' (j1.trans i1) hf (Nat.le_trans h3 (Nat.le_trans i2 j2)) ((i6.closed i4 (rel_of_same j3)).mono j2))

end

end Verif
