import Verif.Spec.Order
import Verif.Lemmas.Fuel

/-!
# Lemmas: the order of answers
-/

namespace Verif

section
variable {W A G : Type} [Arith] [QWorld W A G]

/-- What is left to do for a generator. -/
def Rest : Gen A G → QSt W → List (QSt W × QSt W) → QSt W → Prop
  | .done, s, ps, s' => ps = [] ∧ s' = s
  | .start q, s, ps, s' => InOrder q s ps s'
  | .act g, s, ps, s' => Visits (.act g) s ps s'
  | .ua c, s, ps, s' => ps = [] ∧ s' = { s with b := reroll s.b c }
  | .belHead grp t rest size, s, ps, s' => ∃ ps₁ ps₂ s₁, ps = ps₁ ++ ps₂ ∧ BelsInOrder grp t size rest s ps₁ s₁ ∧
      RulesInOrder s₁.b.ncp t (QWorld.rules s₁.w grp) { s₁ with b := s₁.b.newCp.2 } ps₂ s'
  | .bel c grp t rest size, s, ps, s' => ∃ ps₁ ps₂ s₁, ps = ps₁ ++ ps₂ ∧ BelsInOrder grp t size rest { s with b := reroll s.b c } ps₁ s₁ ∧
      RulesInOrder s₁.b.ncp t (QWorld.rules s₁.w grp) { s₁ with b := s₁.b.newCp.2 } ps₂ s'
  | .ruleHead c t rest, s, ps, s' => RulesInOrder c t rest s ps s'
  | .rule c t rest inner, s, ps, s' => ∃ ps₁ ps₂ s₁, ps = ps₁ ++ ps₂ ∧ Rest inner s ps₁ s₁ ∧
      RulesInOrder c t rest { s₁ with b := reroll s₁.b c } ps₂ s'
  | .andHead l rq, s, ps, s' => ∃ qs, Rest l s qs s' ∧ EachInOrder rq qs ps
  | .and l rq r, s, ps, s' => ∃ ps₁ ps₂ qs s₁, ps = ps₁ ++ ps₂ ∧ Rest r s ps₁ s₁ ∧ Rest l s₁ qs s' ∧ EachInOrder rq qs ps₂
  | .or l rq, s, ps, s' => ∃ ps₁ ps₂ s₁, ps = ps₁ ++ ps₂ ∧ Rest l s ps₁ s₁ ∧ InOrder rq s₁ ps₂ s'

/-- An outcome of `next` fits what there is to do. -/
def FitsRest (g : Gen A G) (s : QSt W) (r : Res (QSt W) (Option (Gen A G))) : Prop :=
  (∀ s', r = .ok none s' → Rest g s [] s') ∧
  (∀ g' s₁, r = .ok (some g') s₁ → ∀ s₂ ps s', Rest g' s₂ ps s' → Rest g s ((s₁, s₂) :: ps) s')

theorem FitsRest.congr {g g₁ : Gen A G} {s s₁ : QSt W} {r : Res (QSt W) (Option (Gen A G))} (h : FitsRest g₁ s₁ r)
    (hk : ∀ ps s', Rest g₁ s₁ ps s' → Rest g s ps s') : FitsRest g s r :=
  ⟨fun s' e => hk _ _ (h.1 s' e), fun g' t e s₂ ps s' h' => hk _ _ (h.2 g' t e s₂ ps s' h')⟩

theorem FitsRest.oof {g : Gen A G} {s : QSt W} : FitsRest g s .oof := ⟨nofun, nofun⟩
theorem FitsRest.err {g : Gen A G} {s s' : QSt W} {e : Err} : FitsRest g s (.err e s') := ⟨nofun, nofun⟩

theorem FitsRest.ends {g : Gen A G} {s s' : QSt W} (h : Rest g s [] s') : FitsRest g s (.ok none s') :=
  ⟨fun _ e => by cases e; exact h, nofun⟩

theorem FitsRest.yield {g g' : Gen A G} {s s₁ : QSt W} (h : ∀ s₂ ps s', Rest g' s₂ ps s' → Rest g s ((s₁, s₂) :: ps) s') :
    FitsRest g s (.ok (some g') s₁) :=
  ⟨nofun, fun _ _ e => by cases e; exact h⟩

/-- `next` does what there is to do. -/
theorem gnext_rest : ∀ (n : Nat) (g : Gen A G) (s : QSt W), FitsRest g s (gnext n g s)
  | 0, _, _ => .oof
  | n + 1, g, s => by
    have ih := gnext_rest n
    rw [gnext]
    cases g with
    | done => exact .ends ⟨rfl, rfl⟩
    | act a =>
      exact ⟨fun s' h => .stop (n := n + 1) h, fun g' s₁ h s₂ ps s' h' => by
        refine .next (n := n + 1) h ?_
        simp only [gstep] at h
        cases hx : QWorld.actNext n (gnext n) a s with
        | oof => rw [hx] at h; cases h
        | err => rw [hx] at h; cases h
        | ok o => rw [hx] at h; cases o <;> cases h; exact h'⟩
    | ua c => exact .ends ⟨rfl, rfl⟩
    | start q =>
      cases q with
      | tru => exact .yield fun s₂ ps s' h => by obtain ⟨rfl, rfl⟩ := h; exact .tru
      | fls => exact .ends .fls
      | act a t => exact (ih (.act (QWorld.actGen W a t)) s).congr fun ps s' h => InOrder.act h
      | term t =>
        simp only [gstep]
        cases ht : evaluate n s.b.scope t with
        | oof => exact .oof
        | err e => exact .err
        | ok v =>
          simp only [Res.lift, Res.bind]
          split
          · exact .yield fun s₂ ps s' h => by obtain ⟨rfl, rfl⟩ := h; exact .yes ht
          · exact .ends (.no ht)
          · next f as xs =>
            exact (ih _ s).congr fun ps s' h => by
              obtain ⟨ps₁, ps₂, s₁, rfl, h1, h2⟩ := h
              exact .lit ht h1 h2
          · exact .err
      | and l r =>
        exact (ih (.andHead (.start l) r) s).congr fun ps s' h => by
          obtain ⟨qs, h1, h2⟩ := h
          exact .and h1 h2
      | or l r =>
        exact (ih (.or (.start l) r) s).congr fun ps s' h => by
          obtain ⟨ps₁, ps₂, s₁, rfl, h1, h2⟩ := h
          exact .or h1 h2
      | not q =>
        simp only [gstep]
        have h := ih (.start q) { s with b := s.b.mark }
        cases hx : gnext n (.start q : Gen A G) { s with b := s.b.mark } with
        | oof => exact .oof
        | err e => exact .err
        | ok o s₁ =>
          cases o with
          | none => exact .yield fun s₂ ps s' h' => by obtain ⟨rfl, rfl⟩ := h'; exact .notYes (h.1 _ hx)
          | some g => exact .ends (.notNo hx)
      | unify l r =>
        simp only [gstep, QSt.onB]
        cases hx : uaStart n l r s.b with
        | oof => exact .oof
        | err e => exact .err
        | ok o b =>
          cases o with
          | none => exact .ends (.unifyNo hx)
          | some c => exact .yield fun s₂ ps s' h => by obtain ⟨rfl, rfl⟩ := h; exact .unifyYes hx
    | belHead grp t rest size =>
      simp only [gstep]
      split
      · exact .err
      · next hs =>
        have hs : (QWorld.beliefs s.w grp).length = size := Decidable.not_not.1 hs
        cases rest with
        | nil => exact (ih _ _).congr fun ps s' h => ⟨[], ps, s, rfl, .nil hs, h⟩
        | cons x xs =>
          simp only [QSt.onB]
          cases hx : uaStart n t x s.b with
          | oof => exact .oof
          | err e => exact .err
          | ok o b =>
            cases o with
            | none =>
              exact (ih _ _).congr fun ps s' h => by
                obtain ⟨ps₁, ps₂, s₁, rfl, h1, h2⟩ := h
                exact ⟨ps₁, ps₂, s₁, rfl, .skip hs hx h1, h2⟩
            | some c =>
              exact .yield fun s₂ ps s' h => by
                obtain ⟨ps₁, ps₂, s₁, rfl, h1, h2⟩ := h
                exact ⟨_ :: ps₁, ps₂, s₁, rfl, .take hs hx h1, h2⟩
    | bel c grp t rest size => exact (ih (.belHead grp t rest size) _).congr fun ps s' h => h
    | ruleHead c t rest =>
      cases rest with
      | nil => exact .ends .nil
      | cons r rs =>
        simp only [gstep, QSt.onB]
        cases hx : unify n t (r.deepcopy s.nv).head (s.b.pushCp c) with
        | oof => exact .oof
        | err e => exact .err
        | ok o b =>
          cases o with
          | false => exact (ih (.ruleHead c t rs) _).congr fun ps s' h => RulesInOrder.skip hx h
          | true =>
            exact (ih (.rule c t rs _) _).congr fun ps s' h => by
              obtain ⟨ps₁, ps₂, s₁, rfl, h1, h2⟩ := h
              exact RulesInOrder.use hx h1 h2
    | rule c t rest inner =>
      simp only [gstep]
      have h := ih inner s
      cases hx : gnext n inner s with
      | oof => exact .oof
      | err e => exact .err
      | ok o s₁ =>
        cases o with
        | none => exact (ih (.ruleHead c t rest) _).congr fun ps s' h' => ⟨[], ps, s₁, rfl, h.1 _ hx, h'⟩
        | some g =>
          exact .yield fun s₂ ps s' h' => by
            obtain ⟨ps₁, ps₂, s₃, rfl, h1, h2⟩ := h'
            exact ⟨_ :: ps₁, ps₂, s₃, rfl, h.2 _ _ hx _ _ _ h1, h2⟩
    | andHead l rq =>
      simp only [gstep]
      have h := ih l s
      cases hx : gnext n l s with
      | oof => exact .oof
      | err e => exact .err
      | ok o s₁ =>
        cases o with
        | none => exact .ends ⟨[], h.1 _ hx, .nil⟩
        | some g =>
          exact (ih (.and g rq (.start rq)) s₁).congr fun ps s' h' => by
            obtain ⟨ps₁, ps₂, qs, s₂, rfl, h1, h2, h3⟩ := h'
            exact ⟨(s₁, s₂) :: qs, h.2 _ _ hx _ _ _ h2, .cons h1 h3⟩
    | and l rq r =>
      simp only [gstep]
      have h := ih r s
      cases hx : gnext n r s with
      | oof => exact .oof
      | err e => exact .err
      | ok o s₁ =>
        cases o with
        | none =>
          exact (ih (.andHead l rq) s₁).congr fun ps s' h' => by
            obtain ⟨qs, h1, h2⟩ := h'
            exact ⟨[], ps, qs, s₁, rfl, h.1 _ hx, h1, h2⟩
        | some g =>
          exact .yield fun s₂ ps s' h' => by
            obtain ⟨ps₁, ps₂, qs, s₃, rfl, h1, h2, h3⟩ := h'
            exact ⟨_ :: ps₁, ps₂, qs, s₃, rfl, h.2 _ _ hx _ _ _ h1, h2, h3⟩
    | or l rq =>
      simp only [gstep]
      have h := ih l s
      cases hx : gnext n l s with
      | oof => exact .oof
      | err e => exact .err
      | ok o s₁ =>
        cases o with
        | none => exact (ih (.start rq) s₁).congr fun ps s' h' => ⟨[], ps, s₁, rfl, h.1 _ hx, h'⟩
        | some g =>
          exact .yield fun s₂ ps s' h' => by
            obtain ⟨ps₁, ps₂, s₃, rfl, h1, h2⟩ := h'
            exact ⟨_ :: ps₁, ps₂, s₃, rfl, h.2 _ _ hx _ _ _ h1, h2⟩

theorem Visits.rest {g : Gen A G} {s s' : QSt W} {ps : List (QSt W × QSt W)} (h : Visits g s ps s') : Rest g s ps s' := by
  induction h with
  | stop h => exact (gnext_rest _ _ _).1 _ h
  | next h _ ih => exact (gnext_rest _ _ _).2 _ _ h _ _ _ ih

/-- Draining a generator is a sequence of visits with that consumer. -/
theorem drain_visits {R : QSt W → QSt W → Prop} {g : Gen A G} {s s' : QSt W} {l : List (QSt W)} :
    Drain R g s l s' ↔ ∃ ps, Visits g s ps s' ∧ l = ps.map (·.1) ∧ ∀ p ∈ ps, R p.1 p.2 := by
  constructor
  · intro h
    induction h with
    | stop h => exact ⟨[], .stop h, rfl, nofun⟩
    | @next n g s g' s₁ s₂ l s' h hR _ ih =>
      obtain ⟨ps, h1, rfl, h3⟩ := ih
      refine ⟨(s₁, s₂) :: ps, .next h h1, rfl, fun p hp => ?_⟩
      rcases List.mem_cons.1 hp with rfl | hp
      · exact hR
      · exact h3 p hp
  · rintro ⟨ps, h, rfl, hR⟩
    induction h with
    | stop h => exact .stop h
    | next h _ ih => exact .next h (hR _ List.mem_cons_self) (ih fun p hp => hR p (List.mem_cons_of_mem _ hp))

/-! ## The other direction -/

/-- More fuel does not change results of queries. -/
def FuelSteady (W A G : Type) [Arith] [QWorld W A G] : Prop :=
  ∀ {n m : Nat} {g : Gen A G} {s s' : QSt W} {o : Option (Gen A G)}, gnext n g s = .ok o s' → n ≤ m → gnext m g s = .ok o s'

/-- `g` in `s` continues as `g₁` in `s₁`. -/
theorem Visits.via (hm : FuelSteady W A G) {g g₁ : Gen A G} {s s₁ s' : QSt W} {ps : List (QSt W × QSt W)} {N : Nat}
    (h : ∀ n, N ≤ n → gnext (n + 1) g s = gnext n g₁ s₁) (hv : Visits g₁ s₁ ps s') : Visits g s ps s' := by
  cases hv with
  | @stop n _ _ _ hx => exact .stop (n := max N n + 1) ((h _ (Nat.le_max_left ..)).trans (hm hx (Nat.le_max_right ..)))
  | @next n _ _ _ _ _ _ _ hx hv => exact .next (n := max N n + 1) ((h _ (Nat.le_max_left ..)).trans (hm hx (Nat.le_max_right ..))) hv

theorem visits_or (hm : FuelSteady W A G) {l : Gen A G} {rq : Query A} {s s₁ s' : QSt W} {ps qs : List (QSt W × QSt W)} (h : Visits l s ps s₁)
    (h' : Visits (.start rq : Gen A G) s₁ qs s') : Visits (.or l rq) s (ps ++ qs) s' := by
  induction h with
  | @stop n g s s₁ hx =>
    exact h'.via hm (N := n) fun k hk => by simp only [gnext, gstep]; rw [hm hx hk]; rfl
  | @next n g s g' s₁ s₂ ps s₃ hx _ ih =>
    exact .next (n := n + 1) (by simp only [gnext, gstep, hx, Res.onNext]) (ih h')

theorem visits_rule (hm : FuelSteady W A G) {c : Nat} {t : Term} {rest : List (Rule A)} {l : Gen A G} {s s₁ s' : QSt W} {ps qs : List (QSt W × QSt W)}
    (h : Visits l s ps s₁) (h' : Visits (.ruleHead c t rest : Gen A G) { s₁ with b := reroll s₁.b c } qs s') :
    Visits (.rule c t rest l) s (ps ++ qs) s' := by
  induction h with
  | @stop n g s s₁ hx =>
    exact h'.via hm (N := n) fun k hk => by simp only [gnext, gstep]; rw [hm hx hk]; rfl
  | @next n g s g' s₁ s₂ ps s₃ hx _ ih =>
    exact .next (n := n + 1) (by simp only [gnext, gstep, hx, Res.onNext]) (ih h')

theorem visits_and (hm : FuelSteady W A G) {l r : Gen A G} {rq : Query A} {s s₁ s' : QSt W} {ps qs : List (QSt W × QSt W)}
    (h : Visits r s ps s₁) (h' : Visits (.andHead l rq : Gen A G) s₁ qs s') : Visits (.and l rq r) s (ps ++ qs) s' := by
  induction h with
  | @stop n g s s₁ hx =>
    exact h'.via hm (N := n) fun k hk => by simp only [gnext, gstep]; rw [hm hx hk]; rfl
  | @next n g s g' s₁ s₂ ps s₃ hx _ ih =>
    exact .next (n := n + 1) (by simp only [gnext, gstep, hx, Res.onNext]) (ih h')

/-- The right side is run at every visit. -/
inductive EachVisits (q : Query A) : List (QSt W × QSt W) → List (QSt W × QSt W) → Prop where
  | nil : EachVisits q [] []
  | cons {s s' ps qs rs} : Visits (.start q : Gen A G) s qs s' → EachVisits q ps rs → EachVisits q ((s, s') :: ps) (qs ++ rs)

theorem visits_andHead (hm : FuelSteady W A G) {l : Gen A G} {rq : Query A} {s s' : QSt W} {ps qs : List (QSt W × QSt W)}
    (h : Visits l s ps s') (h' : EachVisits rq ps qs) : Visits (.andHead l rq) s qs s' := by
  induction h generalizing qs with
  | @stop n g s s₁ hx =>
    cases h'
    exact .stop (n := n + 1) (by simp only [gnext, gstep, hx, Res.onNext])
  | @next n g s g' s₁ s₂ ps s₃ hx _ ih =>
    cases h' with
    | cons h1 h2 =>
      exact (visits_and hm h1 (ih h2)).via hm (N := n) fun k hk => by
        simp only [gnext, gstep]; rw [hm hx hk]; rfl

theorem uaStart_mono {n m : Nat} {l r : Term} {b b' : BSt} {o : Option Nat} (h : uaStart n l r b = .ok o b') (hm : n ≤ m) :
    uaStart m l r b = .ok o b' := by
  rw [← h]
  exact Res.mono (f := fun n => uaStart n l r b) (fun n => uaStart_succ n l r b) hm (by simp [h])

theorem evaluate_steady {sc : Scope} {t v : Term} {n m : Nat} (h : evaluate n sc t = .ok v) (hm : n ≤ m) :
    evaluate m sc t = .ok v := by
  rw [← h]
  exact Ev.mono (f := fun n => evaluate n sc t) (fun n => evaluate_succ n sc t) hm (by simp [h])

theorem unify_steady {n m : Nat} {l r : Term} {b b' : BSt} {o : Bool} (h : unify n l r b = .ok o b') (hm : n ≤ m) :
    unify m l r b = .ok o b' := by
  rw [← h]
  exact Res.mono (f := fun n => unify n l r b) (fun n => unify_succ n l r b) hm (by simp [h])

theorem BelsInOrder.visits (hm : FuelSteady W A G) {grp : String × Nat} {t : Term} {size : Nat} {xs : List Term} {s s₁ s' : QSt W}
    {ps qs : List (QSt W × QSt W)} (h : BelsInOrder (A := A) (G := G) grp t size xs s ps s₁)
    (h' : Visits (.ruleHead s₁.b.ncp t (QWorld.rules s₁.w grp) : Gen A G) { s₁ with b := s₁.b.newCp.2 } qs s') :
    Visits (.belHead grp t xs size : Gen A G) s (ps ++ qs) s' := by
  induction h with
  | nil hs => exact h'.via hm (N := 0) fun k _ => by simp only [gnext, gstep, hs, ne_eq, not_true, if_false]
  | @skip n x xs s b ps s₁ hs hx _ ih =>
    exact (ih h').via hm (N := n) fun k hk => by
      simp only [gnext, gstep, hs, ne_eq, not_true, if_false, QSt.onB]; rw [uaStart_mono hx hk]; rfl
  | @take n x xs s c b s₂ ps s₁ hs hx _ ih =>
    refine .next (n := n + 1) (g' := .bel c grp t xs size) ?_ ((ih h').via hm (N := 0) fun k _ => rfl)
    simp only [gnext, gstep, hs, ne_eq, not_true, if_false, QSt.onB, hx, Res.onNext]

theorem visits_done {s : QSt W} : Visits (.done : Gen A G) s [] s := .stop (n := 1) rfl

mutual
theorem InOrder.visits (hm : FuelSteady W A G) : ∀ {q : Query A} {s s' : QSt W} {ps : List (QSt W × QSt W)}, InOrder (G := G) q s ps s' →
    Visits (.start q : Gen A G) s ps s'
  | _, _, _, _, .tru => .next (n := 1) rfl visits_done
  | _, _, _, _, .fls => .stop (n := 1) rfl
  | _, _, _, _, .act h => h.via hm (N := 0) fun _ _ => rfl
  | _, _, _, _, .yes (n := n) h => .next (n := n + 1) (g' := .done) (by simp only [gnext, gstep, h, Res.lift, Res.bind]) visits_done
  | _, _, _, _, .no (n := n) h => .stop (n := n + 1) (by simp only [gnext, gstep, h, Res.lift, Res.bind])
  | _, _, _, _, .lit (n := n) h h1 h2 => (h1.visits hm (h2.visits hm)).via hm (N := n) fun k hk => by
      simp only [gnext, gstep]; rw [evaluate_steady h hk]; rfl
  | _, _, _, _, .and h1 h2 => (visits_andHead hm (h1.visits hm) (h2.visits hm)).via hm (N := 0) fun _ _ => rfl
  | _, _, _, _, .or h1 h2 => (visits_or hm (h1.visits hm) (h2.visits hm)).via hm (N := 0) fun _ _ => rfl
  | _, _, _, _, .notYes h => by
    cases h.visits hm with
    | @stop n _ _ _ hx => exact .next (n := n + 1) (g' := .done) (by simp only [gnext, gstep, hx, Res.onNext]) visits_done
  | _, _, _, _, .notNo (n := n) h => .stop (n := n + 1) (by simp only [gnext, gstep, h, Res.onNext])
  | _, _, _, _, .unifyYes (n := n) (c := c) h =>
    .next (n := n + 1) (g' := .ua c) (by simp only [gnext, gstep, QSt.onB, h, Res.onNext]) (.stop (n := 1) rfl)
  | _, _, _, _, .unifyNo (n := n) h => .stop (n := n + 1) (by simp only [gnext, gstep, QSt.onB, h, Res.onNext])
theorem RulesInOrder.visits (hm : FuelSteady W A G) : ∀ {c : Nat} {t : Term} {rs : List (Rule A)} {s s' : QSt W} {ps : List (QSt W × QSt W)},
    RulesInOrder (G := G) c t rs s ps s' → Visits (.ruleHead c t rs : Gen A G) s ps s'
  | _, _, _, _, _, _, .nil => .stop (n := 1) rfl
  | _, _, _, _, _, _, .skip (n := n) h h' => (h'.visits hm).via hm (N := n) fun k hk => by
      simp only [gnext, gstep, QSt.onB]; rw [unify_steady h hk]; rfl
  | _, _, _, _, _, _, .use (n := n) h h1 h2 => (visits_rule hm (h1.visits hm) (h2.visits hm)).via hm (N := n) fun k hk => by
      simp only [gnext, gstep, QSt.onB]; rw [unify_steady h hk]; rfl
theorem EachInOrder.visits (hm : FuelSteady W A G) : ∀ {q : Query A} {ps qs : List (QSt W × QSt W)}, EachInOrder (G := G) q ps qs →
    EachVisits (G := G) q ps qs
  | _, _, _, .nil => .nil
  | _, _, _, .cons h h' => .cons (h.visits hm) (h'.visits hm)
end

end

end Verif
