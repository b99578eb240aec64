import Verif.Spec.Negation
import Verif.Lemmas.QLogic

/-! Queries about the lower stratum do not use the other rules. -/

namespace Verif

section
variable {W A G : Type} [Arith] [inst : QWorld W A G]

omit [Arith] in
open Classical in
/-- The same world, with the rules of the predicates in `P` only. -/
noncomputable abbrev lowerWorld (P : String × Nat → Prop) (inst : QWorld W A G) : QWorld W A G :=
  { inst with rules := fun w g => if P g then inst.rules w g else [] }

variable {P : String × Nat → Prop} {w : W} {c : Bool}

open Classical in
omit [Arith] in
theorem mem_lower {grp : String × Nat} {r : Rule A} (h : r ∈ (lowerWorld P inst).rules w grp) : P grp ∧ r ∈ inst.rules w grp := by
  have h : r ∈ if P grp then inst.rules w grp else [] := h
  split at h
  · exact ⟨‹_›, h⟩
  · cases h

open Classical in
omit [Arith] in
theorem lower_ok : ∀ {q : Query A}, q.OK w c → @Query.OK W A G (lowerWorld P inst) w c q
  | .tru, _ | .fls, _ => trivial
  | .act _ _, h | .not _, h => h
  | .unify _ _, h => h
  | .and _ _, h | .or _ _, h => ⟨lower_ok h.1, lower_ok h.2⟩
  | .term t, h => by
    simp only [Query.OK] at h ⊢
    split at h
    · rename_i hl
      rw [if_pos hl]
      refine ⟨h.1, h.2.imp id fun hr => ?_⟩
      change (if P t.group then inst.rules w t.group else []) = []
      rw [hr]
      split <;> rfl
    · rename_i hl
      rw [if_neg hl]
      exact h

omit [Arith] in
theorem lower_kb (h : Strata w c P) : @KBOK W A G (lowerWorld P inst) w c := by
  refine @KBOK.mk W A G (lowerWorld P inst) w c h.belief fun grp r hr => ?_
  obtain ⟨h1, h2⟩ := mem_lower hr
  obtain ⟨i1, i2, i3, _⟩ := h.rule _ _ h2
  exact ⟨i1, i2, i3, lower_ok (h.lower _ h1 _ h2).1⟩

omit [Arith] in
theorem lower_ground (h : Strata w c P) : @RulesAre A W G (lowerWorld P inst) (fun r : Rule A => r.query.GroundAnnots) w := by
  intro grp r hr
  obtain ⟨h1, h2⟩ := mem_lower hr
  exact (h.lower _ h1 _ h2).2.1

/-- A term that denotes the value of a literal. -/
theorem den_app {σ : Asg} {t : Term} {f : String} {v : Val} (h : Den σ t (.app f v)) : t.isLiteral = true ∨ (∃ x, t = .var x) ∨ t = .wild := by
  cases t with
  | tup xs =>
    exfalso
    cases xs <;> simp [Den, DenL] at h
  | un op t =>
    obtain ⟨a, _, h⟩ := h
    exfalso
    revert h
    cases a <;> cases op <;> simp [Val.unSem]
  | bin op l r =>
    obtain ⟨a, _, b, _, h⟩ := h
    exfalso
    revert h
    unfold Val.binSem
    split
    · simp
    · split
      · simp
      · simp
      · split
        · cases Arith.bin op _ _ <;> simp
        · simp
      · simp
  | _ => simp_all [Den, Term.isLiteral]

open Classical in
/-- The rules of the other predicates are not needed. -/
theorem holds_lower (hs : Strata w c P) {σ : Asg} {q : Query A} (h : Holds w σ q) :
    q.Within P → @Holds W A G _ (lowerWorld P inst) w σ q := by
  induction h with
  | tru => exact fun _ => @Holds.tru W A G _ (lowerWorld P inst) w _
  | bool h => exact fun _ => @Holds.bool W A G _ (lowerWorld P inst) w _ _ h
  | belief h1 h2 h3 => exact fun _ => @Holds.belief W A G _ (lowerWorld P inst) w _ _ _ _ h1 h2 h3
  | and _ _ ih1 ih2 => exact fun hq => @Holds.and W A G _ (lowerWorld P inst) w _ _ _ (ih1 hq.1) (ih2 hq.2)
  | orL _ ih => exact fun hq => @Holds.orL W A G _ (lowerWorld P inst) w _ _ _ (ih hq.1)
  | orR _ ih => exact fun hq => @Holds.orR W A G _ (lowerWorld P inst) w _ _ _ (ih hq.2)
  | unify h1 h2 => exact fun _ => @Holds.unify W A G _ (lowerWorld P inst) w _ _ _ h1 h2
  | @rule σ t grp r τ v h1 h2 h3 _ ih =>
    intro hq
    obtain ⟨i1, i2, _⟩ := hs.rule _ _ h1
    have hv : ∃ f u, v = .app f u := den_lit_app i2.isLit h3
    obtain ⟨f, u, rfl⟩ := hv
    have ht : t.isLiteral = true := by
      rcases den_app h2 with h | ⟨x, rfl⟩ | rfl
      · exact h
      · exact hq.elim
      · exact hq.elim
    have hP : P grp := by
      cases t with
      | lit g as xs =>
        have := group_of_den i2.isLit h2 h3
        rw [← i1, ← this]
        exact hq
      | _ => cases ht
    refine @Holds.rule W A G _ (lowerWorld P inst) w _ _ grp r τ _ ?_ h2 h3 (ih (hs.lower _ hP _ h1).2.2)
    change r ∈ if P grp then inst.rules w grp else []
    rw [if_pos hP]
    exact h1

/-- Generators that look up predicates of `P` only. -/
def Gen.Within (P : String × Nat → Prop) : Gen A G → Prop
  | .start q => q.Within P
  | .done | .ua _ => True
  | .act _ => False
  | .belHead grp _ _ _ | .bel _ grp _ _ _ => P grp
  | .ruleHead _ _ rest => ∀ r ∈ rest, r.query.Within P
  | .rule _ _ rest inner => (∀ r ∈ rest, r.query.Within P) ∧ inner.Within P
  | .andHead l rq => l.Within P ∧ rq.Within P
  | .and l rq r => l.Within P ∧ rq.Within P ∧ r.Within P
  | .or l rq => l.Within P ∧ rq.Within P

omit [Arith] inst in
theorem Query.within_rename {ρ : VarId → VarId} : ∀ {q : Query A}, q.Within P → (q.rename ρ).Within P
  | .tru, _ | .fls, _ | .unify _ _, _ => trivial
  | .act _ _, h | .not _, h => h.elim
  | .and _ _, h | .or _ _, h => ⟨within_rename h.1, within_rename h.2⟩
  | .term t, h => by
    cases t <;> simp_all [Query.Within, Query.rename, Term.rename, Term.renameL_eq]

/-- Literals are values of literals and variables only. -/
theorem evaluate_lit {n : Nat} {sc : Scope} {t : Term} {f : String} {as xs : List Term} (h : evaluate n sc t = .ok (.lit f as xs)) :
    t = .lit f as xs ∨ ∃ x, t = .var x := by
  cases n with
  | zero => simp [evaluate] at h
  | succ n =>
    cases t with
    | var x => exact .inr ⟨x, rfl⟩
    | un op t =>
      simp only [evaluate, Ev.bind_eq_ok] at h
      obtain ⟨a, _, h⟩ := h
      unfold unFunc at h
      split at h <;> simp at h
    | bin op l r =>
      simp only [evaluate, Ev.bind_eq_ok] at h
      obtain ⟨a, _, b, _, h⟩ := h
      split at h
      · simp only [Ev.bind_eq_ok] at h
        obtain ⟨_, _, _, _, h⟩ := h
        revert h
        generalize pyCompare n op _ _ = x
        cases x <;> simp [Ev.map]
      · unfold binFunc at h
        split at h
        · split at h <;> simp at h
        · split at h
          · split at h
            · split at h <;> simp at h
            · simp at h
          · simp at h
    | lit g bs ys =>
      simp only [evaluate, Ev.ok.injEq] at h
      exact .inl h
    | _ => simp [evaluate] at h

omit [Arith] inst in
/-- Results that are the same in both worlds, and what they satisfy. -/
structure SameRun (P : String × Nat → Prop) (w : W) (x y : Res (QSt W) (Option (Gen A G))) : Prop where
  eq : x = y
  atNone : ∀ s', x = .ok none s' → s'.w = w
  atSome : ∀ g s', x = .ok (some g) s' → s'.w = w ∧ g.Within P

omit [Arith] inst in
theorem SameRun.mkNone {s : QSt W} (h : s.w = w) : SameRun (A := A) (G := G) P w (.ok none s) (.ok none s) :=
  ⟨rfl, fun s' h' => by cases h'; exact h, nofun⟩

omit [Arith] inst in
theorem SameRun.mkSome {s : QSt W} {g : Gen A G} (h : s.w = w) (hg : g.Within P) : SameRun P w (.ok (some g) s) (.ok (some g) s) :=
  ⟨rfl, nofun, fun g' s' h' => by cases h'; exact ⟨h, hg⟩⟩

omit [Arith] inst in
theorem SameRun.err {s : QSt W} {e : Err} : SameRun (A := A) (G := G) P w (.err e s) (.err e s) := ⟨rfl, nofun, nofun⟩

omit [Arith] inst in
theorem SameRun.oof : SameRun (W := W) (A := A) (G := G) P w .oof .oof := ⟨rfl, nofun, nofun⟩

omit [Arith] inst in
theorem SameRun.onNext {x y : Res (QSt W) (Option (Gen A G))} (h : SameRun P w x y)
    {f f' : Gen A G → QSt W → Res (QSt W) (Option (Gen A G))} {l l' : QSt W → Res (QSt W) (Option (Gen A G))}
    (hs : ∀ g s, s.w = w → g.Within P → SameRun P w (f g s) (f' g s)) (hn : ∀ s, s.w = w → SameRun P w (l s) (l' s)) :
    SameRun P w (x.onNext f l) (y.onNext f' l') := by
  obtain ⟨rfl, h1, h2⟩ := h
  cases x with
  | oof => exact .oof
  | err e s => exact .err
  | ok o s =>
    cases o with
    | none => exact hn s (h1 s rfl)
    | some g => exact hs g s (h2 g s rfl).1 (h2 g s rfl).2

open Classical in
/-- Queries about the lower stratum run as if there were no other rules. -/
theorem lower_run (hs : Strata w c P) : ∀ (n : Nat) (g : Gen A G) (s : QSt W), s.w = w → g.Within P →
    SameRun P w (gnext n g s) (@gnext W A G _ (lowerWorld P inst) n g s)
  | 0, _, _, _, _ => .oof
  | n + 1, g, s, hw, hg => by
    have ih := lower_run hs n
    simp only [gnext]
    unfold gstep
    cases g with
    | done => exact .mkNone hw
    | act g => exact hg.elim
    | ua d => exact .mkNone hw
    | start q =>
      cases q with
      | tru => exact .mkSome hw trivial
      | fls => exact .mkNone hw
      | act a t => exact hg.elim
      | not q => exact hg.elim
      | and l r => exact ih _ _ hw hg
      | or l r => exact ih _ _ hw hg
      | unify l r =>
        simp only [QSt.onB]
        cases uaStart n l r s.b with
        | oof => exact .oof
        | err e b => exact .err
        | ok o b =>
          cases o with
          | none => exact .mkNone hw
          | some d => exact .mkSome hw trivial
      | term t =>
        simp only
        cases hx : evaluate n s.b.scope t with
        | oof => exact .oof
        | err e => exact .err
        | ok t' =>
          simp only [Res.lift_ok, Res.bind_ok]
          split
          · exact .mkSome hw trivial
          · exact .mkNone hw
          · rename_i f as xs
            refine ih _ _ hw ?_
            rcases evaluate_lit hx with rfl | ⟨x, rfl⟩
            · exact hg
            · exact hg.elim
          · exact .err
    | belHead grp t rest size =>
      simp only
      by_cases hl : (inst.beliefs s.w grp).length ≠ size
      · rw [if_pos hl, if_pos (show ((lowerWorld P inst).beliefs s.w grp).length ≠ size from hl)]
        exact .err
      · rw [if_neg hl, if_neg (show ¬ ((lowerWorld P inst).beliefs s.w grp).length ≠ size from hl)]
        cases rest with
        | nil =>
          have e : (lowerWorld P inst).rules s.w grp = inst.rules s.w grp := if_pos hg
          simp only [e]
          refine ih _ _ hw ?_
          rw [hw]
          exact fun r hr => (hs.lower grp hg r hr).2.2
        | cons x rest =>
          simp only [QSt.onB]
          cases uaStart n t x s.b with
          | oof => exact .oof
          | err e b => exact .err
          | ok o b =>
            cases o with
            | none => exact ih (.belHead ..) _ hw hg
            | some d => exact .mkSome (g := .bel ..) hw hg
    | bel d grp t rest size => exact ih (.belHead ..) _ hw hg
    | ruleHead d t rest =>
      cases rest with
      | nil => exact .mkNone hw
      | cons r rest =>
        simp only [QSt.onB]
        cases unify n t (r.deepcopy s.nv).head (s.b.pushCp d) with
        | oof => exact .oof
        | err e b => exact .err
        | ok o b =>
          have hr : ∀ r ∈ rest, r.query.Within P := fun x hx => hg x (by simp [hx])
          simp only [Res.bind_ok]
          cases o with
          | true => exact ih (.rule ..) _ hw ⟨hr, Query.within_rename (hg r (by simp))⟩
          | false => exact ih (.ruleHead ..) _ hw hr
    | rule d t rest inner =>
      exact (ih inner s hw hg.2).onNext (fun g s h1 h2 => .mkSome (g := .rule ..) h1 ⟨hg.1, h2⟩) (fun s h => ih (.ruleHead ..) _ h hg.1)
    | andHead l rq =>
      exact (ih l s hw hg.1).onNext (fun g s h1 h2 => ih (.and ..) _ h1 ⟨h2, hg.2, hg.2⟩) (fun s h => .mkNone h)
    | and l rq r =>
      exact (ih r s hw hg.2.2).onNext (fun g s h1 h2 => .mkSome (g := .and ..) h1 ⟨hg.1, hg.2.1, h2⟩)
        (fun s h => ih (.andHead ..) _ h ⟨hg.1, hg.2.1⟩)
    | or l rq =>
      exact (ih l s hw hg.1).onNext (fun g s h1 h2 => .mkSome (g := .or ..) h1 ⟨h2, hg.2⟩) (fun s h => ih (.start _) _ h hg.2)

end

end Verif
