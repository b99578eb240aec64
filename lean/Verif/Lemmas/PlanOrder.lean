import Verif.Lemmas.RunInv
import Verif.Spec.Plans

/-!
# Lemmas: the order of plans
-/

namespace Verif

/-- The lists of plans of agent `a` exist, and different keys have different lists. -/
def OwnPlans (w : World) (a : Nat) : Prop :=
  ∀ k r, (w.ags a).plans.lookup k = some r → r < w.nplist ∧ ∀ k', (w.ags a).plans.lookup k' = some r → k' = k

theorem lookup_append_single {α β : Type} [BEq α] [LawfulBEq α] [DecidableEq α] (k k' : α) (v : β) : ∀ (l : List (α × β)),
    (l ++ [(k', v)]).lookup k = (l.lookup k).or (if k = k' then some v else none)
  | [] => by
    by_cases h : k = k'
    · subst h; simp [List.lookup]
    · have : (k == k') = false := by simp [h]
      simp [List.lookup, this, h]
  | (x, y) :: l => by
    simp only [List.cons_append, List.lookup]
    split
    · rfl
    · exact lookup_append_single k k' v l

theorem addPlan_own {w : World} {a : Nat} (h : OwnPlans w a) (k : PlanKey) (p : Plan) :
    OwnPlans (w.addPlan a k p) a ∧ ∀ k', (w.addPlan a k p).plansFor a k' = w.plansFor a k' ++ if k' = k then [p] else [] := by
  unfold World.addPlan
  cases hk : (w.ags a).plans.lookup k with
  | some r =>
    simp only
    refine ⟨h, fun k' => ?_⟩
    unfold World.plansFor
    simp only [World.setPlist]
    by_cases he : k' = k
    · subst he
      simp [hk]
    · simp only [he, if_false, List.append_nil]
      cases hk' : (w.ags a).plans.lookup k' with
      | none => rfl
      | some r' =>
        have : r' ≠ r := fun hr => he ((h k r hk).2 k' (hr ▸ hk'))
        simp [this]
  | none =>
    simp only
    have hl : ∀ k', ((w.ags a).plans ++ [(k, w.nplist)]).lookup k' = ((w.ags a).plans.lookup k').or (if k' = k then some w.nplist else none) :=
      fun k' => lookup_append_single ..
    constructor
    · intro k₁ r h1
      simp only [World.setAg, if_true, hl] at h1 ⊢
      have key : ∀ k₁ r, (((w.ags a).plans.lookup k₁).or (if k₁ = k then some w.nplist else none)) = some r →
          (w.ags a).plans.lookup k₁ = some r ∨ k₁ = k ∧ r = w.nplist := by
        intro k₁ r h1
        cases hx : (w.ags a).plans.lookup k₁ with
        | some r' => rw [hx] at h1; exact .inl h1
        | none =>
          rw [hx] at h1
          split at h1
          · next h2 => exact .inr ⟨h2, by simpa using h1.symm⟩
          · simp at h1
      rcases key k₁ r h1 with h2 | ⟨rfl, rfl⟩
      · refine ⟨Nat.lt_succ_of_lt (h _ _ h2).1, fun k' h3 => ?_⟩
        rcases key k' r h3 with h4 | ⟨rfl, rfl⟩
        · exact (h _ _ h2).2 _ h4
        · exact absurd (h _ _ h2).1 (Nat.lt_irrefl _)
      · refine ⟨Nat.lt_succ_self _, fun k' h3 => ?_⟩
        rcases key k' _ h3 with h4 | ⟨rfl, _⟩
        · exact absurd (h _ _ h4).1 (Nat.lt_irrefl _)
        · rfl
    · intro k'
      unfold World.plansFor
      simp only [World.setAg, if_true, hl, World.setPlist]
      by_cases he : k' = k
      · subst he
        simp [hk]
      · simp only [he, if_false, List.append_nil, Option.or_none]
        cases hk' : (w.ags a).plans.lookup k' with
        | none => rfl
        | some r' =>
          have : r' ≠ w.nplist := Nat.ne_of_lt (h _ _ hk').1
          simp [this]

theorem isFor_key {src : PlanSrc} (hl : ∃ f as xs, src.head = .lit f as xs) {tr : Trigger} {gt : GoalType} {f : String} {n : Nat} :
    src.isFor tr gt f n = true ↔ (tr, gt, f, n) = planKey src.trigger src.goalType src.head := by
  obtain ⟨g, as, xs, hl⟩ := hl
  unfold PlanSrc.isFor
  rw [hl]
  simp only [planKey, Bool.and_eq_true, beq_iff_eq, Prod.mk.injEq]
  constructor
  · rintro ⟨⟨rfl, rfl⟩, rfl, rfl⟩; exact ⟨rfl, rfl, rfl, rfl⟩
  · rintro ⟨rfl, rfl, rfl, rfl⟩; exact ⟨⟨rfl, rfl⟩, rfl, rfl⟩

theorem buildPlans_order (a : Nat) : ∀ (ps : List PlanSrc) (s : QSt World), (∀ src ∈ ps, ∃ f as xs, src.head = .lit f as xs) → OwnPlans s.w a →
    OwnPlans (ps.foldl (fun s p => buildPlan a p s) s).w a ∧ s.w.code.Ext (ps.foldl (fun s p => buildPlan a p s) s).w.code ∧
    ∀ tr gt f n, ∃ qs, (ps.foldl (fun s p => buildPlan a p s) s).w.plansFor a (tr, gt, f, n) = s.w.plansFor a (tr, gt, f, n) ++ qs ∧
      Pairs (fun p src => ∃ k c₀, BuiltFrom (ps.foldl (fun s p => buildPlan a p s) s).w.code p src k c₀) qs (ps.filter (·.isFor tr gt f n))
  | [], s, _, h => ⟨h, .refl _, fun _ _ _ _ => ⟨[], by simp, .nil⟩⟩
  | src :: ps, s, hl, h => by
    have h1 := addPlan_own (w := { s.w with code := compileBody (Stmt.renameL (s.nv + ·) src.body) s.w.code }) h
      (planKey src.trigger src.goalType src.head) ⟨src.trigger, src.goalType, src.head.rename (s.nv + ·), src.context.rename (s.nv + ·), s.w.code.size, src.label, src.text⟩
    have hc : s.w.code.Ext (buildPlan a src s).w.code := by rw [buildPlan_code]; exact compileBody_ext _ _
    obtain ⟨h2, h3, h4⟩ := buildPlans_order a ps (buildPlan a src s) (fun x hx => hl x (List.mem_cons_of_mem _ hx)) h1.1
    rw [List.foldl_cons]
    refine ⟨h2, hc.trans h3, fun tr gt f n => ?_⟩
    obtain ⟨qs, h5, h6⟩ := h4 tr gt f n
    have h7 : (buildPlan a src s).w.plansFor a (tr, gt, f, n) = _ := h1.2 _
    rw [h5, h7, List.append_assoc]
    refine ⟨_, rfl, ?_⟩
    have hk := isFor_key (hl src List.mem_cons_self) (tr := tr) (gt := gt) (f := f) (n := n)
    by_cases he : src.isFor tr gt f n = true
    · rw [List.filter_cons_of_pos he, if_pos (hk.1 he)]
      refine .cons ⟨s.nv, s.w.code, rfl, ?_⟩ h6
      rw [buildPlan_code] at h3
      exact h3
    · rw [List.filter_cons_of_neg he, if_neg (fun h => he (hk.2 h))]
      exact h6
theorem OwnPlans.congr {w w' : World} {a a' : Nat} (h : OwnPlans w a) (hp : (w'.ags a').plans = (w.ags a).plans) (hn : w.nplist ≤ w'.nplist) :
    OwnPlans w' a' := by
  intro k r hk
  rw [hp] at hk ⊢
  exact ⟨Nat.lt_of_lt_of_le (h k r hk).1 hn, (h k r hk).2⟩

theorem addPlan_own_all {w : World} (h : ∀ a, OwnPlans w a) (a : Nat) (k : PlanKey) (p : Plan) (a' : Nat) : OwnPlans (w.addPlan a k p) a' := by
  by_cases ha : a' = a
  · subst ha
    exact (addPlan_own (h a') k p).1
  · refine (h a').congr ?_ ?_ <;> unfold World.addPlan <;> split
    · rfl
    · simp [World.setAg, ha, World.setPlist]
    · exact Nat.le_refl _
    · exact Nat.le_succ _

section
variable [Host]

theorem ownPlans_inv : Inv fun w => ∀ a, OwnPlans w a where
  init clock a k r h := by simp [World.init] at h
  frame hf h a := by
    obtain ⟨sts, h1⟩ := hf.ags a
    exact (h a).congr (by rw [h1]) (Nat.le_of_eq hf.nplist.symm)
  prim hp h a := by
    cases hp with
    | add | del =>
      refine (h a).congr ?_ ?_ <;> unfold World.setBeliefs <;> split <;> first | rfl | exact Nat.le_refl _ | skip
      all_goals
        simp only [World.setAg]
        split
        · next he => subst he; rfl
        · rfl
    | plan a₁ src =>
      rename_i s
      exact addPlan_own_all (w := { s.w with code := compileBody (Stmt.renameL (s.nv + ·) src.body) s.w.code }) h _ _ _ a
    | drop | push =>
      refine (h a).congr ?_ (Nat.le_refl _)
      simp only [World.setStacks, World.setAg]
      split
      · next he => subst he; rfl
      · rfl
    | _ => exact (h a).congr rfl (Nat.le_refl _)
  agent {w} name h a := by
    by_cases ha : a = w.nag
    · subst ha
      intro k r hk
      simp [newAgent, World.setAg] at hk
    · exact (h a).congr (by simp only [newAgent, World.setAg, if_neg ha]) (Nat.le_refl _)
  rule a r h a' := by
    refine (h a').congr ?_ ?_ <;> unfold addRule <;> split <;> first | rfl | exact Nat.le_refl _ | skip
    all_goals
      simp only [World.setAg]
      split
      · next he => subst he; rfl
      · rfl
  register _ h a := (h a).congr rfl (Nat.le_refl _)
  copy {w} name a₀ h a := by
    by_cases ha : a = w.nag
    · subst ha
      exact (h a₀).congr (by simp [newAgent, World.setAg]) (Nat.le_refl _)
    · exact (h a).congr (by simp only [newAgent, World.setAg, if_neg ha]) (Nat.le_refl _)

end

end Verif
