import Verif.Spec.Messages
import Verif.Lemmas.Plans
import Verif.Lemmas.Reach
import Verif.Lemmas.PyEq
import Verif.Lemmas.BeliefOps
import Verif.Props.Ground

/-!
# Messages: lemmas
-/

namespace Verif

/-! ## Frozen terms are fixed points of `grounded` -/

/-- No expressions, and all annotation sets without duplicates. -/
def Term.Norm : Term → Prop := Term.All fun t =>
  match t with
  | .un _ _ | .bin _ _ _ => False
  | .lit _ _ xs => xs.Pairwise fun x y => pyEqB x y = false
  | _ => True

@[simp] theorem Term.norm_lit {f as xs} :
    (Term.lit f as xs).Norm ↔ (xs.Pairwise fun x y => pyEqB x y = false) ∧ (∀ t ∈ as, t.Norm) ∧ ∀ t ∈ xs, t.Norm := by
  simp [Term.Norm, Term.All, Term.allL_iff]
@[simp] theorem Term.norm_tup {xs} : (Term.tup xs).Norm ↔ ∀ t ∈ xs, t.Norm := by simp [Term.Norm, Term.All, Term.allL_iff]
@[simp] theorem Term.norm_cons {h t} : (Term.cons h t).Norm ↔ h.Norm ∧ t.Norm := by simp [Term.Norm, Term.All]
@[simp] theorem Term.norm_un {o t} : (Term.un o t).Norm ↔ False := by simp [Term.Norm, Term.All]
@[simp] theorem Term.norm_bin {o l r} : (Term.bin o l r).Norm ↔ False := by simp [Term.Norm, Term.All]

section
variable [Arith]

mutual
theorem Copy.norm {sc : Scope} {R : VarId → VarId → Prop} : ∀ {t t' : Term}, Copy sc R t t' → t'.Norm
  | _, _, .bool _ => by simp [Term.Norm, Term.All]
  | _, _, .num _ => by simp [Term.Norm, Term.All]
  | _, _, .str _ => by simp [Term.Norm, Term.All]
  | _, _, .wild => by simp [Term.Norm, Term.All]
  | _, _, .free _ _ => by simp [Term.Norm, Term.All]
  | _, _, .bound _ h => h.norm
  | _, _, .un _ h => h.norm
  | _, _, .bin _ h => h.norm
  | _, _, .lit h h' => by
    have h1 := h.norm
    have h2 := h'.norm
    simp only [Term.norm_lit]
    exact ⟨pySet_pairwise _, h1, fun t ht => h2 t (pySet_sub ht)⟩
  | _, _, .tup h => by simpa using h.norm
  | _, _, .cons h h' => by simpa using ⟨h.norm, h'.norm⟩
theorem CopyL.norm {sc : Scope} {R : VarId → VarId → Prop} : ∀ {ts ts' : List Term}, CopyL sc R ts ts' → ∀ t ∈ ts', t.Norm
  | _, _, .nil => by simp
  | _, _, .cons h h' => by
    have h1 := h.norm
    have h2 := h'.norm
    simpa using ⟨h1, h2⟩
end

mutual
theorem Copy.same {R : VarId → VarId → Prop} : ∀ {t t' : Term}, t.Norm → t.Ground → Copy Scope.empty R t t' → t' = t
  | _, _, _, _, .bool _ => rfl
  | _, _, _, _, .num _ => rfl
  | _, _, _, _, .str _ => rfl
  | _, _, _, _, .wild => rfl
  | _, _, _, h, .free _ _ => by simp at h
  | _, _, _, h, .bound _ _ => by simp at h
  | _, _, hn, h, .lit h1 h2 => by
    simp at hn h
    rw [CopyL.same hn.2.1 h.1 h1, CopyL.same hn.2.2 h.2 h2, pySet_of_pairwise hn.1]
  | _, _, hn, h, .tup h1 => by
    simp at hn h
    rw [CopyL.same hn h h1]
  | _, _, hn, h, .cons h1 h2 => by
    simp at hn h
    rw [Copy.same hn.1 h.1 h1, Copy.same hn.2 h.2 h2]
  | _, _, hn, _, .un _ _ => by simp at hn
  | _, _, hn, _, .bin _ _ => by simp at hn

theorem CopyL.same {R : VarId → VarId → Prop} : ∀ {ts ts' : List Term}, (∀ t ∈ ts, t.Norm) → (∀ t ∈ ts, t.Ground) →
    CopyL Scope.empty R ts ts' → ts' = ts
  | _, _, _, _, .nil => rfl
  | _, _, hn, h, .cons h1 h2 => by
    simp at hn h
    rw [Copy.same hn.1 h.1 h1, CopyL.same hn.2 h.2 h2]
end

omit [Arith] in
theorem mapL_id {f : Term → Ev Term} : ∀ {ts us : List Term}, (∀ t ∈ ts, ∀ u, f t = .ok u → u = t) → Ev.mapL f ts = .ok us → us = ts
  | [], us, _, h => by simpa [Ev.mapL] using h.symm
  | t :: ts, us, h, h' => by
    simp only [Ev.mapL, Ev.bind_eq_ok, Ev.map_eq_ok] at h'
    obtain ⟨u, h1, us', h2, rfl⟩ := h'
    rw [h t (by simp) u h1, mapL_id (fun t ht => h t (by simp [ht])) h2]

/-- Grounding a frozen term in the empty scope changes nothing. -/
theorem grounded_norm : ∀ {n : Nat} {t g : Term}, t.Norm → grounded n Scope.empty t = .ok g → g = t
  | 0, _, _, _, h => by simp [grounded] at h
  | n + 1, t, g, hn, h => by
    rw [grounded.eq_def] at h
    cases t with
    | var x => simp [Scope.empty] at h
    | wild => simp at h
    | un => simp at hn
    | bin => simp at hn
    | lit f as xs =>
      simp only [Ev.bind_eq_ok] at h
      obtain ⟨as', ha, xs', hx, h⟩ := h
      cases h
      simp only [Term.norm_lit] at hn
      rw [mapL_id (fun t ht u hu => grounded_norm (hn.2.1 t ht) hu) ha, mapL_id (fun t ht u hu => grounded_norm (hn.2.2 t ht) hu) hx,
        pySet_of_pairwise hn.1]
    | cons hd tl =>
      simp only [Ev.bind_eq_ok] at h
      obtain ⟨h', hh, t', ht, h⟩ := h
      cases h
      simp only [Term.norm_cons] at hn
      rw [grounded_norm hn.1 hh, grounded_norm hn.2 ht]
    | tup xs =>
      simp only [Ev.map_eq_ok] at h
      obtain ⟨xs', hx, h⟩ := h
      subst h
      simp only [Term.norm_tup] at hn
      rw [mapL_id (fun t ht u hu => grounded_norm (hn t ht) hu) hx]
    | bool b => simpa using h.symm
    | num b => simpa using h.symm
    | str b => simpa using h.symm

end

/-! ## Annotating with the source -/

theorem setEq_nil {f : Term → Term → Ev Bool} {xs : List Term} (h : setEq f xs [] = .ok true) : xs = [] := by
  cases xs with
  | nil => rfl
  | cons => simp [setEq, Ev.allL, memBy] at h

theorem tupEq_nil {f : Term → Term → Ev Bool} {xs : List Term} (h : tupEq f xs [] = .ok true) : xs = [] := by
  cases xs with
  | nil => rfl
  | cons => simp [tupEq] at h

theorem tupEq_one {f : Term → Term → Ev Bool} {xs : List Term} {y : Term} (h : tupEq f xs [y] = .ok true) :
    ∃ x, xs = [x] ∧ f x y = .ok true := by
  cases xs with
  | nil => simp [tupEq] at h
  | cons x xs =>
    simp only [tupEq, Ev.bind_eq_ok] at h
    obtain ⟨b, h1, h⟩ := h
    cases b with
    | false => simp at h
    | true =>
      simp only [if_true] at h
      rw [tupEq_nil h]
      exact ⟨x, rfl, h1⟩

theorem pyEq_lit {n : Nat} {x : Term} {g : String} {bs : List Term} (h : pyEq n x (.lit g bs []) = .ok true) :
    ∃ m as, n = m + 1 ∧ x = .lit g as [] ∧ tupEq (pyEq m) as bs = .ok true := by
  cases n with
  | zero => simp [pyEq] at h
  | succ n =>
    cases x with
    | lit f as xs =>
      simp only [pyEq, pyEqStep, numVal] at h
      split at h
      · next hf =>
        simp only [Ev.bind_eq_ok] at h
        obtain ⟨e, h1, h⟩ := h
        cases e with
        | false => simp at h
        | true =>
          simp only [if_true] at h
          rw [setEq_nil h, hf]
          exact ⟨n, as, rfl, rfl, h1⟩
      · simp at h
    | _ => simp [pyEq, pyEqStep, numVal] at h

/-- Only the annotation itself is equal to it. -/
theorem pyEqB_source {x : Term} {name : String} (h : pyEqB x (sourceAnnot name) = true) : x = sourceAnnot name := by
  unfold pyEqB at h
  split at h
  · next h1 =>
    obtain ⟨m, as, -, rfl, h2⟩ := pyEq_lit h1
    obtain ⟨x, rfl, h3⟩ := tupEq_one h2
    obtain ⟨m, as, -, rfl, h4⟩ := pyEq_lit h3
    rw [tupEq_nil h4]
    rfl
  · cases h

theorem pyEqB_source_refl {name : String} : pyEqB (sourceAnnot name) (sourceAnnot name) = true :=
  pyEqB_refl (by simp [sourceAnnot]) (by simp [sourceAnnot, Term.Proper, Term.ProperL])

/-- What `with_annotation` does. -/
theorem withAnnotation_signed {t m : Term} {name : String} (h : withAnnotation t (sourceOf name) = .ok m) : Signed name t m := by
  cases t <;> simp only [withAnnotation, reduceCtorEq] at h
  next f as xs =>
  cases h
  unfold pySetAdd
  split
  · next h =>
    simp only [List.any_eq_true] at h
    obtain ⟨y, hy, he⟩ := h
    exact .old (pyEqB_source he ▸ hy)
  · next h =>
    refine .new fun hm => h ?_
    simp only [List.any_eq_true]
    exact ⟨_, hm, pyEqB_source_refl⟩

theorem Signed.norm {t m : Term} {name : String} (h : Signed name t m) (ht : t.Norm) : m.Norm := by
  cases h with
  | old => exact ht
  | new hn =>
    simp only [Term.norm_lit] at ht ⊢
    refine ⟨?_, ht.2.1, ?_⟩
    · rw [List.pairwise_append]
      refine ⟨ht.1, by simp, fun x hx y hy => ?_⟩
      simp only [List.mem_singleton] at hy
      subst hy
      cases he : pyEqB x (sourceAnnot name) with
      | false => rfl
      | true => exact absurd (pyEqB_source he ▸ hx) hn
    · intro u hu
      rcases List.mem_append.1 hu with hu | hu
      · exact ht.2.2 u hu
      · simp only [List.mem_singleton] at hu
        subst hu
        simp [sourceAnnot]

theorem Signed.mem {t m : Term} {name : String} (h : Signed name t m) :
    ∃ f as xs, m = .lit f as xs ∧ sourceAnnot name ∈ xs := by
  cases h with
  | new => exact ⟨_, _, _, rfl, by simp⟩
  | old h => exact ⟨_, _, _, rfl, h⟩

/-! ## Matching annotations -/

section
variable [Arith]

/-- Annotated unification of closed terms yields only if their values are equal. -/
theorem ua_closed_val {n d : Nat} {x y : Term} {b b' : BSt} (hx : x.Closed) (hy : y.Closed)
    (h : uaStart n x y b = .ok (some d) b') : x.val = y.val := by
  obtain ⟨N, hN⟩ := unify_says _ x y rfl hx hy
  simp only at hN
  have h' := Res.mono (f := fun n => uaStart n x y b) (fun n => uaStart_succ n x y b) (n := n) (m := n + N + 2) (by omega)
    (by simp [h])
  simp only [h] at h'
  cases x with
  | lit f as xs =>
    rw [uaStart] at h'
    have hu := hN (n + N + 2) (by omega) b.mark
    have e : evaluate (n + N + 1) b.scope y = .ok y := by cases y <;> simp at hy <;> simp [evaluate]
    simp only [uaLit, e, Res.lift_ok, Res.bind_ok] at h'
    have hl : litUnify (n + N + 1) (unify (n + N + 1)) f as xs y b.mark = .ok (decide ((Term.lit f as xs).val = y.val)) b.mark := by
      rw [← hu, unify]; simp [Term.isObj, methUnify]
    split at h'
    · simp at hy
    · simp at hy
    · rw [hl] at h'
      by_cases hv : (Term.lit f as xs).val = y.val
      · exact hv
      · simp [hv, yieldIf] at h'
  | _ =>
    simp only [uaStart] at h'
    rw [hN (n + N + 1) (by omega)] at h'
    simp only [yieldIf, Res.bind_ok, decide_eq_true_eq] at h'
    split at h'
    · assumption
    · cases h'

omit [Arith] in
theorem findAnnot_sub {ua : Term → Term → BSt → Res BSt (Option Nat)} {l : Term} : ∀ {rs rest : List Term} {b b' : BSt},
    findAnnot ua l rs b = .ok (some rest) b' → (∀ r ∈ rest, r ∈ rs) ∧ ∃ r ∈ rs, ∃ b₁ d b₂, ua l r b₁ = .ok (some d) b₂
  | [], rest, b, b', h => by simp [findAnnot] at h
  | r :: rs, rest, b, b', h => by
    simp only [findAnnot, Res.bind_eq_ok] at h
    obtain ⟨y, b₁, h1, h⟩ := h
    cases y with
    | some d =>
      cases h
      exact ⟨fun r hr => by simp [hr], r, by simp, _, _, _, h1⟩
    | none =>
      simp only [Res.bind_eq_ok] at h
      obtain ⟨o, b₂, h2, h⟩ := h
      cases o with
      | none => cases h
      | some rest' =>
        cases h
        obtain ⟨g1, r', g2, g3⟩ := findAnnot_sub h2
        exact ⟨fun u hu => by
          rcases List.mem_cons.1 hu with rfl | hu
          · simp
          · simp [g1 u hu], r', by simp [g2], g3⟩

omit [Arith] in
theorem matchAnnots_each {ua : Term → Term → BSt → Res BSt (Option Nat)} : ∀ {ls rs : List Term} {b b' : BSt},
    matchAnnots ua ls rs b = .ok true b' → ∀ l ∈ ls, ∃ r ∈ rs, ∃ b₁ d b₂, ua l r b₁ = .ok (some d) b₂
  | [], rs, b, b', _ => by simp
  | l :: ls, rs, b, b', h => by
    simp only [matchAnnots, Res.bind_eq_ok] at h
    obtain ⟨o, b₁, h1, h⟩ := h
    cases o with
    | none => cases h
    | some rest =>
      obtain ⟨g1, g2⟩ := findAnnot_sub h1
      intro l' hl
      rcases List.mem_cons.1 hl with rfl | hl
      · exact g2
      · obtain ⟨r, hr, h2⟩ := matchAnnots_each h l' hl
        exact ⟨r, g1 r hr, h2⟩

/-- Every annotation of a matching pattern matches an annotation of the belief. -/
theorem Matches.annot {f : String} {as xs : List Term} {x : Term} {sc sc' : Scope} (hx : x.Closed) (h : Matches (.lit f as xs) x sc sc') :
    ∀ u ∈ xs, ∃ y ∈ x.annots, ∃ n b d b', uaStart n u y b = .ok (some d) b' := by
  obtain ⟨n, b, d, b', -, h, -⟩ := h
  cases n with
  | zero => simp [uaStart] at h
  | succ n =>
    simp only [uaStart, uaLit, Res.bind_eq_ok, Res.lift_eq_ok] at h
    obtain ⟨r, b₁, ⟨h1, rfl⟩, h⟩ := h
    rw [evaluate_closed hx h1] at h
    split at h
    · simp at hx
    · simp at hx
    · simp only [yieldIf, Res.bind_eq_ok] at h
      obtain ⟨ok, b₂, ⟨ok', b₃, h2, h3⟩, h4⟩ := h
      cases ok with
      | false => cases h4
      | true =>
        cases ok' with
        | false => cases h3
        | true =>
          simp only [if_true] at h3
          cases x <;> simp only [matchRight, reduceCtorEq] at h3
          intro u hu
          obtain ⟨y, hy, b₁, d, b₂, h5⟩ := matchAnnots_each h3 u hu
          exact ⟨y, hy, n, b₁, d, b₂, h5⟩

omit [Arith] in
theorem val_app {y : Term} {f : String} {w : Val} (h : y.val = some (.app f w)) : ∃ bs ys, y = .lit f bs ys ∧ Term.valL bs = some w := by
  cases y with
  | lit g bs ys =>
    simp only [Term.val, Option.map_eq_some_iff, Val.app.injEq] at h
    obtain ⟨a, h1, rfl, rfl⟩ := h
    exact ⟨bs, ys, rfl, h1⟩
  | tup xs => exact absurd (valL_isL h) (by simp [Val.IsL])
  | cons a b =>
    simp only [Term.val, Option.bind_eq_some_iff, Option.map_eq_some_iff] at h
    obtain ⟨_, _, _, _, h⟩ := h
    cases h
  | _ => simp [Term.val] at h

/-- A belief that matches a pattern annotated with `source(name)` has this source itself. -/
theorem Matches.hasSource {m x : Term} {f : String} {as xs : List Term} {name : String} {sc sc' : Scope} (hm : m = .lit f as xs)
    (hs : sourceAnnot name ∈ xs) (hx : x.Ground) (h : Matches m x sc sc') : HasSource name x := by
  subst hm
  obtain ⟨y, hy, n, b, d, b', hu⟩ := h.annot hx.closed _ hs
  have hyg : y.Ground := by
    cases x <;> simp [Term.annots] at hy
    simp at hx
    exact hx.2 y hy
  have hv := ua_closed_val (by simp [sourceAnnot]) hyg.closed hu
  have hv' : some (Val.app "source" (.cons (.app name .nil) .nil)) = y.val := by
    rw [← hv]; simp [sourceAnnot, Term.val, Term.valL]
  obtain ⟨bs, ws, rfl, h1⟩ := val_app hv'.symm
  cases bs with
  | nil => simp [Term.valL] at h1
  | cons c bs =>
    simp only [Term.valL, Option.bind_eq_some_iff, Option.map_eq_some_iff, Val.cons.injEq] at h1
    obtain ⟨_, h2, _, h3, rfl, rfl⟩ := h1
    obtain ⟨ds, zs, rfl, h4⟩ := val_app h2
    cases ds with
    | cons => simp [Term.valL, Option.bind_eq_some_iff] at h4
    | nil =>
      cases bs with
      | cons => simp [Term.valL, Option.bind_eq_some_iff] at h3
      | nil => exact ⟨zs, ws, hy⟩

end

/-! ## Receiving a message -/

theorem setBeliefs_cases {w : World} (hw : BeliefsOK w) {a a' : Nat} {g g' : String × Nat} {xs : List Term} :
    (w.setBeliefs a g xs).beliefs a' g' = w.beliefs a' g' ∨
    g' = g ∧ w.beliefs a' g' = w.beliefs a g ∧ (w.setBeliefs a g xs).beliefs a' g' = xs := by
  by_cases hg : g' = g
  · subst hg
    by_cases ha : a' = a
    · subst ha
      exact .inr ⟨rfl, rfl, setBeliefs_self⟩
    · by_cases hs : Shares w a a' g'
      · refine .inr ⟨rfl, ?_, setBeliefs_shares hs⟩
        obtain ⟨r, h1, h2⟩ := hs
        simp [World.beliefs, h1, h2]
      · exact .inl (setBeliefs_other hw (.inr ⟨ha, hs⟩))
  · exact .inl (setBeliefs_other hw (.inl hg))

theorem setBeliefs_rest {w : World} {a : Nat} {g : String × Nat} {xs : List Term} :
    (∀ a', a' ≠ a → (w.setBeliefs a g xs).ags a' = w.ags a') ∧
    (∃ bs, (w.setBeliefs a g xs).ags a = { w.ags a with beliefs := bs }) ∧ (w.setBeliefs a g xs).plists = w.plists := by
  unfold World.setBeliefs
  split
  · exact ⟨fun _ _ => rfl, ⟨_, rfl⟩, rfl⟩
  · exact ⟨fun a' h => by simp [World.setAg, World.setSet, h], ⟨_, by simp [World.setAg, World.setSet]; rfl⟩, rfl⟩

section
variable [Host]

omit [Host] in
theorem setBeliefs_newSets {w : World} (hw : BeliefsOK w) {a : Nat} {g : String × Nat} {xs : List Term} :
    ∃ bs, (w.setBeliefs a g xs).ags a = { w.ags a with beliefs := bs } ∧ NewSets w a bs := by
  unfold World.setBeliefs
  split
  · exact ⟨_, rfl, fun _ _ h => .inl h⟩
  · refine ⟨_, by simp [World.setAg, World.setSet]; rfl, fun g' r h => ?_⟩
    split at h
    · cases h
      exact .inr fun a' g' h => Nat.lt_irrefl _ (hw.lt h)
    · exact .inl h

/-- The first part of receiving a message: the change of beliefs. -/
structure Changed (a : Nat) (w w' : World) : Prop where
  others : ∀ a', a' ≠ a → w'.ags a' = w.ags a'
  agent : ∃ bs, w'.ags a = { w.ags a with beliefs := bs } ∧ NewSets w a bs
  plans : w'.plists = w.plists
  events : w'.events = w.events
  ints : w'.ints = w.ints
  nint : w'.nint = w.nint

omit [Host] in
theorem Changed.refl (a : Nat) (w : World) : Changed a w w := ⟨fun _ _ => rfl, ⟨_, rfl, fun _ _ h => .inl h⟩, rfl, rfl, rfl, rfl⟩

omit [Host] in
theorem Changed.set (a : Nat) {w : World} (hw : BeliefsOK w) (g : String × Nat) (xs : List Term) : Changed a w (w.setBeliefs a g xs) :=
  ⟨setBeliefs_rest.1, setBeliefs_newSets hw, setBeliefs_rest.2.2, (setBeliefs_ints (a' := a)).2.1, (setBeliefs_ints (a' := a)).2.2.1,
    (setBeliefs_ints (a' := a)).1⟩

theorem callBeliefs_change {n a : Nat} {tr : Trigger} {gt : GoalType} {m : Term} {s s₀ : QSt World} {go : Bool}
    (hb : s.b = BSt.init) (hw : BeliefsOK s.w) (hm : m.Norm) (hl : m.isLiteral = true)
    (h : callBeliefs n a tr gt m s = .ok go s₀) :
    Changed a s.w s₀.w ∧ BeliefsOK s₀.w ∧
      BeliefChange a m tr gt (if go then some s₀.b.scope else none) s.w s₀.w := by
  have hsc : s.b.scope = Scope.empty := by rw [hb]; rfl
  have other : gt ≠ .belief → callBeliefs n a tr gt m s = .ok true s := by
    intro hg
    cases gt <;> cases tr <;> first | rfl | exact absurd rfl hg
  by_cases hg : gt = .belief
  · subst hg
    cases tr with
    | addition =>
      simp only [callBeliefs, Res.bind_eq_ok] at h
      obtain ⟨_, s₁, h1, h⟩ := h
      cases h
      obtain ⟨f, as, xs, h2, rfl⟩ := addBelief_ok h1
      rw [hsc] at h2
      have he := grounded_norm hm h2
      have hg := (grounded_settled h2).1
      have hok : BeliefsOK (s.w.setBeliefs a (f, as.length) (pySetAdd (s.w.beliefs a (f, as.length)) (.lit f as xs))) := by
        refine setBeliefs_ok hw ?_ ?_ (pySetAdd_pairwise hw.set)
        · intro x hx
          rcases mem_pySetAdd.1 hx with hx | ⟨rfl, _⟩
          · exact hw.lits hx
          · exact ⟨_, _, _, rfl, rfl⟩
        · intro x hx
          rcases mem_pySetAdd.1 hx with hx | ⟨rfl, _⟩
          · exact hw.ground hx
          · exact hg
      refine ⟨.set _ hw _ _, hok, ?_⟩
      simp only [if_true, hsc]
      subst he
      refine .tell rfl hg ?_ (fun a' g ho => setBeliefs_other hw ho) ?_ ?_
      · intro x
        simp only [setBeliefs_self, mem_pySetAdd]
      · intro a' g x hx
        rcases setBeliefs_cases hw (a := a) (a' := a') (g := (f, as.length)) (g' := g)
          (xs := pySetAdd (s.w.beliefs a (f, as.length)) (.lit f as xs)) with h | ⟨rfl, h3, h4⟩
        · rw [h] at hx
          exact .inl hx
        · rw [h4] at hx
          rcases mem_pySetAdd.1 hx with hx | ⟨rfl, _⟩
          · exact .inl (h3 ▸ hx)
          · exact .inr rfl
      · intro a' g x hx
        rcases setBeliefs_cases hw (a := a) (a' := a') (g := (f, as.length)) (g' := g)
          (xs := pySetAdd (s.w.beliefs a (f, as.length)) (.lit f as xs)) with h | ⟨rfl, h3, h4⟩
        · rw [h]
          exact hx
        · rw [h4]
          exact mem_pySetAdd.2 (.inl (h3 ▸ hx))
    | removal =>
      simp only [callBeliefs] at h
      obtain ⟨f, as, xs, h1, _, h2⟩ := removeBelief_ok h
      have he : m = .lit f as xs := by
        cases m <;> simp only [Term.isLiteral, Bool.false_eq_true] at hl
        cases n <;> simp [evaluate] at h1
        rw [h1.1, h1.2.1, h1.2.2]
      subst he
      rw [hsc] at h2
      cases go with
      | false =>
        simp only at h2
        rw [h2.1]
        exact ⟨.refl _ _, hw, .noSuch rfl h2.2.2 fun _ _ => rfl⟩
      | true =>
        simp only at h2
        obtain ⟨_, pre, x, post, h3, h4, h5, h6⟩ := h2
        have hsub : (pre ++ post).Sublist (s.w.beliefs a (f, as.length)) := by rw [h3]; simp
        have hok : BeliefsOK s₀.w := h4 ▸
          setBeliefs_ok hw (fun x hx => hw.lits (hsub.subset hx)) (fun x hx => hw.ground (hsub.subset hx)) (hw.set.sublist hsub)
        refine ⟨h4 ▸ .set _ hw _ _, hok, ?_⟩
        refine .untell rfl h3 (by rw [h4, setBeliefs_self]) h5 h6 (fun a' g ho => by rw [h4]; exact setBeliefs_other hw ho) ?_
        intro a' g
        rw [h4]
        rcases setBeliefs_cases hw (a := a) (a' := a') (g := (f, as.length)) (g' := g) (xs := pre ++ post) with h | ⟨rfl, h7, h8⟩
        · exact .inl h
        · exact .inr ⟨h7.trans h3, h8⟩
  · rw [other hg] at h
    cases h
    refine ⟨.refl _ _, hw, ?_⟩
    simp only [if_true, hsc]
    exact .none hg fun _ _ => rfl

omit [Host] in
theorem beliefs_congr {w w' : World} (h : ∀ a, (w'.ags a).beliefs = (w.ags a).beliefs) (hs : w'.sets = w.sets) (a : Nat) (g : String × Nat) :
    w'.beliefs a g = w.beliefs a g := by
  simp only [World.beliefs, h, hs]

theorem BeliefChange.right {a : Nat} {m : Term} {tr : Trigger} {gt : GoalType} {o : Option Scope} {w w₁ w' : World}
    (h : BeliefChange a m tr gt o w w₁) (h' : ∀ a' g, w'.beliefs a' g = w₁.beliefs a' g) : BeliefChange a m tr gt o w w' := by
  cases h with
  | tell h1 h2 h3 h4 h5 h6 => exact .tell h1 h2 (by simpa only [h'] using h3) (by simpa only [h'] using h4) (by simpa only [h'] using h5) (by simpa only [h'] using h6)
  | untell h1 h2 h3 h4 h5 h6 h7 => exact .untell h1 h2 (by simpa only [h'] using h3) h4 h5 (by simpa only [h'] using h6) (by simpa only [h'] using h7)
  | noSuch h1 h2 h3 => exact .noSuch h1 h2 (by simpa only [h'] using h3)
  | none h1 h2 => exact .none h1 (by simpa only [h'] using h2)

theorem BeliefChange.left {a : Nat} {m : Term} {tr : Trigger} {gt : GoalType} {o : Option Scope} {w w₁ w' : World}
    (h : BeliefChange a m tr gt o w₁ w') (h1 : w.ags = w₁.ags) (h2 : w.sets = w₁.sets) : BeliefChange a m tr gt o w w' := by
  have h' : ∀ a' g, w₁.beliefs a' g = w.beliefs a' g := beliefs_congr (by simp [h1]) h2.symm
  have hs : ∀ a' g, Shares w₁ a a' g ↔ Shares w a a' g := fun a' g => by simp only [Shares, h1]
  cases h with
  | tell h1 h2 h3 h4 h5 h6 =>
    exact .tell h1 h2 (by simpa only [h'] using h3) (by simpa only [h', hs] using h4) (by simpa only [h'] using h5) (by simpa only [h'] using h6)
  | untell h1 h2 h3 h4 h5 h6 h7 =>
    exact .untell h1 (by simpa only [h'] using h2) (by simpa only [h'] using h3) h4 h5 (by simpa only [h', hs] using h6) (by simpa only [h'] using h7)
  | noSuch h1 h2 h3 => exact .noSuch h1 (by simpa only [h'] using h2) (by simpa only [h'] using h3)
  | none h1 h2 => exact .none h1 (by simpa only [h'] using h2)

theorem Received.congr {a : Nat} {m : Term} {tr : Trigger} {gt : GoalType} {w w₁ w₁' w' : World} (h : Received a tr gt m w₁ w₁')
    (h1 : w.ags = w₁.ags) (h2 : w.sets = w₁.sets) (h3 : w.events = w₁.events) (h4 : w.plists = w₁.plists)
    (g1 : w'.ags = w₁'.ags) (g2 : w'.sets = w₁'.sets) (g3 : w'.events = w₁'.events) (g4 : w'.plists = w₁'.plists) (g5 : w'.ints = w₁'.ints) :
    Received a tr gt m w w' := by
  obtain ⟨⟨o, i1, i2⟩, i3, i4, i5, i6⟩ := h
  refine ⟨⟨o, (i1.left h1 h2).right (beliefs_congr (by simp [g1]) g2), ?_⟩, ?_, ?_, ?_, ?_⟩
  · cases o with
    | none => simp only [Recorded] at i2 ⊢; rw [g3, h3, i2]
    | some sc => simp only [Recorded] at i2 ⊢; rw [g3, h3]; exact i2
  · cases i3 with
    | same j1 j2 => exact .same j1 (by rw [g1, h1]; exact j2)
    | new j1 j2 j3 j4 =>
      refine .new (by rw [h1]; exact j1) ?_ (by rw [g1, h1]; exact j3) (by rw [g5]; exact j4)
      simpa only [World.plansFor, h1, h4] using j2
  · rw [g1, h1]; exact i4
  · obtain ⟨bs, sts, j1, j2⟩ := i5
    exact ⟨bs, sts, by rw [g1, h1]; exact j1, by unfold NewSets; rw [h1]; exact j2⟩
  · rw [g4, h4, i6]

omit [Host] in
theorem Placed.notTop {i c : Nat} {d : Bool} {sts sts' : List (List Nat)} (h : Placed i c d sts sts') (hc : ∀ st, (c :: st) ∉ sts) :
    sts' = sts ++ [[i]] := by
  cases h with
  | new => rfl
  | @onTop l st r => exact absurd (by simp) (hc st)

theorem call_received {n a calling : Nat} {tr : Trigger} {gt : GoalType} {m : Term} {s s' : QSt World} {r : Bool}
    (hk : gt = .belief ∨ gt = .achievement ∧ tr = .addition) (hb : s.b = BSt.init) (hw : BeliefsOK s.w) (hst : StacksOK s.w)
    (hn : NoActions s.w a) (hc : ∀ st, (calling :: st) ∉ (s.w.ags a).intentions) (hm : m.Norm) (hl : m.isLiteral = true)
    (h : call n (gnext n) a tr gt m calling false s = .ok r s') : Received a tr gt m s.w s'.w := by
  have h0 := h
  unfold call at h
  simp only [Res.bind_eq_ok] at h
  obtain ⟨go, s₀, h1, h⟩ := h
  obtain ⟨hch, hok, hbc⟩ := callBeliefs_change hb hw hm hl h1
  obtain ⟨bs, hag, hns⟩ := hch.agent
  cases go with
  | false =>
    simp only [Bool.not_false, if_true] at h
    cases h
    simp only [Bool.false_eq_true, if_false] at hbc
    refine ⟨⟨none, hbc, hch.events⟩, .same ?_ (by rw [hag]), hch.others, ⟨bs, _, hag, hns⟩, hch.plans⟩
    rcases hk with rfl | ⟨rfl, rfl⟩
    · simp
    · cases h1
  | true =>
    simp only [if_true] at hbc
    simp only [Bool.not_true, Bool.false_eq_true, if_false, Res.bind_eq_ok] at h
    obtain ⟨e, s₁, h2, -⟩ := h
    have hpe : planEvent tr gt = true := by
      rcases hk with rfl | ⟨rfl, rfl⟩
      · cases tr <;> rfl
      · rfl
    rw [call_plans hpe h1 h2] at h0
    have han := callFrozen_ok h2
    obtain ⟨mm, hf, _⟩ := han.frozen
    obtain ⟨ρ, hρ, _, hcopy, _⟩ := C10_freeze_copy hf
    have hpl : ∀ k, s₁.w.plansFor a k = s.w.plansFor a k := fun k => by
      simp only [World.plansFor, han.ags, han.plans, hag, hch.plans]
    have hb₁ : ∀ a' g, s₁.w.beliefs a' g = s₀.w.beliefs a' g := beliefs_congr (by simp [han.ags]) han.sets
    have hpa : PlainAgent s₁.w a := fun g => ⟨by rw [han.ags, hag]; exact hn.1 g, fun b hb => by
      rw [hb₁] at hb
      obtain ⟨f, as, xs, rfl, _⟩ := hok.lits hb
      rfl⟩
    have hst₁ : (s₁.w.ags a).intentions = (s.w.ags a).intentions := by rw [han.ags, hag]
    rcases callPlans_cases (n := n) (calling := calling) (t := m) (delayed := false) hpa (by rw [hpl]; exact hn.2 _) han.literal with
      ⟨pre, p, post, b, i1, i2, i3, ⟨s₂, i4, i5, _⟩ | ⟨_, _, s₂, i4⟩⟩ | ⟨_, s₂, i1, _, _, _, _, _, i2⟩ | ⟨_, _, _, _, s₂, _, _, _, i4⟩ | i4
    · rw [i4] at h0
      cases h0
      have hb₂ : ∀ a' g, s'.w.beliefs a' g = s₀.w.beliefs a' g := fun a' g => by
        rw [← hb₁]
        refine beliefs_congr (fun a'' => ?_) i5.sets a' g
        by_cases ha : a'' = a
        · subst ha; rw [i5.agent]
        · rw [i5.agents _ ha]
      refine ⟨⟨some _, hbc.right hb₂, e, ⟨ρ, hρ, hcopy⟩, by rw [i5.events, han.events, hch.events]⟩, ?_, ?_, ?_, ?_⟩
      · have hp : p ∈ s.w.plansFor a (planKey tr gt e) := by rw [← hpl, i1]; simp
        refine .new (i := s₁.w.nint) (e := e) (p := p) (b := b) ?_ hp ?_ i5.new
        · intro a' st hst' hi
          have := hst.below a' st hst' _ hi
          rw [han.nint, hch.nint] at this
          omega
        · rw [← hst₁]
          exact i5.stacks.notTop (by rw [hst₁]; exact hc)
      · intro a' ha
        rw [i5.agents a' ha, han.ags, hch.others a' ha]
      · exact ⟨bs, _, by rw [i5.agent, han.ags, hag], hns⟩
      · rw [i5.plans, han.plans, hch.plans]
    · rw [i4] at h0; cases h0
    · rw [i2] at h0
      rcases hk with rfl | ⟨rfl, rfl⟩
      · cases h0
        refine ⟨⟨some _, hbc.right fun a' g => ?_, e, ⟨ρ, hρ, hcopy⟩, by rw [i1.events, han.events, hch.events]⟩, .same (by simp) ?_, ?_, ?_, ?_⟩
        · rw [← hb₁]
          exact beliefs_congr (by simp [i1.ags]) i1.sets a' g
        · rw [i1.ags, hst₁]
        · intro a' ha
          rw [i1.ags, han.ags, hch.others a' ha]
        · exact ⟨bs, _, by rw [i1.ags, han.ags, hag], hns⟩
        · rw [i1.plans, han.plans, hch.plans]
      · cases h0
    · rw [i4] at h0; cases h0
    · rw [i4] at h0; cases h0

theorem callNew_received {n a : Nat} {tr : Trigger} {gt : GoalType} {m : Term} {s s' : QSt World} {r : Bool}
    (hk : gt = .belief ∨ gt = .achievement ∧ tr = .addition) (hw : BeliefsOK s.w) (hst : StacksOK s.w)
    (hn : NoActions s.w a) (hm : m.Norm) (hl : m.isLiteral = true)
    (h : callNew n (gnext n) a tr gt m false s = .ok r s') :
    Received a tr gt m s.w s'.w ∧ s'.b = s.b ∧ s'.w.cur = s.w.cur ∧ s'.w.curInt = s.w.curInt := by
  unfold callNew QSt.nest at h
  simp only [Res.bind_eq_ok] at h
  obtain ⟨⟨r', b'⟩, s₁, h1, h⟩ := h
  split at h1 <;> cases h1
  next x s₂ h2 =>
  cases h
  have := call_received (s := ⟨BSt.init, s.nv, { s.w.setInt s.w.nint {} with nint := s.w.nint + 1 }⟩) hk rfl
    (hw.congr (fun _ => rfl) rfl (Nat.le_refl _)) (hst.congr (Nat.le_succ _) fun _ => rfl) hn
    (fun st hs => absurd (hst.below a _ hs s.w.nint (by simp)) (by omega)) hm hl h2
  exact ⟨this.congr rfl rfl rfl rfl rfl rfl rfl rfl rfl, rfl, rfl, rfl⟩

theorem callNew_ok {n a : Nat} {tr : Trigger} {gt : GoalType} {m : Term} {s s' : QSt World} {r : Bool} (hst : StacksOK s.w) (hw : BeliefsOK s.w)
    (h : callNew n (gnext n) a tr gt m false s = .ok r s') : BeliefsOK s'.w ∧ StacksOK s'.w := by
  have hb : Base s.w s.w := .refl hst.below
  exact ⟨((callNew_keeps beliefsOK_stable (gnext_keeps n) ⟨hb, hw⟩).of_ok h).2, ((callNew_keeps stacksOK_stable (gnext_keeps n) ⟨hb, hst⟩).of_ok h).2⟩

omit [Host] in
theorem NoActions.congr {w w' : World} {a : Nat} (h : NoActions w a) (hr : (w'.ags a).rules = (w.ags a).rules)
    (hp : (w'.ags a).plans = (w.ags a).plans) (hl : w'.plists = w.plists) : NoActions w' a := by
  refine ⟨by rw [hr]; exact h.1, fun k p hp' => h.2 k p ?_⟩
  simpa only [World.plansFor, hp, hl] using hp'

theorem Received.same {a a' : Nat} {m : Term} {tr : Trigger} {gt : GoalType} {w w' : World} (h : Received a tr gt m w w') :
    (w'.ags a').rules = (w.ags a').rules ∧ (w'.ags a').plans = (w.ags a').plans ∧ (w'.ags a').name = (w.ags a').name := by
  by_cases ha : a' = a
  · subst ha
    obtain ⟨bs, sts, h, _⟩ := h.agent
    rw [h]
    exact ⟨rfl, rfl, rfl⟩
  · rw [h.others a' ha]
    exact ⟨rfl, rfl, rfl⟩

theorem Received.noActions {a a' : Nat} {m : Term} {tr : Trigger} {gt : GoalType} {w w' : World} (h : Received a tr gt m w w')
    (hn : NoActions w a') : NoActions w' a' :=
  hn.congr h.same.1 h.same.2.1 h.plans

theorem SentTo.received {n : Nat} {tr : Trigger} {gt : GoalType} {m : Term} (hk : gt = .belief ∨ gt = .achievement ∧ tr = .addition)
    (hm : m.Norm) (hl : m.isLiteral = true) : ∀ {as : List Nat} {s s' : QSt World}, BeliefsOK s.w → StacksOK s.w →
    (∀ a ∈ as, NoActions s.w a) → SentTo n tr gt m as s s' → ReceivedAll tr gt m as s.w s'.w ∧ s'.b = s.b ∧ s'.w.cur = s.w.cur
  | [], s, s', _, _, _, h => by
    cases h
    exact ⟨.nil, rfl, rfl⟩
  | a :: as, s, s', hw, hst, hn, hs => by
    cases hs with
    | cons h h' =>
    obtain ⟨h1, h2, h3, _⟩ := callNew_received hk hw hst (hn a (by simp)) hm hl h
    obtain ⟨g1, g2⟩ := callNew_ok hst hw h
    obtain ⟨i1, i2, i3⟩ := SentTo.received hk hm hl g1 g2 (fun a' ha => h1.noActions (hn a' (by simp [ha]))) h'
    exact ⟨.cons hw h1 i1, i2.trans h2, i3.trans h3⟩

/-! ## Chains of messages -/

theorem Received.shares {a b b' : Nat} {m : Term} {tr : Trigger} {gt : GoalType} {g : String × Nat} {w w' : World}
    (h : Received a tr gt m w w') (hne : b ≠ b') (hs : Shares w' b b' g) : Shares w b b' g := by
  obtain ⟨r, h1, h2⟩ := hs
  obtain ⟨bs, sts, h3, h4⟩ := h.agent
  by_cases hb : b = a
  · subst hb
    rw [h3] at h1
    rw [h.others b' (Ne.symm hne)] at h2
    rcases h4 _ _ h1 with h5 | h5
    · exact ⟨r, h5, h2⟩
    · exact absurd h2 (h5 _ _)
  · rw [h.others b hb] at h1
    by_cases hb' : b' = a
    · subst hb'
      rw [h3] at h2
      rcases h4 _ _ h2 with h5 | h5
      · exact ⟨r, h1, h5⟩
      · exact absurd h1 (h5 _ _)
    · rw [h.others b' hb'] at h2
      exact ⟨r, h1, h2⟩

/-- Agents that share no belief set with a receiver are not affected. -/
theorem ReceivedAll.apart {tr : Trigger} {gt : GoalType} {m : Term} {as : List Nat} {w w' : World} (h : ReceivedAll tr gt m as w w')
    {b : Nat} {g : String × Nat} (hb : ∀ a ∈ as, b ≠ a ∧ ¬ Shares w a b g) : w'.beliefs b g = w.beliefs b g := by
  induction h with
  | nil => rfl
  | @cons a as w w₁ w' hw h h' ih =>
    obtain ⟨h1, h2⟩ := hb a (by simp)
    rw [ih fun a' ha => ⟨(hb a' (by simp [ha])).1, fun hs => (hb a' (by simp [ha])).2 (h.shares (Ne.symm (hb a' (by simp [ha])).1) hs)⟩]
    obtain ⟨o, h3, _⟩ := h.change
    cases h3 with
    | @tell f us xs _ _ _ _ _ h4 =>
      by_cases hg : g = (f, us.length)
      · subst hg; exact h4 b _ (.inr ⟨h1, h2⟩)
      · exact h4 b _ (.inl hg)
    | @untell f us xs _ _ _ _ _ _ _ _ _ _ _ h4 =>
      by_cases hg : g = (f, us.length)
      · subst hg; exact h4 b _ (.inr ⟨h1, h2⟩)
      · exact h4 b _ (.inl hg)
    | noSuch _ _ h4 => exact h4 b g
    | none _ h4 => exact h4 b g

theorem ReceivedAll.same {tr : Trigger} {gt : GoalType} {m : Term} {as : List Nat} {w w' : World} (h : ReceivedAll tr gt m as w w')
    (a : Nat) : (w'.ags a).rules = (w.ags a).rules ∧ (w'.ags a).plans = (w.ags a).plans ∧ (w'.ags a).name = (w.ags a).name ∧
      w'.plists = w.plists := by
  induction h with
  | nil => exact ⟨rfl, rfl, rfl, rfl⟩
  | cons _ h _ ih =>
    have := h.same (a' := a)
    exact ⟨ih.1.trans this.1, ih.2.1.trans this.2.1, ih.2.2.1.trans this.2.2, ih.2.2.2.trans h.plans⟩

/-- `tell`: beliefs. -/
theorem ReceivedAll.told {m : Term} {f : String} {us xs : List Term} (hm : m = .lit f us xs) {as : List Nat} {w w' : World}
    (h : ReceivedAll .addition .belief m as w w') :
    (∀ a ∈ as, ∃ x ∈ w'.beliefs a (f, us.length), x = m ∨ pyEqB x m = true) ∧
    (∀ b g x, x ∈ w.beliefs b g → x ∈ w'.beliefs b g) ∧ (∀ b g x, x ∈ w'.beliefs b g → x ∈ w.beliefs b g ∨ x = m) ∧
    (as ≠ [] → m.Ground) := by
  induction h with
  | nil => exact ⟨by simp, fun _ _ _ h => h, fun _ _ _ h => .inl h, by simp⟩
  | @cons a as w w₁ w' hw h h' ih =>
    obtain ⟨i1, i2, i3, _⟩ := ih
    obtain ⟨o, h3, _⟩ := h.change
    cases h3 with
    | none h => exact absurd rfl h
    | tell h4 h5 h6 h7 h8 h9 =>
      rw [hm] at h4
      cases h4
      refine ⟨fun b hb => ?_, fun b g x hx => i2 _ _ _ (h9 _ _ _ hx), fun b g x hx => ?_, fun _ => h5⟩
      · rcases List.mem_cons.1 hb with rfl | hb
        · by_cases hy : ∀ y ∈ w.beliefs b (f, us.length), pyEqB y m = false
          · exact ⟨m, i2 _ _ _ ((h6 m).2 (.inr ⟨rfl, hy⟩)), .inl rfl⟩
          · simp only [Classical.not_forall, Bool.not_eq_false] at hy
            obtain ⟨y, hy, he⟩ := hy
            exact ⟨y, i2 _ _ _ (h9 _ _ _ hy), .inr he⟩
        · exact i1 b hb
      · rcases i3 b g x hx with h | h
        · exact h8 b g x h
        · exact .inr h

/-- `tell`: events. -/
theorem ReceivedAll.tellEvents {m : Term} (hn : m.Norm) {as : List Nat} {w w' : World}
    (h : ReceivedAll .addition .belief m as w w') :
    w'.events = (as.map fun a => (a, ⟨.addition, .belief, m⟩)).reverse ++ w.events := by
  induction h with
  | nil => simp
  | @cons a as w w₁ w' hw h h' ih =>
    obtain ⟨o, h3, h4⟩ := h.change
    cases h3 with
    | none h => exact absurd rfl h
    | tell h5 h6 _ _ _ _ =>
      obtain ⟨e, ⟨ρ, _, h7⟩, h8⟩ := h4
      rw [ih, h8, h7.same hn h6]
      simp

/-- `untell`: beliefs. -/
theorem ReceivedAll.untold {m : Term} {name : String} (hs : sourceAnnot name ∈ m.annots) {as : List Nat} {w w' : World}
    (h : ReceivedAll .removal .belief m as w w') :
    (∀ b g, (w'.beliefs b g).Sublist (w.beliefs b g)) ∧
    (∀ b g x, x ∈ w.beliefs b g → x ∈ w'.beliefs b g ∨ HasSource name x) := by
  induction h with
  | nil => exact ⟨fun _ _ => List.Sublist.refl _, fun _ _ _ h => .inl h⟩
  | @cons a as w w₁ w' hw h h' ih =>
    obtain ⟨i1, i2⟩ := ih
    obtain ⟨o, h3, _⟩ := h.change
    cases h3 with
    | none h => exact absurd rfl h
    | noSuch _ _ h4 => exact ⟨fun b g => h4 b g ▸ i1 b g, fun b g x hx => i2 b g x (by rw [h4]; exact hx)⟩
    | @untell f us xs pre x post sc _ _ h4 h5 h6 h7 h8 h9 h10 =>
      refine ⟨fun b g => (i1 b g).trans ?_, fun b g y hy => ?_⟩
      · rcases h10 b g with h | ⟨h, h'⟩
        · rw [h]
          exact List.Sublist.refl _
        · rw [h, h']
          simp
      · rcases h10 b g with h | ⟨h, h'⟩
        · exact i2 b g y (by rw [h]; exact hy)
        · by_cases hyx : y = x
          · subst hyx
            refine .inr (h8.hasSource h4 ?_ (hw.ground hy))
            subst h4
            exact hs
          · refine i2 b g y ?_
            rw [h']
            rw [h] at hy
            simpa [hyx] using hy

/-- `achieve`: intentions. -/
theorem ReceivedAll.stacks {tr : Trigger} {m : Term} {as : List Nat} {w w' : World} (h : ReceivedAll tr .achievement m as w w') (a : Nat) :
    ∃ is : List Nat, (w'.ags a).intentions = (w.ags a).intentions ++ is.map (fun i => [i]) ∧ is.length = as.count a := by
  induction h with
  | nil => exact ⟨[], by simp, rfl⟩
  | @cons b as w w₁ w' hw h h' ih =>
    obtain ⟨is, h1, hl⟩ := ih
    by_cases ha : a = b
    · subst ha
      cases h.stacks with
      | same h => exact absurd rfl h
      | @new i _ _ _ _ _ _ _ h2 => exact ⟨i :: is, by rw [h1, h2]; simp, by simp [hl]⟩
    · exact ⟨is, by rw [h1, h.others a ha], by rw [hl, List.count_cons_of_ne (Ne.symm ha)]⟩

/-! ## The actions -/

theorem deliver_sentTo {n : Nat} {tr : Trigger} {gt : GoalType} {m : Term} : ∀ {as : List Nat} {s s' : QSt World},
    deliver n (gnext n) tr gt m as s = .ok () s' ↔ SentTo n tr gt m as s s'
  | [], s, s' => by
    simp only [deliver, Res.ok.injEq, true_and]
    exact ⟨fun h => h ▸ .nil, fun h => by cases h; rfl⟩
  | a :: as, s, s' => by
    simp only [deliver, Res.bind_eq_ok]
    constructor
    · rintro ⟨r, s₁, h1, h2⟩
      exact .cons h1 (deliver_sentTo.1 h2)
    · intro h
      cases h with
      | cons h1 h2 => exact ⟨_, _, h1, deliver_sentTo.2 h2⟩

omit [Host] in
theorem findReceivers_named {reg : List (String × Nat)} : ∀ {ts : List Term} {as : List Nat},
    findReceivers reg ts = .ok as ↔ Named reg ts as
  | [], as => by
    simp only [findReceivers, Ev.ok.injEq]
    exact ⟨fun h => h ▸ .nil, fun h => by cases h; rfl⟩
  | t :: ts, as => by
    have key : ∀ f : String, ((match reg.lookup f with
        | some a => (findReceivers reg ts).map (a :: ·)
        | none => .err (.py "KeyError")) = .ok as ↔ ∃ a as', reg.lookup f = some a ∧ Named reg ts as' ∧ as = a :: as') := by
      intro f
      cases reg.lookup f with
      | none => simp
      | some a =>
        simp only [Ev.map_eq_ok, findReceivers_named, Option.some.injEq, exists_and_left, exists_eq_left']
        exact ⟨fun ⟨x, h1, h2⟩ => ⟨x, h1, h2.symm⟩, fun ⟨x, h1, h2⟩ => ⟨x, h1, h2.symm⟩⟩
    have none : findReceivers reg (t :: ts) = .err (.py "KeyError") ∨
        ∃ f, (t = .lit f [] [] ∨ t = .str f) ∧ findReceivers reg (t :: ts) = (match reg.lookup f with
        | some a => (findReceivers reg ts).map (a :: ·)
        | none => .err (.py "KeyError")) := by
      cases t with
      | str f => exact .inr ⟨f, .inr rfl, by simp only [findReceivers]; rfl⟩
      | lit f as xs =>
        cases as <;> cases xs
        · exact .inr ⟨f, .inl rfl, by simp only [findReceivers]; rfl⟩
        all_goals exact .inl (by simp [findReceivers])
      | _ => exact .inl (by simp [findReceivers])
    constructor
    · intro h
      rcases none with h1 | ⟨f, h1, h2⟩
      · rw [h1] at h; cases h
      · rw [h2, key] at h
        obtain ⟨a, as', h3, h4, rfl⟩ := h
        rcases h1 with rfl | rfl
        · exact .atom h3 h4
        · exact .str h3 h4
    · intro h
      cases h with
      | atom h1 h2 => simp [findReceivers, h1, findReceivers_named.2 h2]
      | str h1 h2 => simp [findReceivers, h1, findReceivers_named.2 h2]

omit [Host] in
theorem findReceivers_err {reg : List (String × Nat)} : ∀ {ts : List Term} {e : Err}, findReceivers reg ts = .err e → e = .py "KeyError"
  | [], e, h => by simp [findReceivers] at h
  | t :: ts, e, h => by
    unfold findReceivers at h
    dsimp only at h
    split at h
    · cases hf : findReceivers reg ts with
      | ok => simp [hf] at h
      | err e' => simp [hf, Ev.map, Ev.bind] at h; exact h ▸ findReceivers_err hf
      | oof => simp [hf, Ev.map, Ev.bind] at h
    · simp at h; exact h.symm

omit [Host] in
theorem findReceivers_ne_oof {reg : List (String × Nat)} : ∀ (ts : List Term), findReceivers reg ts ≠ .oof
  | [], h => by simp [findReceivers] at h
  | t :: ts, h => by
    unfold findReceivers at h
    dsimp only at h
    split at h
    · cases hf : findReceivers reg ts with
      | ok => simp [hf] at h
      | err e' => simp [hf, Ev.map, Ev.bind] at h
      | oof => exact findReceivers_ne_oof ts hf
    · cases h

omit [Host] in
theorem findReceivers_unknown {reg : List (String × Nat)} : ∀ {ts : List Term},
    Unknown reg ts → findReceivers reg ts = .err (.py "KeyError")
  | [], h => by simp [Unknown] at h
  | t :: ts, h => by
    cases hf : findReceivers reg (t :: ts) with
    | ok as =>
      exfalso
      obtain ⟨u, hu, h⟩ := h
      have := findReceivers_named.1 hf
      clear hf
      generalize t :: ts = us at hu this
      induction this with
      | nil => simp at hu
      | atom h1 _ ih =>
        rcases List.mem_cons.1 hu with rfl | hu
        · rw [h _ (.inl rfl)] at h1; cases h1
        · exact ih hu
      | str h1 _ ih =>
        rcases List.mem_cons.1 hu with rfl | hu
        · rw [h _ (.inr rfl)] at h1; cases h1
        · exact ih hu
    | err e => rw [findReceivers_err hf]
    | oof => exact absurd hf (findReceivers_ne_oof _)

omit [Host] in
theorem receiverTerms_iff {r : Term} {ts : List Term} : receiverTerms r = .ok ts ↔ NameList r ts := by
  constructor
  · intro h
    cases r with
    | tup => cases h; exact .tup
    | cons => exact .list h
    | _ => cases h; exact .one (by simp) (by simp)
  · intro h
    cases h with
    | tup => rfl
    | list h => exact h
    | one h h' =>
      cases r with
      | tup ts => exact absurd rfl (h ts)
      | cons a b => exact absurd rfl (h' a b)
      | _ => rfl

omit [Host] in
theorem force_broadcast {f : String} {tr : Trigger} {gt : GoalType} (h : force true f = some (tr, gt)) :
    Force f tr gt ∧ (f = "tell" ∨ f = "untell" ∨ f = "achieve") := by
  simp only [force, if_true] at h
  repeat' split at h
  all_goals first | (subst_vars; cases h; exact ⟨by constructor, by simp⟩) | cases h

omit [Host] in
theorem force_iff {f : String} {tr : Trigger} {gt : GoalType} : force false f = some (tr, gt) ↔ Force f tr gt := by
  constructor
  · intro h
    unfold force at h
    repeat' split at h
    all_goals first | (subst_vars; cases h; constructor) | cases h
  · intro h
    cases h <;> rfl

omit [Host] in
theorem Force.is_tell {tr : Trigger} {gt : GoalType} (h : Force "tell" tr gt) : tr = .addition ∧ gt = .belief := by
  have := force_iff.2 h
  cases this
  exact ⟨rfl, rfl⟩

omit [Host] in
theorem Force.is_untell {tr : Trigger} {gt : GoalType} (h : Force "untell" tr gt) : tr = .removal ∧ gt = .belief := by
  have := force_iff.2 h
  cases this
  exact ⟨rfl, rfl⟩

omit [Host] in
theorem Force.is_achieve {tr : Trigger} {gt : GoalType} (h : Force "achieve" tr gt) : tr = .addition ∧ gt = .achievement := by
  have := force_iff.2 h
  cases this
  exact ⟨rfl, rfl⟩

end

end Verif
