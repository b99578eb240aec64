import Verif.Spec.Annot
import Verif.Lemmas.AnnotTrail

/-! Annotated unification: logical meaning. -/

namespace Verif

variable [Arith]

/-- What the generator says about the assignments when `l` and `r` are to agree
(`goal`). -/
structure UaOK (c : Bool) (goal : Asg → Prop) (b : BSt) (x : Res BSt (Option Nat)) : Prop where
  yes : ∀ d b', x = .ok (some d) b' → ScopeOK c b'.scope ∧ ∀ σ, Models σ b'.scope ↔ Models σ b.scope ∧ goal σ
  no : ∀ b', x = .ok none b' → ∀ σ, Models σ b.scope → ¬ goal σ

theorem UaOK.yieldIf {c : Bool} {g : Asg → Prop} {b₀ b : BSt} {k : Nat} {x : Res BSt Bool} (hs : b.scope = b₀.scope)
    (h : UOK c g b x) : UaOK c g b₀ (yieldIf k x) where
  yes := fun d b' hb => by
    obtain ⟨_, h1⟩ := yieldIf_some hb
    rw [← hs]; exact h.yes b' h1
  no := fun b' hb => by
    obtain ⟨b₁, h1, _⟩ := yieldIf_none hb
    rw [← hs]; exact h.no b₁ h1

/-- Annotated unification of a term without annotations is plain unification. -/
theorem ua_plain {c : Bool} {n : Nat} {l r : Term} {b : BSt} (hsc : ScopeOK c b.scope) (hl : l.Tame c) (hr : r.Tame c)
    (hc : Compat l r) (ha : l.annots = []) : UaOK c (Agree · l r) b (uaStart n l r b) := by
  cases n with
  | zero => exact ⟨by simp [uaStart], by simp [uaStart]⟩
  | succ n =>
    have gen : UaOK c (Agree · l r) b (yieldIf b.ncp (unify n l r b.mark)) :=
      .yieldIf (b := b.mark) rfl (unify_ok n l r b.mark hsc hl hr hc)
    cases l with
    | lit f as xs =>
      simp only [Term.annots] at ha; subst ha
      simp only [uaStart, uaLit]
      have key := litUnify_ok (unify_ok n) (n := n) (f := f) (as := as) (xs := []) (r := r) (b := b.newCp.2) hsc hl hr hc
      cases he : evaluate n b.scope r with
      | oof => exact ⟨by simp, by simp⟩
      | err e => exact ⟨by simp, by simp⟩
      | ok r' =>
        have hi := evaluate_spec hsc hr he
        simp only [Res.lift_ok, Res.bind_ok]
        unfold litUnify at key
        simp only [BSt.newCp, he, Res.lift_ok, Res.bind_ok] at key
        split
        · exact .yieldIf (b := b.newCp.2) rfl key
        · constructor
          · intro d b' hb
            simp at hb
            obtain ⟨_, rfl⟩ := hb
            exact key.yes _ rfl
          · simp
        · refine .yieldIf (b := b.mark) rfl ?_
          have hc' := hc.eval hi he
          have k2 := litUnify_ok (unify_ok n) (n := n) (f := f) (as := as) (xs := []) (r := r') (b := b.mark) hsc hl hi.tame hc'
          refine UOK.congr (fun σ hσ => agree_eval hi hσ) ?_
          cases hx : litUnify n (unify n) f as [] r' b.mark with
          | oof => exact .oof
          | err => exact .err
          | ok a b₁ =>
            rw [hx] at k2
            cases a
            · exact k2
            · simp only [Res.bind_ok, if_true, matchRight]
              split
              · exact k2
              · exact .err
    | _ => exact gen

theorem models_same {b b' : BSt} (h : Same b b') {σ : Asg} : Models σ b'.scope ↔ Models σ b.scope := by
  rw [h.scope]

/-- The first right annotation that agrees is taken, and all before it cannot agree. -/
theorem findAnnot_ok {c : Bool} {n : Nat} {left : Term} (hl : left.Tame c) (ha : left.annots = []) :
    ∀ (rs : List Term) (b : BSt), ScopeOK c b.scope → (∀ r ∈ rs, r.Tame c ∧ Compat left r) →
      (∀ rest b', findAnnot (uaStart n) left rs b = .ok (some rest) b' →
        ScopeOK c b'.scope ∧ ∃ z, (z :: rest).Perm rs ∧ ∀ σ, Models σ b'.scope ↔ Models σ b.scope ∧ Agree σ left z) ∧
      (∀ b', findAnnot (uaStart n) left rs b = .ok none b' →
        Same b b' ∧ ∀ r ∈ rs, ∀ σ, Models σ b.scope → ¬ Agree σ left r)
  | [], b, _, _ => ⟨by simp [findAnnot], fun b' h => by simp [findAnnot] at h; subst h; exact ⟨.refl _, by simp⟩⟩
  | r :: rs, b, hsc, hrs => by
    have hr := hrs r (by simp)
    have hu := ua_plain (n := n) hsc hl hr.1 hr.2 ha
    have ht := ua_trail n left r b
    constructor
    · intro rest b' h
      simp only [findAnnot, Res.bind_eq_ok] at h
      obtain ⟨y, b₁, h1, h⟩ := h
      cases y with
      | some d =>
        simp at h; obtain ⟨rfl, rfl⟩ := h
        have := hu.yes d b₁ h1
        exact ⟨this.1, r, .refl _, this.2⟩
      | none =>
        have hs := ht.none b₁ h1
        simp only [Res.bind_eq_ok] at h
        obtain ⟨o, b₂, h2, h⟩ := h
        simp at h
        obtain ⟨⟨rest', rfl, rfl⟩, rfl⟩ := h
        have hb₁ : ScopeOK c b₁.scope := by rw [hs.scope]; exact hsc
        obtain ⟨i1, z, i2, i3⟩ := (findAnnot_ok hl ha rs b₁ hb₁ fun r hr => hrs r (by simp [hr])).1 _ _ h2
        refine ⟨i1, z, (List.Perm.swap r z rest').trans (i2.cons r), fun σ => ?_⟩
        rw [i3, models_same hs]
    · intro b' h
      simp only [findAnnot, Res.bind_eq_ok] at h
      obtain ⟨y, b₁, h1, h⟩ := h
      cases y with
      | some d => simp at h
      | none =>
        have hs := ht.none b₁ h1
        simp only [Res.bind_eq_ok] at h
        obtain ⟨o, b₂, h2, h⟩ := h
        simp at h
        obtain ⟨rfl, rfl⟩ := h
        have hb₁ : ScopeOK c b₁.scope := by rw [hs.scope]; exact hsc
        obtain ⟨i1, i2⟩ := (findAnnot_ok hl ha rs b₁ hb₁ fun r hr => hrs r (by simp [hr])).2 _ h2
        refine ⟨hs.trans i1, fun r' hr' σ hσ => ?_⟩
        rcases List.mem_cons.1 hr' with rfl | hr'
        · exact hu.no b₁ h1 σ hσ
        · exact i2 r' hr' σ ((models_same hs).2 hσ)

theorem agreeEach_cons {σ : Asg} {x z : Term} {xs zs : List Term} :
    AgreeEach σ (x :: xs) (z :: zs) ↔ Agree σ x z ∧ AgreeEach σ xs zs := by
  simp only [AgreeEach, List.zip_cons_cons, List.length_cons, List.mem_cons]
  constructor
  · rintro ⟨h1, h2⟩
    exact ⟨h2 (x, z) (Or.inl rfl), by omega, fun p hp => h2 p (Or.inr hp)⟩
  · rintro ⟨h1, h2, h3⟩
    exact ⟨by omega, fun p hp => hp.elim (fun e => e ▸ h1) (h3 p)⟩

/-- Greedy matching: success gives an injective matching and a most general unifier for it. -/
theorem matchAnnots_ok {c : Bool} {n : Nat} : ∀ (xs rs : List Term) (b b' : BSt), ScopeOK c b.scope →
    (∀ x ∈ xs, x.Tame c ∧ x.annots = []) → (∀ r ∈ rs, r.Tame c) → (∀ x ∈ xs, ∀ r ∈ rs, Compat x r) →
    matchAnnots (uaStart n) xs rs b = .ok true b' →
    ScopeOK c b'.scope ∧ ∃ zs, Chosen zs rs ∧ ∀ σ, Models σ b'.scope ↔ Models σ b.scope ∧ AgreeEach σ xs zs
  | [], rs, b, b', hsc, _, _, _, h => by
    simp [matchAnnots] at h; subst h
    exact ⟨hsc, [], ⟨rs, .refl _⟩, fun σ => by simp [AgreeEach]⟩
  | x :: xs, rs, b, b', hsc, hx, hr, hc, h => by
    simp only [matchAnnots, Res.bind_eq_ok] at h
    obtain ⟨o, b₁, h1, h⟩ := h
    cases o with
    | none => simp at h
    | some rest =>
      have hx0 := hx x (by simp)
      obtain ⟨i1, z, i2, i3⟩ := (findAnnot_ok hx0.1 hx0.2 rs b hsc
        fun r hr' => ⟨hr r hr', hc x (by simp) r hr'⟩).1 _ _ h1
      have hsub : ∀ r ∈ rest, r ∈ rs := fun r hr => i2.subset (by simp [hr])
      obtain ⟨j1, zs, ⟨rest', j2⟩, j3⟩ := matchAnnots_ok xs rest b₁ b' i1 (fun x hx' => hx x (by simp [hx']))
        (fun r hr' => hr r (hsub r hr')) (fun x hx' r hr' => hc x (by simp [hx']) r (hsub r hr')) h
      refine ⟨j1, z :: zs, ⟨rest', ((j2.cons z).trans i2)⟩, fun σ => ?_⟩
      rw [j3, i3, agreeEach_cons, and_assoc]


/-- Unifying two literals does not look at their annotations. -/
theorem litUnify_annots {n : Nat} {rec : Term → Term → BSt → Res BSt Bool} {f g : String} {as bs xs ys : List Term} {b : BSt} :
    litUnify n rec f as xs (.lit g bs ys) b = litUnify n rec f as [] (.lit g bs []) b := by
  unfold litUnify
  cases n with
  | zero => simp [evaluate]
  | succ n => simp [evaluate]

omit [Arith] in
theorem LitCompat.args {f g : String} {as bs xs ys : List Term} (h : LitCompat (.lit f as xs) (.lit g bs ys)) :
    Compat (.lit f as []) (.lit g bs []) ∧ ∀ x ∈ xs, ∀ y ∈ ys, Compat x y := by
  rcases h with ⟨h, h'⟩ | h | h
  · exact ⟨Or.inl (by simp; exact ⟨h.1, h'.1⟩), fun x hx y hy => Or.inl ⟨h.2 x hx, h'.2 y hy⟩⟩
  · exact ⟨Or.inr (Or.inl (by simp; exact h.1)), fun x hx y hy => Or.inr (Or.inl (h.2 x hx))⟩
  · exact ⟨Or.inr (Or.inr (by simp; exact h.1)), fun x hx y hy => Or.inr (Or.inr (h.2 y hy))⟩

/-- Unification of two literals, whatever their annotations. -/
theorem litlit_ok {c : Bool} {n : Nat} {f g : String} {as bs xs ys : List Term} {b : BSt} (hsc : ScopeOK c b.scope)
    (hl : ∀ a ∈ as, a.Tame c) (hr : ∀ a ∈ bs, a.Tame c) (hc : Compat (.lit f as []) (.lit g bs [])) :
    UOK c (fun σ => Agree σ (.lit f as xs) (.lit g bs ys)) b (litUnify n (unify n) f as xs (.lit g bs ys) b) := by
  rw [litUnify_annots]
  refine UOK.congr (fun σ _ => ?_) (litUnify_ok (unify_ok n) hsc ?_ ?_ hc)
  · rw [agree_lit, agree_lit]
  · rw [Term.tame_lit]; exact ⟨by simp, hl⟩
  · rw [Term.tame_lit]; exact ⟨by simp, hr⟩

theorem uaLit_lit {n : Nat} {f g : String} {as bs xs ys : List Term} {b : BSt} :
    uaStart (n + 2) (.lit f as xs) (.lit g bs ys) b = yieldIf b.ncp
      ((litUnify (n + 1) (unify (n + 1)) f as xs (.lit g bs ys) b.mark).bind fun ok b =>
        if ok then matchAnnots (uaStart (n + 1)) xs ys b else .ok false b) := by
  simp only [uaStart, uaLit, evaluate, Res.lift_ok, Res.bind_ok, matchRight]

/-- Annotated unification of two literals. -/
theorem ua_lit {c : Bool} {n : Nat} {f g : String} {as bs xs ys : List Term} {b b' : BSt} {d : Nat}
    (hsc : ScopeOK c b.scope) (hl : (Term.lit f as xs).LitOK c) (hr : (Term.lit g bs ys).Parts (Term.Tame c))
    (hc : LitCompat (.lit f as xs) (.lit g bs ys))
    (h : uaStart n (.lit f as xs) (.lit g bs ys) b = .ok (some d) b') :
    ScopeOK c b'.scope ∧ ∃ zs, Chosen zs ys ∧ ∀ σ, Models σ b'.scope ↔
      Models σ b.scope ∧ Agree σ (.lit f as xs) (.lit g bs ys) ∧ AgreeEach σ xs zs := by
  match n, h with
  | 0, h => simp [uaStart] at h
  | 1, h => simp [uaStart, uaLit, evaluate] at h
  | n + 2, h =>
    rw [uaLit_lit] at h
    obtain ⟨_, h⟩ := yieldIf_some h
    simp only [Res.bind_eq_ok] at h
    obtain ⟨a, b₁, h1, h⟩ := h
    cases a with
    | false => simp at h
    | true =>
      have hc' := hc.args
      have k := (litlit_ok (b := b.mark) (xs := xs) (ys := ys) (n := n + 1) hsc hl.1 hr.1 hc'.1).yes b₁ h1
      obtain ⟨i1, zs, i2, i3⟩ := matchAnnots_ok xs ys b₁ b' k.1 hl.2 hr.2 hc'.2 (by simpa using h)
      refine ⟨i1, zs, i2, fun σ => ?_⟩
      rw [i3, k.2, and_assoc]
      exact Iff.rfl

/-- No answer, at most one left annotation: nothing matches. -/
theorem ua_lit_none {c : Bool} {n : Nat} {f g : String} {as bs xs ys : List Term} {b b' : BSt}
    (hsc : ScopeOK c b.scope) (hl : (Term.lit f as xs).LitOK c) (hr : (Term.lit g bs ys).Parts (Term.Tame c))
    (hc : LitCompat (.lit f as xs) (.lit g bs ys)) (hx : xs.length ≤ 1)
    (h : uaStart n (.lit f as xs) (.lit g bs ys) b = .ok none b') :
    ∀ σ, Models σ b.scope → ¬ (Agree σ (.lit f as xs) (.lit g bs ys) ∧ AnnotsMatch σ xs ys) := by
  match n, h with
  | 0, h => simp [uaStart] at h
  | 1, h => simp [uaStart, uaLit, evaluate] at h
  | n + 2, h =>
    rw [uaLit_lit] at h
    obtain ⟨b₂, h, _⟩ := yieldIf_none h
    simp only [Res.bind_eq_ok] at h
    obtain ⟨a, b₁, h1, h⟩ := h
    have hc' := hc.args
    have k := litlit_ok (b := b.mark) (xs := xs) (ys := ys) (n := n + 1) hsc hl.1 hr.1 hc'.1
    intro σ hσ
    cases a with
    | false => exact fun hh => k.no b₁ h1 σ hσ hh.1
    | true =>
      have y := k.yes b₁ h1
      rintro ⟨hag, zs, ⟨rest, hch⟩, hlen, hea⟩
      simp only [if_true] at h
      match xs, hx, h with
      | [], _, h => simp [matchAnnots] at h
      | [x], _, h =>
        simp only [matchAnnots, Res.bind_eq_ok] at h
        obtain ⟨o, b₃, h3, h⟩ := h
        cases o with
        | some _ => simp at h
        | none =>
          have hx0 := hl.2 x (by simp)
          have := ((findAnnot_ok hx0.1 hx0.2 ys b₁ y.1 fun r hr' => ⟨hr.2 r hr', hc'.2 x (by simp) r hr'⟩).2 _ h3).2
          match zs, hlen, hea, hch with
          | [z], _, hea, hch =>
            exact this z (hch.subset (by simp)) σ ((y.2 σ).2 ⟨hσ, hag⟩) (hea (x, z) (by simp))

end Verif
