import Verif.Lemmas.AnnotGround
import Verif.Lemmas.Fuel

/-! Annotated unification of literals with ground annotations: logical meaning. -/

namespace Verif

variable [Arith]

theorem denL_val_of {σ : Asg} : ∀ {ts : List Term}, (∀ t ∈ ts, ∀ v, t.val = some v → Den σ t v) →
    ∀ w, Term.valL ts = some w → DenL σ ts w
  | [], _, w, h => by simp [Term.valL] at h; simp [DenL, h]
  | t :: ts, ih, w, h => by
    simp only [Term.valL, Option.bind_eq_some_iff, Option.map_eq_some_iff] at h
    obtain ⟨a, h1, b, h2, rfl⟩ := h
    exact ⟨a, b, ih t (by simp) a h1, denL_val_of (fun t ht => ih t (by simp [ht])) b h2, rfl⟩

/-- A term with a value denotes it. -/
theorem den_of_val {σ : Asg} : ∀ (t : Term) (v : Val), t.val = some v → Den σ t v := by
  intro t
  induction t using Term.ind with
  | lit f as xs ih _ =>
    intro v h
    simp only [Term.val, Option.map_eq_some_iff] at h
    obtain ⟨w, h, rfl⟩ := h
    exact ⟨w, denL_val_of ih w h, rfl⟩
  | tup xs ih => intro v h; exact denL_val_of ih v h
  | cons h t ih1 ih2 =>
    intro v hv
    simp only [Term.val, Option.bind_eq_some_iff, Option.map_eq_some_iff] at hv
    obtain ⟨a, h1, b, h2, rfl⟩ := hv
    exact ⟨a, b, ih1 a h1, ih2 b h2, rfl⟩
  | bool b => intro v h; simp [Term.val] at h; simp [Den, h]
  | num b => intro v h; simp [Term.val] at h; simp [Den, h]
  | str b => intro v h; simp [Term.val] at h; simp [Den, h]
  | _ => intro v h; simp [Term.val] at h

/-- Closed terms agree iff their values are equal. -/
theorem agree_closed {σ : Asg} {x y : Term} (hx : x.Closed) (hy : y.Closed) : Agree σ x y ↔ y.val = x.val := by
  obtain ⟨v, hv⟩ := val_some x hx
  obtain ⟨w, hw⟩ := val_some y hy
  constructor
  · rintro ⟨u, h1, h2⟩
    have e1 := den_unique x hx.noWild _ _ h1 (den_of_val x v hv)
    have e2 := den_unique y hy.noWild _ _ h2 (den_of_val y w hw)
    rw [hv, hw, ← e1, ← e2]
  · intro h
    exact ⟨v, den_of_val x v hv, den_of_val y v (h.trans hv)⟩

/-- Ground annotations can be matched iff every left one occurs on the right. -/
theorem annotsMatch_closed {σ : Asg} : ∀ {xs ys : List Term}, (∀ x ∈ xs, x.Closed) → (∀ y ∈ ys, y.Closed) →
    xs.Pairwise (fun x y => x.val ≠ y.val) → (AnnotsMatch σ xs ys ↔ ∀ x ∈ xs, ∃ y ∈ ys, y.val = x.val)
  | [], ys, _, _, _ => by
    simp only [List.not_mem_nil, false_imp_iff, implies_true, iff_true]
    exact ⟨[], ⟨ys, .refl _⟩, rfl, by simp⟩
  | x :: xs, ys, hx, hy, hd => by
    rw [List.pairwise_cons] at hd
    constructor
    · rintro ⟨zs, ⟨rest, hp⟩, hl, ha⟩ u hu
      obtain ⟨i, hi, rfl⟩ := List.getElem_of_mem hu
      have hz : zs[i]'(by omega) ∈ ys := hp.subset (by simp)
      refine ⟨zs[i]'(by omega), hz, (agree_closed (σ := σ) (hx _ hu) (hy _ hz)).1 (ha ((x :: xs)[i], zs[i]'(by omega)) ?_)⟩
      exact List.mem_iff_getElem.2 ⟨i, by simp at hi hl ⊢; omega, by simp⟩
    · intro h
      obtain ⟨z, hz, he⟩ := h x (by simp)
      obtain ⟨l₁, l₂, rfl⟩ := List.append_of_mem hz
      have hp : (z :: (l₁ ++ l₂)).Perm (l₁ ++ z :: l₂) := List.perm_middle.symm
      obtain ⟨zs, ⟨rest, h1⟩, h2, h3⟩ := (annotsMatch_closed (σ := σ) (xs := xs) (ys := l₁ ++ l₂) (fun u hu => hx u (by simp [hu]))
        (fun u hu => hy u (hp.subset (by simp [hu]))) hd.2).2 (by
          intro u hu
          obtain ⟨y, hy', he'⟩ := h u (by simp [hu])
          rcases List.mem_cons.1 (hp.symm.subset hy') with rfl | hy''
          · exact absurd (he.symm.trans he') (hd.1 u hu)
          · exact ⟨y, hy'', he'⟩)
      refine ⟨z :: zs, ⟨rest, (h1.cons z).trans hp⟩, by simp [h2], ?_⟩
      intro p hp'
      rcases List.mem_cons.1 (by simpa using hp') with rfl | hp'
      · exact (agree_closed (hx x (by simp)) (hy z hz)).2 he
      · exact h3 p hp'

/-- Ground annotations: annotated unification of literals finds exactly the common
assignments. -/
theorem ua_lit_closed {c : Bool} {n : Nat} {f g : String} {as bs xs ys : List Term} {b : BSt}
    (hsc : ScopeOK c b.scope) (hl : (Term.lit f as xs).LitOK c) (hr : (Term.lit g bs ys).Parts (Term.Tame c))
    (hc : LitCompat (.lit f as xs) (.lit g bs ys))
    (hx : ∀ x ∈ xs, x.Closed) (hy : ∀ y ∈ ys, y.Closed) (hd : xs.Pairwise fun x y => x.val ≠ y.val) :
    UaOK c (fun σ => Agree σ (.lit f as xs) (.lit g bs ys) ∧ AnnotsMatch σ xs ys) b
      (uaStart n (.lit f as xs) (.lit g bs ys) b) := by
  match n with
  | 0 => exact ⟨by simp [uaStart], by simp [uaStart]⟩
  | 1 => exact ⟨by simp [uaStart, uaLit, evaluate], by simp [uaStart, uaLit, evaluate]⟩
  | n + 2 =>
    rw [uaLit_lit]
    refine UaOK.yieldIf (b := b.mark) rfl ?_
    have k := litlit_ok (b := b.mark) (xs := xs) (ys := ys) (n := n + 1) hsc hl.1 hr.1 hc.args.1
    have hm : ∀ (b₁ b₂ : BSt) (a : Bool), matchAnnots (uaStart (n + 1)) xs ys b₁ = .ok a b₂ →
        b₂.scope = b₁.scope ∧ ∀ σ, a = true ↔ AnnotsMatch σ xs ys := by
      intro b₁ b₂ a h
      obtain ⟨N, hN⟩ := ua_ground_all (fun x h => ⟨hx x h, (hl.2 x h).2⟩) hy
      have h' := Res.mono (f := fun k => matchAnnots (uaStart k) xs ys b₁)
        (fun k => matchAnnots_le (uaStart_succ k) xs ys b₁) (n := n + 1) (m := n + 1 + N) (by omega) (by simp [h])
      simp only [h] at h'
      obtain ⟨a', b', hs, h1, h2⟩ := matchAnnots_ground xs ys (hN (n + 1 + N) (by omega)) hd b₁
      rw [h'] at h1
      cases h1
      exact ⟨hs, fun σ => h2.trans (annotsMatch_closed hx hy hd).symm⟩
    constructor
    · intro b' h
      simp only [Res.bind_eq_ok] at h
      obtain ⟨a, b₁, h1, h⟩ := h
      cases a with
      | false => simp at h
      | true =>
        have y := k.yes b₁ h1
        obtain ⟨hs, hm⟩ := hm _ _ _ (by simpa using h)
        rw [hs]
        refine ⟨y.1, fun σ => ?_⟩
        rw [y.2]
        exact ⟨fun hh => ⟨hh.1, hh.2, (hm σ).1 rfl⟩, fun hh => ⟨hh.1, hh.2.1⟩⟩
    · intro b' h σ hσ
      simp only [Res.bind_eq_ok] at h
      obtain ⟨a, b₁, h1, h⟩ := h
      cases a with
      | false => exact fun hh => k.no b₁ h1 σ hσ hh.1
      | true =>
        obtain ⟨hs, hm⟩ := hm _ _ _ (by simpa using h)
        exact fun hh => by simpa using (hm σ).2 hh.2

end Verif
