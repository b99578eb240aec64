import Verif.Lemmas.Annot
import Verif.Lemmas.Ground
import Verif.Lemmas.Frame

/-! Annotated unification with ground annotations. -/

namespace Verif

variable [Arith]

/-- For `x` and `y`, annotated unification answers whether the values are equal, and
leaves the scope alone. -/
def GroundPair (n : Nat) (x y : Term) : Prop :=
  ∀ b : BSt, ∃ b' : BSt, b'.scope = b.scope ∧
    uaStart n x y b = .ok (if x.val = y.val then some b.ncp else none) b'

/-- A ground pair without left annotations: answers whether the values are equal, and
leaves the scope alone. -/
theorem ua_ground {x y : Term} (hx : x.Closed) (hy : y.Closed) (ha : x.annots = []) :
    ∃ N, ∀ n, N ≤ n → GroundPair n x y := by
  obtain ⟨N, hN⟩ := unify_says _ x y rfl hx hy
  simp only at hN
  have gen : ∀ n, N ≤ n → ∀ b : BSt, ∃ b' : BSt, b'.scope = b.scope ∧
      yieldIf b.ncp (unify n x y b.mark) = .ok (if x.val = y.val then some b.ncp else none) b' := by
    intro n hn b
    rw [hN n hn b.mark]
    by_cases h : x.val = y.val
    · exact ⟨b.mark, rfl, by simp [h, yieldIf]⟩
    · exact ⟨reroll b.mark b.ncp, (same_reroll (.refl _)).scope, by simp [h, yieldIf]⟩
  refine ⟨N + 3, fun n hn b => ?_⟩
  obtain ⟨k, rfl⟩ : ∃ k, n = k + 2 := ⟨n - 2, by omega⟩
  cases x with
  | lit f as xs =>
    simp only [Term.annots] at ha; subst ha
    have hu := hN (k + 2) (by omega) b.mark
    have e : evaluate (k + 1) b.scope y = .ok y := by cases y <;> simp at hy <;> simp [evaluate]
    simp only [uaStart, uaLit, e, Res.lift_ok, Res.bind_ok]
    have hl : litUnify (k + 1) (unify (k + 1)) f as [] y b.mark =
        .ok (decide ((Term.lit f as []).val = y.val)) b.mark := by
      rw [← hu, unify]; simp [Term.isObj, methUnify]
    split
    · simp at hy
    · simp at hy
    · rw [hl]
      by_cases h : (Term.lit f as []).val = y.val
      · have : ∃ g bs ys, y = .lit g bs ys := by
          cases y with
          | lit g bs ys => exact ⟨_, _, _, rfl⟩
          | tup ts =>
            obtain ⟨w, hw⟩ := valL_some (ts := ts) (by simpa using hy)
            have := valL_isL hw
            simp only [Term.val, hw, Option.map_eq_some_iff] at h
            obtain ⟨a, _, rfl⟩ := h
            simp [Val.IsL] at this
          | cons a b =>
            simp only [Term.val] at h
            cases h1 : a.val <;> cases h2 : b.val <;> cases h3 : Term.valL as <;> simp_all
            · obtain ⟨w, hw⟩ := valL_some (ts := as) (by simpa using hx); simp_all
            · obtain ⟨w, hw⟩ := valL_some (ts := as) (by simpa using hx); simp_all
            · obtain ⟨w, hw⟩ := valL_some (ts := as) (by simpa using hx); simp_all
          | bool => simp [Term.val] at h
          | num => simp [Term.val] at h
          | str => simp [Term.val] at h
          | _ => simp at hy
        obtain ⟨g, bs, ys, rfl⟩ := this
        exact ⟨b.mark, rfl, by simp [h, yieldIf, matchRight, matchAnnots]⟩
      · exact ⟨reroll b.mark b.ncp, (same_reroll (.refl _)).scope, by simp [h, yieldIf]⟩
  | _ => exact gen (k + 1) (by omega) b

theorem ua_ground_all {xs ys : List Term} (hx : ∀ x ∈ xs, x.Closed ∧ x.annots = []) (hy : ∀ y ∈ ys, y.Closed) :
    ∃ N, ∀ n, N ≤ n → ∀ x ∈ xs, ∀ y ∈ ys, GroundPair n x y := by
  induction xs with
  | nil => exact ⟨0, by simp⟩
  | cons x xs ih =>
    obtain ⟨N, hN⟩ := ih fun x h => hx x (by simp [h])
    have : ∃ M, ∀ n, M ≤ n → ∀ y ∈ ys, GroundPair n x y := by
      clear hN ih
      induction ys with
      | nil => exact ⟨0, by simp⟩
      | cons y ys ih =>
        obtain ⟨M, hM⟩ := ih fun y h => hy y (by simp [h])
        obtain ⟨K, hK⟩ := ua_ground (hx x (by simp)).1 (hy y (by simp)) (hx x (by simp)).2
        refine ⟨M + K, fun n hn z hz => ?_⟩
        rcases List.mem_cons.1 hz with rfl | hz
        · exact hK n (by omega)
        · exact hM n (by omega) z hz
    obtain ⟨M, hM⟩ := this
    refine ⟨N + M, fun n hn z hz => ?_⟩
    rcases List.mem_cons.1 hz with rfl | hz
    · exact hM n (by omega)
    · exact hN n (by omega) z hz

theorem findAnnot_ground {n : Nat} {x : Term} : ∀ (rs : List Term), (∀ r ∈ rs, GroundPair n x r) → ∀ b : BSt,
    ∃ o b', b'.scope = b.scope ∧ findAnnot (uaStart n) x rs b = .ok o b' ∧
      (o = none ↔ ∀ r ∈ rs, r.val ≠ x.val) ∧ ∀ rest, o = some rest → ∃ z, z.val = x.val ∧ (z :: rest).Perm rs
  | [], _, b => ⟨none, b, rfl, rfl, by simp, by simp⟩
  | r :: rs, hr, b => by
    obtain ⟨b₁, hs, h1⟩ := hr r (by simp) b
    by_cases h : x.val = r.val
    · rw [if_pos h] at h1
      exact ⟨some rs, b₁, hs, by simp [findAnnot, h1], by simp [h], by simpa using ⟨r, h.symm, .refl _⟩⟩
    · rw [if_neg h] at h1
      obtain ⟨o, b₂, hs', h2, i1, i2⟩ := findAnnot_ground rs (fun r h => hr r (by simp [h])) b₁
      refine ⟨o.map (r :: ·), b₂, hs'.trans hs, by simp [findAnnot, h1, h2], ?_, ?_⟩
      · simp only [Option.map_eq_none_iff, i1, List.mem_cons, forall_eq_or_imp]
        exact ⟨fun hh => ⟨fun e => h e.symm, hh⟩, fun hh => hh.2⟩
      · intro rest he
        simp only [Option.map_eq_some_iff] at he
        obtain ⟨rest', rfl, rfl⟩ := he
        obtain ⟨z, hz, hp⟩ := i2 rest' rfl
        exact ⟨z, hz, (List.Perm.swap r z rest').trans (hp.cons r)⟩

theorem matchAnnots_ground {n : Nat} : ∀ (xs rs : List Term), (∀ x ∈ xs, ∀ r ∈ rs, GroundPair n x r) →
    xs.Pairwise (fun x y => x.val ≠ y.val) → ∀ b : BSt,
    ∃ a b', b'.scope = b.scope ∧ matchAnnots (uaStart n) xs rs b = .ok a b' ∧
      (a = true ↔ ∀ x ∈ xs, ∃ r ∈ rs, r.val = x.val)
  | [], rs, _, _, b => ⟨true, b, rfl, rfl, by simp⟩
  | x :: xs, rs, hx, hd, b => by
    rw [List.pairwise_cons] at hd
    obtain ⟨o, b₁, hs, h1, i1, i2⟩ := findAnnot_ground rs (hx x (by simp)) b
    cases o with
    | none =>
      refine ⟨false, b₁, hs, by simp [matchAnnots, h1], ?_⟩
      simp only [Bool.false_eq_true, false_iff]
      intro hh
      obtain ⟨r, hr, he⟩ := hh x (by simp)
      exact i1.1 rfl r hr he
    | some rest =>
      obtain ⟨z, hz, hp⟩ := i2 rest rfl
      obtain ⟨a, b₂, hs', h2, j⟩ := matchAnnots_ground xs rest
        (fun y hy r hr => hx y (by simp [hy]) r (hp.subset (by simp [hr]))) hd.2 b₁
      refine ⟨a, b₂, hs'.trans hs, by simp [matchAnnots, h1, h2], j.trans ?_⟩
      constructor
      · intro hh y hy
        rcases List.mem_cons.1 hy with rfl | hy
        · exact ⟨z, hp.subset (by simp), hz⟩
        · obtain ⟨r, hr, he⟩ := hh y hy
          exact ⟨r, hp.subset (by simp [hr]), he⟩
      · intro hh y hy
        obtain ⟨r, hr, he⟩ := hh y (by simp [hy])
        rcases List.mem_cons.1 (hp.symm.subset hr) with rfl | hr'
        · exact absurd (hz.symm.trans he) (hd.1 y hy)
        · exact ⟨r, hr', he⟩

end Verif
