import Verif.Spec.Std
import Verif.Props.Compare

/-!
# `min`, `max` and `sorted`
-/

namespace Verif

theorem tupLt_tri {eq lt : Term → Term → Ev Bool} : ∀ {xs ys : List Term},
    (∀ x ∈ xs, ∀ y ∈ ys, eq x y = eq y x ∧ (lt x y = .ok false → lt y x = .ok false → eq x y = .ok true)) →
    tupLt eq lt true xs ys = .ok false → tupLt eq lt true ys xs = .ok false → tupEq eq xs ys = .ok true
  | [], [], _, _, _ => rfl
  | [], _ :: _, _, h, _ => by simp [tupLt] at h
  | _ :: _, [], _, _, h => by simp [tupLt] at h
  | x :: xs, y :: ys, hf, h, h' => by
    obtain ⟨h1, h2⟩ := hf x (by simp) y (by simp)
    rw [tupLt, Ev.bind_eq_ok] at h h'
    obtain ⟨e, he, h⟩ := h
    obtain ⟨e', he', h'⟩ := h'
    rw [← h1, he] at he'
    cases he'
    rw [tupEq, he, Ev.bind_ok]
    cases e with
    | true =>
      simp only [if_true] at h h' ⊢
      exact tupLt_tri (fun x hx y hy => hf x (by simp [hx]) y (by simp [hy])) h h'
    | false =>
      simp only [Bool.false_eq_true, if_false] at h h'
      rw [h2 h h'] at he
      cases he

/-- Terms without annotations that can be compared are equal if neither is less. -/
theorem pyLt_tri : ∀ (n : Nat) (a b : Term), a.size + b.size ≤ n → a.Bare → b.Bare → pyLt n true a b = .ok false →
    pyLt n true b a = .ok false → pyEq n a b = .ok true
  | 0, a, _, h, _, _, _, _ => by have := size_pos a; omega
  | n + 1, a, b, hn, hba, hbb, h, h' => by
    have ih := pyLt_tri n
    rw [pyLt_shape] at h h'
    rw [pyEq_shape hn]
    cases ha : shape a <;> cases hb : shape b <;> rw [ha, hb] at h h' <;>
      simp only [shapeLt, if_true, Ev.ok.injEq, decide_eq_false_iff_not, reduceCtorEq] at h h'
    · simp only [shapeEq, Ev.ok.injEq, decide_eq_true_eq]
      exact Rat.le_antisymm (Rat.not_lt.1 h') (Rat.not_lt.1 h)
    · simp only [shapeEq, Ev.ok.injEq, decide_eq_true_eq]
      exact Std.le_antisymm (Std.not_lt.1 h') (Std.not_lt.1 h)
    · next f as xs g bs ys =>
      obtain ⟨rfl, ha1, -⟩ := shape_lit ha
      obtain ⟨rfl, hb1, -⟩ := shape_lit hb
      rw [Term.Bare] at hba hbb
      obtain ⟨rfl, hba⟩ := hba
      obtain ⟨rfl, hbb⟩ := hbb
      by_cases hc : as = [] ∧ bs = []
      · obtain ⟨rfl, rfl⟩ := hc
        simp only [and_self, if_true, Ev.ok.injEq, decide_eq_false_iff_not] at h h'
        have : f = g := Std.le_antisymm (Std.not_lt.1 h') (Std.not_lt.1 h)
        simp [shapeEq, this, tupEq, setEq, Ev.allL]
      · rw [if_neg (by rintro ⟨h1, -, h2, -⟩; exact hc ⟨h1, h2⟩)] at h
        rw [if_neg (by rintro ⟨h1, -, h2, -⟩; exact hc ⟨h2, h1⟩)] at h'
        by_cases hd : f ≠ g ∨ as.length ≠ bs.length
        · rw [if_pos hd] at h; cases h
        · have hd' : ¬ (g ≠ f ∨ bs.length ≠ as.length) := by rintro (e | e) <;> exact hd (by first | exact .inl e.symm | exact .inr e.symm)
          rw [if_neg hd] at h
          rw [if_neg hd'] at h'
          have hfg : f = g := Classical.not_not.1 fun hh => hd (.inl hh)
          have := tupLt_tri (fun x hx y hy => ⟨pyEq_symm n x y (by have := ha1 x hx; have := hb1 y hy; omega),
            ih x y (by have := ha1 x hx; have := hb1 y hy; omega) (bareL_mem hba x hx) (bareL_mem hbb y hy)⟩) h h'
          simp [shapeEq, hfg, this, setEq, Ev.allL]
    · next i j =>
      rcases shape_list ha with ⟨xs, rfl, hx⟩ | rfl
      · rcases shape_list hb with ⟨ys, rfl, hy⟩ | rfl
        · simp only [Ev.bind_ok, shapeEq] at h h' ⊢
          exact tupLt_tri (fun x h1 y h2 => ⟨pyEq_symm n x y (by have := hx x h1; have := hy y h2; omega),
            ih x y (by have := hx x h1; have := hy y h2; omega) (shape_list_bare hba ha x h1) (shape_list_bare hbb hb y h2)⟩) h h'
        · simp at h
      · simp at h

/-- The truth value of `<`. -/
def lessB (x y : Term) : Bool := match pyLess x y with
  | .ok b => b
  | _ => false

theorem pyLess_iff {x y : Term} {r : Ev Bool} : Compares .lt x y r ↔ pyLess x y = r :=
  Compares.iff (op := .lt) (Nat.le_refl _)

theorem lessB_ok {x y : Term} (h : ∃ b, Compares .lt x y (.ok b)) : pyLess x y = .ok (lessB x y) := by
  obtain ⟨b, hb⟩ := h
  rw [pyLess_iff] at hb
  rw [lessB, hb]

theorem lessB_true {x y : Term} : lessB x y = true ↔ Compares .lt x y (.ok true) := by
  rw [pyLess_iff, lessB]
  split <;> simp_all

theorem lessB_trans {x y z : Term} (h : lessB x y = true) (h' : lessB y z = true) : lessB x z = true := by
  rw [lessB_true] at *
  exact C49_strict_order.2.1 _ _ _ h h'

theorem lessB_asymm {x y : Term} (h : lessB x y = true) : lessB y x = false := by
  have := (C49_strict_order.1 _ _ (lessB_true.1 h)).2.1
  rw [pyLess_iff] at this
  rw [lessB, this]

theorem lessB_tri {x y : Term} (hx : x.Bare) (hy : y.Bare) (hc : ∃ b, Compares .lt x y (.ok b)) (hc' : ∃ b, Compares .lt y x (.ok b))
    (h : lessB x y = false) (h' : lessB y x = false) : Compares .eq x y (.ok true) := by
  have h1 := lessB_ok hc
  have h2 := lessB_ok hc'
  rw [h] at h1
  rw [h'] at h2
  rw [Compares.iff (n := x.size + y.size) (Nat.le_refl _)]
  exact pyLt_tri _ _ _ (Nat.le_refl _) hx hy h1 (by rw [Nat.add_comm]; exact h2)

theorem lessB_congr {x y z : Term} (h : Compares .eq x y (.ok true)) : lessB x z = lessB y z ∧ lessB z x = lessB z y := by
  have l : ∀ {n : Nat} {a b : Term}, a.size + b.size ≤ n → pyLess a b = pyLt n true a b := fun hn =>
    pyLess_iff.1 ((Compares.iff (op := .lt) hn).2 rfl)
  rw [Compares.iff (n := x.size + y.size + z.size) (by omega)] at h
  have e1 : pyLess x z = pyLess y z := by
    rw [l (n := x.size + y.size + z.size) (by omega), l (n := x.size + y.size + z.size) (by omega)]
    exact pyLt_congr_left _ _ _ _ _ (Nat.le_refl _) h
  have e2 : pyLess z x = pyLess z y := by
    rw [l (n := x.size + y.size + z.size) (by omega), l (n := x.size + y.size + z.size) (by omega)]
    exact pyLt_congr_right _ _ _ _ _ (by omega) h
  simp [lessB, e1, e2]

/-- Items that can be compared and have no annotations. -/
def Orderable (xs : List Term) : Prop := Sortable xs ∧ ∀ x ∈ xs, x.Bare

/-- Not less is transitive. -/
theorem lessB_neg_trans {xs : List Term} (h : Orderable xs) {x y z : Term} (hx : x ∈ xs) (hy : y ∈ xs)
    (h1 : lessB x y = false) (h2 : lessB y z = false) : lessB x z = false := by
  cases h3 : lessB x z with
  | false => rfl
  | true =>
    cases h4 : lessB y x with
    | true => rw [lessB_trans h4 h3] at h2; cases h2
    | false =>
      rw [(lessB_congr (lessB_tri (h.2 x hx) (h.2 y hy) (h.1 x hx y hy) (h.1 y hy x hx) h1 h4)).1, h2] at h3
      cases h3

/-! ## Pure versions -/

def insB (x : Term) : List Term → List Term
  | [] => [x]
  | y :: ys => if lessB x y then y :: insB x ys else x :: y :: ys

theorem insertSorted_eq {x : Term} : ∀ {ys : List Term}, (∀ y ∈ ys, ∃ b, Compares .lt x y (.ok b)) →
    insertSorted x ys = .ok (insB x ys)
  | [], _ => rfl
  | y :: ys, h => by
    rw [insertSorted, lessB_ok (h y (by simp)), Ev.bind_ok, insB]
    split
    · rw [insertSorted_eq fun y hy => h y (by simp [hy])]; rfl
    · rfl

theorem insB_perm (x : Term) : ∀ ys : List Term, (insB x ys).Perm (x :: ys)
  | [] => .refl _
  | y :: ys => by
    rw [insB]
    split
    · exact ((insB_perm x ys).cons y).trans (.swap x y ys)
    · exact .refl _

theorem insB_sorted {xs : List Term} (hw : Orderable xs) {x : Term} (hx : x ∈ xs) : ∀ {ys : List Term}, (∀ y ∈ ys, y ∈ xs) →
    ys.Pairwise (fun a b => lessB a b = false) → (insB x ys).Pairwise (fun a b => lessB a b = false)
  | [], _, _ => by simp [insB]
  | y :: ys, hs, hp => by
    obtain ⟨h1, h2⟩ := List.pairwise_cons.1 hp
    rw [insB]
    split
    · next h =>
      refine List.pairwise_cons.2 ⟨fun z hz => ?_, insB_sorted hw hx (fun z hz => hs z (by simp [hz])) h2⟩
      rcases List.mem_cons.1 ((insB_perm x ys).mem_iff.1 hz) with rfl | hz
      · exact lessB_asymm h
      · exact h1 z hz
    · next h =>
      refine List.pairwise_cons.2 ⟨fun z hz => ?_, hp⟩
      rcases List.mem_cons.1 hz with rfl | hz
      · simpa using h
      · exact lessB_neg_trans hw hx (hs y (by simp)) (by simpa using h) (h1 z hz)

/-- Inserting keeps the order of equal items: the new one is the last of them (the first one in
reverse order). -/
theorem insB_filter {x : Term} {p : Term → Bool} : ∀ {ys : List Term}, (∀ y ∈ ys, p x = true → p y = true → lessB x y = false) →
    (insB x ys).filter p = (x :: ys).filter p
  | [], _ => rfl
  | y :: ys, h => by
    rw [insB]
    split
    · next h' =>
      rw [List.filter_cons, insB_filter fun z hz => h z (by simp [hz])]
      cases hx : p x <;> cases hy : p y <;> simp [hx, hy]
      rw [h y (by simp) hx hy] at h'; cases h'
    · rfl

def sortB : List Term → List Term → List Term
  | acc, [] => acc
  | acc, x :: xs => sortB (insB x acc) xs

theorem sortGo_eq : ∀ {xs acc : List Term}, Sortable (acc ++ xs) → sortGo acc xs = .ok (sortB acc xs)
  | [], _, _ => rfl
  | x :: xs, acc, h => by
    rw [sortGo, insertSorted_eq fun y hy => h x (by simp) y (by simp [hy]), Ev.bind_ok, sortB]
    refine sortGo_eq fun a ha b hb => h a ?_ b ?_
    · simpa [(insB_perm x acc).mem_iff, or_left_comm, or_assoc] using ha
    · simpa [(insB_perm x acc).mem_iff, or_left_comm, or_assoc] using hb

theorem sortB_spec {us : List Term} (hw : Orderable us) : ∀ {xs acc : List Term}, (∀ x ∈ acc ++ xs, x ∈ us) →
    acc.Pairwise (fun a b => lessB a b = false) →
    (sortB acc xs).Perm (acc ++ xs) ∧ (sortB acc xs).Pairwise (fun a b => lessB a b = false) ∧
      ∀ a ∈ us, (sortB acc xs).reverse.filter (fun x => !lessB a x && !lessB x a) =
        (acc.reverse ++ xs).filter (fun x => !lessB a x && !lessB x a)
  | [], acc, _, hp => by simp [sortB, hp]
  | x :: xs, acc, hs, hp => by
    rw [sortB]
    have hm : ∀ y, y ∈ insB x acc ↔ y = x ∨ y ∈ acc := fun y => by rw [(insB_perm x acc).mem_iff, List.mem_cons]
    have hx := hs x (by simp)
    obtain ⟨i1, i2, i3⟩ := sortB_spec hw (xs := xs) (acc := insB x acc)
      (fun y hy => by
        rw [List.mem_append, hm] at hy
        exact hs y (by simp only [List.mem_append, List.mem_cons]; rcases hy with (rfl | h) | h <;> simp_all))
      (insB_sorted hw hx (fun y hy => hs y (by simp [hy])) hp)
    refine ⟨i1.trans ?_, i2, fun a ha => ?_⟩
    · exact ((insB_perm x acc).append_right xs).trans (by simpa using List.perm_middle.symm)
    · rw [i3 a ha, List.filter_append, List.filter_reverse, insB_filter, ← List.filter_reverse, ← List.filter_append]
      · simp
      · intro y hy e1 e2
        simp only [Bool.and_eq_true, Bool.not_eq_true'] at e1 e2
        exact lessB_neg_trans hw hx ha e1.2 e2.1

/-! ## Extreme items -/

/-- An item replaces the one that is kept so far if it is better. -/
def best (better : Term → Term → Bool) (m : Term) : List Term → Term
  | [] => m
  | x :: xs => best better (if better x m then x else m) xs

theorem minGo_eq : ∀ {xs : List Term} {m : Term}, Sortable (m :: xs) → minGo m xs = .ok (best lessB m xs)
  | [], _, _ => rfl
  | x :: xs, m, hs => by
    rw [minGo, lessB_ok (hs x (by simp) m (by simp)), Ev.bind_ok, best]
    refine minGo_eq fun a ha b hb => hs a ?_ b ?_
    · split at ha <;> simp_all <;> grind
    · split at hb <;> simp_all <;> grind

theorem maxGo_eq : ∀ {xs : List Term} {m : Term}, Sortable (m :: xs) → maxGo m xs = .ok (best (fun x m => lessB m x) m xs)
  | [], _, _ => rfl
  | x :: xs, m, hs => by
    rw [maxGo, lessB_ok (hs m (by simp) x (by simp)), Ev.bind_ok, best]
    refine maxGo_eq fun a ha b hb => hs a ?_ b ?_
    · split at ha <;> simp_all <;> grind
    · split at hb <;> simp_all <;> grind

theorem best_mem {better : Term → Term → Bool} (ht : ∀ x y z, better x y = true → better y z = true → better x z = true)
    (hi : ∀ x, better x x = false) : ∀ {xs pre : List Term} {m : Term}, (∀ p ∈ pre, better p m = false) →
    best better m xs ∈ m :: xs ∧ ∀ y ∈ pre ++ m :: xs, better y (best better m xs) = false
  | [], pre, m, hp => by
    refine ⟨by simp [best], fun y hy => ?_⟩
    rcases List.mem_append.1 hy with hy | hy
    · exact hp y hy
    · rw [List.mem_singleton.1 hy]; exact hi m
  | x :: xs, pre, m, hp => by
    rw [best]
    cases h : better x m with
    | true =>
      obtain ⟨h2, h3⟩ := best_mem ht hi (xs := xs) (pre := pre ++ [m]) (m := x)
        (fun p hpm => by
          cases e : better p x with
          | false => rfl
          | true =>
            rcases List.mem_append.1 hpm with h' | h'
            · rw [← hp p h', ht _ _ _ e h]
            · rw [List.mem_singleton.1 h'] at e
              rw [← hi m, ht _ _ _ e h])
      simp only [if_true]
      exact ⟨List.mem_cons_of_mem _ h2, fun y hy => h3 y (by simpa using hy)⟩
    | false =>
      obtain ⟨h2, h3⟩ := best_mem ht hi (xs := xs) (pre := pre ++ [x]) (m := m)
        (fun p hpm => by
          rcases List.mem_append.1 hpm with h' | h'
          · exact hp p h'
          · rw [List.mem_singleton.1 h']; exact h)
      simp only [Bool.false_eq_true, if_false]
      refine ⟨by simp at h2 ⊢; rcases h2 with h | h <;> simp [h], fun y hy => h3 y ?_⟩
      simp only [List.mem_append, List.mem_cons] at hy ⊢
      rcases hy with h | h | h | h <;> simp [h]

/-- The first of the best items is picked. -/
theorem best_first {better : Term → Term → Bool} {us : List Term} (ht : ∀ x y z, better x y = true → better y z = true → better x z = true)
    (hn : ∀ x ∈ us, ∀ y ∈ us, ∀ z ∈ us, better x y = false → better y z = false → better x z = false) :
    ∀ {xs pre mid : List Term} {m : Term}, (∀ x ∈ pre ++ m :: mid ++ xs, x ∈ us) → (∀ p ∈ pre, better m p = true) →
      (∀ p ∈ mid, better p m = false) →
    ∃ l r, pre ++ m :: mid ++ xs = l ++ best better m xs :: r ∧ ∀ p ∈ l, better (best better m xs) p = true
  | [], pre, mid, m, _, hp, _ => ⟨pre, mid, by simp [best], hp⟩
  | x :: xs, pre, mid, m, hs, hp, hm => by
    rw [best]
    cases h : better x m with
    | true =>
      have := best_first ht hn (xs := xs) (pre := pre ++ m :: mid) (mid := []) (m := x) (by simpa using hs)
        (fun p hpm => by
          simp only [List.mem_append, List.mem_cons] at hpm
          rcases hpm with h' | rfl | h'
          · exact ht _ _ _ h (hp p h')
          · exact h
          · cases e : better x p with
            | true => rfl
            | false =>
              rw [← h, hn x (hs x (by simp)) p (hs p (by simp [h'])) m (hs m (by simp)) e (hm p h')])
        (by simp)
      simpa using this
    | false =>
      have := best_first ht hn (xs := xs) (pre := pre) (mid := mid ++ [x]) (m := m) (by simpa using hs) hp
        (fun p hpm => by
          rcases List.mem_append.1 hpm with h' | h'
          · exact hm p h'
          · rw [List.mem_singleton.1 h']; exact h)
      simpa using this

theorem lessB_irrefl (x : Term) : lessB x x = false := by
  cases h : lessB x x with
  | false => rfl
  | true => rw [lessB_asymm h] at h; cases h

end Verif
