import Verif.Spec.Beliefs
import Verif.Lemmas.Freeze

/-!
# Lemmas about Python equality of terms
-/

namespace Verif

theorem mem_size {t : Term} : ∀ {ts : List Term}, t ∈ ts → t.size < Term.sizeL ts
  | _ :: ts, h => by
    rw [Term.sizeL]
    rcases List.mem_cons.1 h with rfl | h
    · omega
    · have := mem_size h; omega

theorem size_pos (t : Term) : 0 < t.size := by cases t <;> simp [Term.size] <;> omega

/-- Items are smaller than the list. -/
theorem iter_size : ∀ {t : Term} {xs : List Term} {x : Term}, iter t = .ok xs → x ∈ xs → x.size ≤ t.size
  | .tup ys, xs, x, h, hx => by
    simp [iter] at h; subst h
    have := mem_size hx; simp [Term.size]; omega
  | .cons hd tl, xs, x, h, hx => by
    rw [iter, Ev.map_eq_ok] at h
    obtain ⟨ys, h, rfl⟩ := h
    rcases List.mem_cons.1 hx with rfl | hx
    · simp [Term.size]; omega
    · have := iter_size h hx; simp [Term.size]; omega
  | .str s, xs, x, h, hx => by
    simp [iter] at h; subst h
    simp at hx
    obtain ⟨c, hc, rfl⟩ := hx
    have h1 : (String.singleton c).length = 1 := by simp
    have h2 : 0 < s.length := by
      rw [← String.length_toList]
      exact List.length_pos_of_mem hc
    simp only [Term.size]; omega

theorem iter_cons_size {hd tl : Term} {xs : List Term} {x : Term} (h : iter (.cons hd tl) = .ok xs) (hx : x ∈ xs) :
    x.size < (Term.cons hd tl).size := by
  rw [iter, Ev.map_eq_ok] at h
  obtain ⟨ys, h, rfl⟩ := h
  rcases List.mem_cons.1 hx with rfl | hx
  · simp [Term.size]; omega
  · have := iter_size h hx; simp [Term.size]; omega

theorem iter_ne_oof : ∀ t : Term, iter t ≠ .oof
  | .cons hd tl => by
    rw [iter, ne_eq]
    have := iter_ne_oof tl
    rw [← ne_eq, Ev.map_ne_oof]; exact this
  | .tup _ | .str _ | .bool _ | .num _ | .lit _ _ _ | .var _ | .wild | .un _ _ | .bin _ _ _ => by simp [iter]

theorem tupEq_ne_oof {f : Term → Term → Ev Bool} : ∀ {xs ys : List Term}, (∀ x ∈ xs, ∀ y ∈ ys, f x y ≠ .oof) →
    tupEq f xs ys ≠ .oof
  | [], [], _ => by simp [tupEq]
  | [], _ :: _, _ => by simp [tupEq]
  | _ :: _, [], _ => by simp [tupEq]
  | x :: xs, y :: ys, h => by
    rw [tupEq, Ev.bind_ne_oof]
    refine ⟨h x (by simp) y (by simp), fun a _ => ?_⟩
    split
    · exact tupEq_ne_oof fun x hx y hy => h x (by simp [hx]) y (by simp [hy])
    · simp

theorem memBy_ne_oof {f : Term → Term → Ev Bool} {x : Term} : ∀ {ys : List Term}, (∀ y ∈ ys, f x y ≠ .oof) →
    memBy f x ys ≠ .oof
  | [], _ => by simp [memBy]
  | y :: ys, h => by
    rw [memBy]
    split
    · simp
    · next h' => exact absurd h' (h y (by simp))
    · exact memBy_ne_oof fun y hy => h y (by simp [hy])

theorem allL_ne_oof {α : Type} {f : α → Ev Bool} : ∀ {xs : List α}, (∀ x ∈ xs, f x ≠ .oof) → Ev.allL f xs ≠ .oof
  | [], _ => by simp [Ev.allL]
  | x :: xs, h => by
    rw [Ev.allL, Ev.bind_ne_oof]
    refine ⟨h x (by simp), fun a _ => ?_⟩
    split
    · exact allL_ne_oof fun x hx => h x (by simp [hx])
    · simp

theorem setEq_ne_oof {f : Term → Term → Ev Bool} {xs ys : List Term} (h : ∀ x ∈ xs, ∀ y ∈ ys, f x y ≠ .oof ∧ f y x ≠ .oof) :
    setEq f xs ys ≠ .oof := by
  rw [setEq, Ev.bind_ne_oof]
  refine ⟨allL_ne_oof fun x hx => memBy_ne_oof fun y hy => (h x hx y hy).1, fun a _ => ?_⟩
  split
  · exact allL_ne_oof fun y hy => memBy_ne_oof fun x hx => (h x hx y hy).2
  · simp

/-- The fuel in `pyEqB` is sufficient. -/
theorem pyEq_ne_oof : ∀ (n : Nat) (x y : Term), x.size + y.size ≤ n → pyEq n x y ≠ .oof
  | 0, x, _, h => by have := size_pos x; omega
  | n + 1, x, y, h => by
    have ih := pyEq_ne_oof n
    rw [pyEq]
    unfold pyEqStep
    split
    · simp
    · simp
    · simp
    · split
      · simp
      · next f as xs g bs ys _ _ =>
        simp [Term.size] at h
        split
        · rw [Ev.bind_ne_oof]
          refine ⟨tupEq_ne_oof fun x hx y hy => ih x y ?_, fun a _ => ?_⟩
          · have := mem_size hx; have := mem_size hy; omega
          · split
            · refine setEq_ne_oof fun x hx y hy => ?_
              have := mem_size hx; have := mem_size hy
              exact ⟨ih _ _ (by omega), ih _ _ (by omega)⟩
            · simp
        · simp
      · simp
      · simp [Term.size] at h
        exact tupEq_ne_oof fun x hx y hy => ih x y (by have := mem_size hx; have := mem_size hy; omega)
      · next xs hd tl _ _ =>
        rw [Ev.bind_ne_oof]
        refine ⟨iter_ne_oof _, fun ys hi => tupEq_ne_oof fun x hx y hy => ih x y ?_⟩
        have := iter_cons_size hi hx; have := mem_size hy
        simp only [Term.size] at h this ⊢; simp [Term.size] at *; omega
      · next xs hd tl _ _ =>
        rw [Ev.bind_ne_oof]
        refine ⟨iter_ne_oof _, fun ys hi => tupEq_ne_oof fun x hx y hy => ih x y ?_⟩
        have := iter_cons_size hi hx; have := mem_size hy
        simp [Term.size] at *; omega
      · rw [Ev.bind_ne_oof]
        refine ⟨iter_ne_oof _, fun xs hi => ?_⟩
        rw [Ev.bind_ne_oof]
        refine ⟨iter_ne_oof _, fun ys hi' => tupEq_ne_oof fun x hx y hy => ih x y ?_⟩
        have := iter_cons_size hi hx; have := iter_cons_size hi' hy
        omega
      · simp

theorem properL_mem : ∀ {ts : List Term}, Term.ProperL ts → ∀ t ∈ ts, t.Proper
  | _ :: _, h, t, ht => by
    rw [Term.ProperL] at h
    rcases List.mem_cons.1 ht with rfl | ht
    · exact h.1
    · exact properL_mem h.2 t ht

theorem iter_proper : ∀ {t : Term}, t.Proper → ∀ {xs : List Term}, iter t = .ok xs → ∀ x ∈ xs, x.Proper
  | .tup ys, h, xs, hi, x, hx => by
    simp [iter] at hi; subst hi
    exact properL_mem (by simpa [Term.Proper] using h) x hx
  | .cons hd tl, h, xs, hi, x, hx => by
    rw [iter, Ev.map_eq_ok] at hi
    obtain ⟨ys, hi, rfl⟩ := hi
    rw [Term.Proper] at h
    rcases List.mem_cons.1 hx with rfl | hx
    · exact h.1
    · exact iter_proper h.2.1 hi x hx
  | .str s, _, xs, hi, x, hx => by
    simp [iter] at hi; subst hi
    simp at hx
    obtain ⟨c, _, rfl⟩ := hx
    simp [Term.Proper]

theorem iter_ground : ∀ {t : Term}, t.Ground → ∀ {xs : List Term}, iter t = .ok xs → ∀ x ∈ xs, x.Ground
  | .tup ys, h, xs, hi, x, hx => by
    simp [iter] at hi; subst hi
    simp [Term.Ground, Term.All] at h
    exact Term.allL_iff.1 h x hx
  | .cons hd tl, h, xs, hi, x, hx => by
    rw [iter, Ev.map_eq_ok] at hi
    obtain ⟨ys, hi, rfl⟩ := hi
    simp [Term.Ground, Term.All] at h
    rcases List.mem_cons.1 hx with rfl | hx
    · exact h.1
    · exact iter_ground h.2 hi x hx
  | .str s, _, xs, hi, x, hx => by
    simp [iter] at hi; subst hi
    simp at hx
    obtain ⟨c, _, rfl⟩ := hx
    simp [Term.Ground, Term.All]

theorem tupEq_refl {f : Term → Term → Ev Bool} : ∀ {xs : List Term}, (∀ x ∈ xs, f x x = .ok true) →
    tupEq f xs xs = .ok true
  | [], _ => rfl
  | x :: xs, h => by
    rw [tupEq, h x (by simp)]
    simpa using tupEq_refl fun x hx => h x (by simp [hx])

theorem memBy_refl {f : Term → Term → Ev Bool} {x : Term} (hx : f x x = .ok true) : ∀ {ys : List Term}, x ∈ ys →
    (∀ y ∈ ys, f x y ≠ .oof) → memBy f x ys = .ok true
  | y :: ys, hm, h => by
    rw [memBy]
    split
    · rfl
    · next h' => exact absurd h' (h y (by simp))
    · next h1 h2 =>
      rcases List.mem_cons.1 hm with rfl | hm
      · exact absurd hx h1
      · exact memBy_refl hx hm fun y hy => h y (by simp [hy])

theorem allL_true {α : Type} {f : α → Ev Bool} : ∀ {xs : List α}, (∀ x ∈ xs, f x = .ok true) → Ev.allL f xs = .ok true
  | [], _ => rfl
  | x :: xs, h => by
    rw [Ev.allL, h x (by simp)]
    simpa using allL_true fun x hx => h x (by simp [hx])

/-- `t == t` -/
theorem pyEq_refl : ∀ (n : Nat) (t : Term), t.Ground → t.Proper → t.size + t.size ≤ n → pyEq n t t = .ok true
  | 0, t, _, _, h => by have := size_pos t; omega
  | n + 1, t, hg, hp, h => by
    have ih := pyEq_refl n
    rw [pyEq]
    unfold pyEqStep
    cases t with
    | bool b => simp [numVal]
    | num q => simp [numVal]
    | str s => simp [numVal]
    | var x => simp [Term.Ground, Term.All] at hg
    | wild => simp [Term.Ground, Term.All] at hg
    | un op t => simp [Term.Ground, Term.All] at hg
    | bin op l r => simp [Term.Ground, Term.All] at hg
    | lit f as xs =>
      simp [Term.Ground, Term.All] at hg
      simp [Term.Proper] at hp
      simp [Term.size] at h
      have h1 : tupEq (pyEq n) as as = .ok true := tupEq_refl fun x hx =>
        ih x (Term.allL_iff.1 hg.1 x hx) (properL_mem hp.1 x hx) (by have := mem_size hx; omega)
      have h2 : setEq (pyEq n) xs xs = .ok true := by
        have : Ev.allL (memBy (pyEq n) · xs) xs = .ok true := allL_true fun x hx => by
          have := mem_size hx
          refine memBy_refl (ih x (Term.allL_iff.1 hg.2 x hx) (properL_mem hp.2 x hx) (by omega)) hx fun y hy => ?_
          have := mem_size hy
          exact pyEq_ne_oof _ _ _ (by omega)
        simp [setEq, this]
      simp [numVal, h1, h2]
    | tup xs =>
      simp [Term.Ground, Term.All] at hg
      simp [Term.Proper] at hp
      simp [Term.size] at h
      simp only [numVal]
      exact tupEq_refl fun x hx => ih x (Term.allL_iff.1 hg x hx) (properL_mem hp x hx) (by have := mem_size hx; omega)
    | cons hd tl =>
      simp only [numVal]
      obtain ⟨ys, hy⟩ : ∃ ys, iter (.cons hd tl) = .ok ys := by
        simp only [Term.Proper] at hp
        obtain ⟨_, _, ys, hy⟩ := hp
        exact ⟨hd :: ys, by rw [iter, hy]; rfl⟩
      rw [hy]
      simp only [Ev.bind_ok]
      exact tupEq_refl fun x hx => ih x (iter_ground hg hy x hx) (iter_proper hp hy x hx)
        (by have := iter_cons_size hy hx; omega)

theorem pyEqB_refl {t : Term} (hg : t.Ground) (hp : t.Proper) : pyEqB t t = true := by
  simp [pyEqB, pyEq_refl _ t hg hp (Nat.le_refl _)]

/-! ## Simple terms -/

theorem simpleL_mem : ∀ {ts : List Term}, Term.SimpleL ts → ∀ t ∈ ts, t.Simple
  | _ :: _, h, t, ht => by
    rw [Term.SimpleL] at h
    rcases List.mem_cons.1 ht with rfl | ht
    · exact h.1
    · exact simpleL_mem h.2 t ht

theorem tupEq_dec {f : Term → Term → Ev Bool} : ∀ {xs ys : List Term},
    (∀ x ∈ xs, ∀ y ∈ ys, ∃ b, f x y = .ok b ∧ (b = true ↔ x = y)) →
    ∃ b, tupEq f xs ys = .ok b ∧ (b = true ↔ xs = ys)
  | [], [], _ => by simp [tupEq]
  | [], _ :: _, _ => by simp [tupEq]
  | _ :: _, [], _ => by simp [tupEq]
  | x :: xs, y :: ys, h => by
    obtain ⟨b, hb, hb'⟩ := h x (by simp) y (by simp)
    rw [tupEq, hb, Ev.bind_ok]
    cases b with
    | true =>
      obtain ⟨c, hc, hc'⟩ := tupEq_dec (xs := xs) (ys := ys) fun x hx y hy => h x (by simp [hx]) y (by simp [hy])
      exact ⟨c, by simpa using hc, by simp [hc', hb'.1 rfl]⟩
    | false => exact ⟨false, by simp, by simpa using fun e => absurd e (by simpa using hb')⟩

theorem pyEq_simple : ∀ (n : Nat) (x y : Term), x.Simple → y.Simple → x.size + y.size ≤ n →
    ∃ b, pyEq n x y = .ok b ∧ (b = true ↔ x = y)
  | 0, x, _, _, _, h => by have := size_pos x; omega
  | n + 1, x, y, hx, hy, h => by
    have ih := pyEq_simple n
    rw [pyEq]
    unfold pyEqStep
    cases x <;> simp [Term.Simple] at hx <;> cases y <;> simp [Term.Simple] at hy <;> simp [numVal]
    · next f as xs g bs ys =>
      obtain ⟨rfl, hx⟩ := hx
      obtain ⟨rfl, hy⟩ := hy
      simp [Term.size] at h
      by_cases hfg : f = g
      · obtain ⟨b, hb, hb'⟩ : ∃ b, tupEq (pyEq n) as bs = .ok b ∧ (b = true ↔ as = bs) := tupEq_dec fun x hx' y hy' =>
          ih x y (simpleL_mem hx x hx') (simpleL_mem hy y hy') (by have := mem_size hx'; have := mem_size hy'; omega)
        cases b <;> simp [hfg, hb, setEq, Ev.allL] at hb' ⊢ <;> exact hb'
      · simp [hfg]
    · next xs ys =>
      simp [Term.size] at h
      have := tupEq_dec (f := pyEq n) (xs := xs) (ys := ys) fun x hx' y hy' =>
        ih x y (simpleL_mem hx x hx') (simpleL_mem hy y hy') (by have := mem_size hx'; have := mem_size hy'; omega)
      simpa using this

theorem pyEqB_simple {x y : Term} (hx : x.Simple) (hy : y.Simple) : pyEqB x y = true ↔ x = y := by
  obtain ⟨b, hb, hb'⟩ := pyEq_simple _ x y hx hy (Nat.le_refl _)
  rw [pyEqB, hb, ← hb']
  cases b <;> simp

end Verif
