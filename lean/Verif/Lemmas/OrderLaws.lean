import Verif.Lemmas.PyEq
import Verif.Lemmas.Fuel
import Verif.Spec.Compare

/-!
# Laws of `==`, `<` and `<=` on terms
-/

namespace Verif

/-- What a term is for the purpose of comparison. -/
inductive Shape where
  | num (q : Rat)
  | str (s : String)
  | lit (f : String) (args annots : List Term)
  | var (x : VarId)
  | list (items : Ev (List Term))
  | other

def shape : Term → Shape
  | .bool b => .num (if b then 1 else 0)
  | .num q => .num q
  | .str s => .str s
  | .lit f as xs => .lit f as xs
  | .var x => .var x
  | .tup xs => .list (.ok xs)
  | .cons h t => .list (iter (.cons h t))
  | .wild | .un _ _ | .bin _ _ _ => .other

def shapeEq (rec : Term → Term → Ev Bool) : Shape → Shape → Ev Bool
  | .num p, .num q => .ok (decide (p = q))
  | .str s, .str t => .ok (decide (s = t))
  | .lit f as xs, .lit g bs ys =>
    if f = g then (tupEq rec as bs).bind fun e => if e then setEq rec xs ys else .ok false else .ok false
  | .var x, .var y => .ok (decide (x = y))
  | .list i, .list j => i.bind fun xs => j.bind fun ys => tupEq rec xs ys
  | _, _ => .ok false

def shapeLt (eq rec : Term → Term → Ev Bool) (strict : Bool) : Shape → Shape → Ev Bool
  | .num p, .num q => .ok (if strict then decide (p < q) else decide (p ≤ q))
  | .str s, .str t => .ok (if strict then decide (s < t) else decide (s ≤ t))
  | .lit f as xs, .lit g bs ys =>
    if as = [] ∧ xs = [] ∧ bs = [] ∧ ys = [] then .ok (if strict then decide (f < g) else decide (f ≤ g))
    else if f ≠ g ∨ as.length ≠ bs.length then .err (.py "TypeError")
    else tupLt eq rec strict as bs
  | .list i, .list j => i.bind fun xs => j.bind fun ys => tupLt eq rec strict xs ys
  | _, _ => .err (.py "TypeError")

theorem iter_err : ∀ {t : Term} {e : Err}, iter t = .err e → e = .py "TypeError"
  | .cons h t, e, he => by
    rw [iter] at he
    cases ht : iter t with
    | ok xs => rw [ht] at he; cases he
    | err e' => rw [ht] at he; cases he; exact iter_err ht
    | oof => exact absurd ht (iter_ne_oof t)
  | .tup _, e, he | .str _, e, he => by simp [iter] at he
  | .bool _, e, he | .num _, e, he | .lit _ _ _, e, he | .var _, e, he | .wild, e, he | .un _ _, e, he | .bin _ _ _, e, he => by
    simp [iter] at he; exact he.symm

theorem shape_list {a : Term} {i : Ev (List Term)} (h : shape a = .list i) :
    (∃ xs, i = .ok xs ∧ ∀ x ∈ xs, x.size < a.size) ∨ i = .err (.py "TypeError") := by
  cases a <;> simp [shape] at h
  · subst h
    exact .inl ⟨_, rfl, fun x hx => by have := mem_size hx; simp [Term.size]; omega⟩
  · next hd tl =>
    cases hi : iter (.cons hd tl) with
    | ok xs => rw [hi] at h; exact .inl ⟨xs, h.symm, fun x hx => iter_cons_size hi hx⟩
    | err e => rw [hi] at h; rw [iter_err hi] at h; exact .inr h.symm
    | oof => exact absurd hi (iter_ne_oof _)

theorem shape_lit {a : Term} {f : String} {as xs : List Term} (h : shape a = .lit f as xs) :
    a = .lit f as xs ∧ (∀ x ∈ as, x.size < a.size) ∧ ∀ x ∈ xs, x.size < a.size := by
  cases a <;> simp [shape] at h
  obtain ⟨rfl, rfl, rfl⟩ := h
  exact ⟨rfl, fun x hx => by have := mem_size hx; simp [Term.size]; omega, fun x hx => by have := mem_size hx; simp [Term.size]; omega⟩

theorem tupEq_symm {f : Term → Term → Ev Bool} : ∀ {xs ys : List Term}, (∀ x ∈ xs, ∀ y ∈ ys, f x y = f y x) →
    tupEq f xs ys = tupEq f ys xs
  | [], [], _ | [], _ :: _, _ | _ :: _, [], _ => by simp [tupEq]
  | x :: xs, y :: ys, h => by
    rw [tupEq, tupEq, h x (by simp) y (by simp), tupEq_symm fun x hx y hy => h x (by simp [hx]) y (by simp [hy])]

theorem pyEqStep_shape {rec : Term → Term → Ev Bool} {a b : Term}
    (hs : ∀ x y : Term, x.size < a.size → y.size < b.size → rec x y = rec y x) :
    pyEqStep rec a b = shapeEq rec (shape a) (shape b) := by
  cases a with
  | tup xs =>
    cases b with
    | cons hd tl =>
      simp only [pyEqStep, numVal, shape, shapeEq, Ev.bind_ok]
      cases hi : iter (.cons hd tl) with
      | ok ys =>
        simp only [Ev.bind_ok]
        refine (tupEq_symm fun x hx y hy => hs x y ?_ (iter_cons_size hi hy)).symm
        have := mem_size hx; simp [Term.size]; omega
      | err e => rfl
      | oof => rfl
    | _ => simp [pyEqStep, numVal, shape, shapeEq]
  | _ => cases b <;> simp [pyEqStep, numVal, shape, shapeEq]

theorem pyLtStep_shape {eq rec : Term → Term → Ev Bool} {strict : Bool} {a b : Term} :
    pyLtStep eq rec strict a b = shapeLt eq rec strict (shape a) (shape b) := by
  cases a with
  | lit f as xs =>
    cases b with
    | lit g bs ys =>
      cases as <;> cases xs <;> cases bs <;> cases ys <;> simp [pyLtStep, numVal, shape, shapeLt, Term.isAtom]
    | _ => simp [pyLtStep, numVal, shape, shapeLt]
  | _ => cases b <;> simp [pyLtStep, numVal, shape, shapeLt]

theorem memBy_iff {f : Term → Term → Ev Bool} {x : Term} : ∀ {ys : List Term}, (∀ y ∈ ys, f x y ≠ .oof) →
    ∃ b, memBy f x ys = .ok b ∧ (b = true ↔ ∃ y ∈ ys, f x y = .ok true)
  | [], _ => ⟨false, rfl, by simp⟩
  | y :: ys, h => by
    rw [memBy]
    split
    · next h' => exact ⟨true, rfl, by simp [h']⟩
    · next h' => exact absurd h' (h y (by simp))
    · next h1 h2 =>
      obtain ⟨b, hb, hb'⟩ := memBy_iff (x := x) fun y hy => h y (List.mem_cons_of_mem _ hy)
      refine ⟨b, hb, hb'.trans ⟨fun ⟨z, hz, e⟩ => ⟨z, by simp [hz], e⟩, fun ⟨z, hz, e⟩ => ?_⟩⟩
      rcases List.mem_cons.1 hz with rfl | hz
      · exact absurd e h1
      · exact ⟨z, hz, e⟩

theorem allL_iff {α : Type} {f : α → Ev Bool} {p : α → Prop} : ∀ {xs : List α}, (∀ x ∈ xs, ∃ b, f x = .ok b ∧ (b = true ↔ p x)) →
    ∃ b, Ev.allL f xs = .ok b ∧ (b = true ↔ ∀ x ∈ xs, p x)
  | [], _ => ⟨true, rfl, by simp⟩
  | x :: xs, h => by
    obtain ⟨b, hb, hb'⟩ := h x (by simp)
    obtain ⟨c, hc, hc'⟩ := allL_iff fun x hx => h x (List.mem_cons_of_mem _ hx)
    rw [Ev.allL, hb]
    cases b with
    | true => exact ⟨c, by simpa using hc, by simp [hc', hb'.1 rfl]⟩
    | false => exact ⟨false, rfl, by simp at hb'; simp [hb']⟩

theorem setEq_iff {f : Term → Term → Ev Bool} {xs ys : List Term} (h : ∀ x ∈ xs, ∀ y ∈ ys, f x y ≠ .oof ∧ f y x ≠ .oof) :
    ∃ b, setEq f xs ys = .ok b ∧
      (b = true ↔ (∀ x ∈ xs, ∃ y ∈ ys, f x y = .ok true) ∧ ∀ y ∈ ys, ∃ x ∈ xs, f y x = .ok true) := by
  obtain ⟨b, hb, hb'⟩ := allL_iff (f := (memBy f · ys)) fun x hx => memBy_iff fun y hy => (h x hx y hy).1
  obtain ⟨c, hc, hc'⟩ := allL_iff (f := (memBy f · xs)) fun y hy => memBy_iff fun x hx => (h x hx y hy).2
  refine ⟨b && c, ?_, by simp [hb', hc']⟩
  rw [setEq, hb]
  cases b <;> simp [hc]

/-- `a == b` is symmetric, exceptions included. -/
theorem pyEq_symm : ∀ (n : Nat) (a b : Term), a.size + b.size ≤ n → pyEq n a b = pyEq n b a
  | 0, a, _, h => by have := size_pos a; omega
  | n + 1, a, b, h => by
    have ih := pyEq_symm n
    rw [pyEq, pyEq, pyEqStep_shape fun x y hx hy => ih x y (by omega), pyEqStep_shape fun x y hx hy => ih x y (by omega)]
    cases ha : shape a with
    | num p => cases hb : shape b <;> simp [shapeEq, eq_comm]
    | str s => cases hb : shape b <;> simp [shapeEq, eq_comm]
    | var x => cases hb : shape b <;> simp [shapeEq, eq_comm]
    | other => cases hb : shape b <;> simp [shapeEq]
    | list i =>
      cases hb : shape b with
      | list j =>
        simp only [shapeEq]
        rcases shape_list ha with ⟨xs, rfl, hx⟩ | rfl
        · rcases shape_list hb with ⟨ys, rfl, hy⟩ | rfl
          · simp only [Ev.bind_ok]
            exact tupEq_symm fun x hx' y hy' => ih x y (by have := hx x hx'; have := hy y hy'; omega)
          · rfl
        · rcases shape_list hb with ⟨ys, rfl, hy⟩ | rfl <;> rfl
      | _ => simp [shapeEq]
    | lit f as xs =>
      cases hb : shape b with
      | lit g bs ys =>
        obtain ⟨-, ha1, ha2⟩ := shape_lit ha
        obtain ⟨-, hb1, hb2⟩ := shape_lit hb
        simp only [shapeEq]
        by_cases hfg : f = g
        · rw [if_pos hfg, if_pos hfg.symm, tupEq_symm fun x hx y hy => ih x y (by have := ha1 x hx; have := hb1 y hy; omega)]
          have hno : ∀ x ∈ xs, ∀ y ∈ ys, pyEq n x y ≠ .oof ∧ pyEq n y x ≠ .oof := fun x hx y hy => by
            have := ha2 x hx; have := hb2 y hy
            exact ⟨pyEq_ne_oof _ _ _ (by omega), pyEq_ne_oof _ _ _ (by omega)⟩
          obtain ⟨b, hb, hb'⟩ := setEq_iff hno
          obtain ⟨c, hc, hc'⟩ := setEq_iff (xs := ys) (ys := xs) fun x hx y hy => ⟨(hno y hy x hx).2, (hno y hy x hx).1⟩
          rw [hb, hc, show b = c by rw [Bool.eq_iff_iff, hb', hc', and_comm]]
        · rw [if_neg hfg, if_neg (Ne.symm hfg)]
      | _ => simp [shapeEq]

/-- `pyEq` in terms of shapes. -/
theorem pyEq_shape {n : Nat} {a b : Term} (h : a.size + b.size ≤ n + 1) :
    pyEq (n + 1) a b = shapeEq (pyEq n) (shape a) (shape b) := by
  rw [pyEq]
  exact pyEqStep_shape fun x y hx hy => pyEq_symm n x y (by omega)

theorem pyLt_shape {n : Nat} {strict : Bool} {a b : Term} :
    pyLt (n + 1) strict a b = shapeLt (pyEq n) (pyLt n strict) strict (shape a) (shape b) := by
  rw [pyLt]
  exact pyLtStep_shape

theorem tupEq_congr {f : Term → Term → Ev Bool} : ∀ {xs xs' ys : List Term},
    (∀ x ∈ xs, ∀ x' ∈ xs', ∀ y ∈ ys, f x x' = .ok true → f x y = f x' y) → tupEq f xs xs' = .ok true →
    tupEq f xs ys = tupEq f xs' ys
  | [], [], _, _, _ => rfl
  | [], _ :: _, _, _, h => by simp [tupEq] at h
  | _ :: _, [], _, _, h => by simp [tupEq] at h
  | x :: xs, x' :: xs', [], _, _ => by simp [tupEq]
  | x :: xs, x' :: xs', y :: ys, hf, h => by
    rw [tupEq, Ev.bind_eq_ok] at h
    obtain ⟨e, he, h⟩ := h
    cases e with
    | false => simp at h
    | true =>
      simp only [if_true] at h
      rw [tupEq, tupEq, hf x (by simp) x' (by simp) y (by simp) he,
        tupEq_congr (fun x hx x' hx' y hy => hf x (by simp [hx]) x' (by simp [hx']) y (by simp [hy])) h]

theorem tupEq_length {f : Term → Term → Ev Bool} : ∀ {xs ys : List Term}, tupEq f xs ys = .ok true → xs.length = ys.length
  | [], [], _ => rfl
  | [], _ :: _, h => by simp [tupEq] at h
  | _ :: _, [], h => by simp [tupEq] at h
  | x :: xs, y :: ys, h => by
    rw [tupEq, Ev.bind_eq_ok] at h
    obtain ⟨e, he, h⟩ := h
    cases e with
    | false => simp at h
    | true => simp only [if_true] at h; simp [tupEq_length h]

/-- Equal terms are equal to the same terms, exceptions included. -/
theorem pyEq_congr : ∀ (n : Nat) (a a' b : Term), a.size + a'.size + b.size ≤ n → pyEq n a a' = .ok true →
    pyEq n a b = pyEq n a' b
  | 0, a, _, _, h, _ => by have := size_pos a; omega
  | n + 1, a, a', b, h, he => by
    have ih := pyEq_congr n
    rw [pyEq_shape (by omega)] at he
    rw [pyEq_shape (by omega), pyEq_shape (by omega)]
    cases ha : shape a with
    | num p => cases ha' : shape a' <;> simp [ha, ha', shapeEq] at he; rw [he]
    | str s => cases ha' : shape a' <;> simp [ha, ha', shapeEq] at he; rw [he]
    | var x => cases ha' : shape a' <;> simp [ha, ha', shapeEq] at he; rw [he]
    | other => cases ha' : shape a' <;> simp [ha, ha', shapeEq] at he
    | list i =>
      cases ha' : shape a' with
      | list i' =>
        rw [ha, ha'] at he
        simp only [shapeEq] at he
        rcases shape_list ha with ⟨xs, rfl, hx⟩ | rfl
        · rcases shape_list ha' with ⟨xs', rfl, hx'⟩ | rfl
          · cases hb : shape b with
            | list j =>
              simp only [shapeEq, Ev.bind_ok] at he ⊢
              rcases shape_list hb with ⟨ys, rfl, hy⟩ | rfl
              · simp only [Ev.bind_ok]
                exact tupEq_congr (fun x h1 x' h2 y h3 => ih x x' y (by have := hx x h1; have := hx' x' h2; have := hy y h3; omega)) he
              · rfl
            | _ => simp [shapeEq]
          · cases he
        · cases he
      | _ => simp [ha, ha', shapeEq] at he
    | lit f as xs =>
      cases ha' : shape a' with
      | lit f' as' xs' =>
        obtain ⟨-, ha1, ha2⟩ := shape_lit ha
        obtain ⟨-, hb1, hb2⟩ := shape_lit ha'
        rw [ha, ha'] at he
        simp only [shapeEq] at he
        by_cases hf : f = f'
        · subst hf
          rw [if_pos rfl, Ev.bind_eq_ok] at he
          obtain ⟨e, he, hs⟩ := he
          cases e with
          | false => simp at hs
          | true =>
            simp only [if_true] at hs
            cases hb : shape b with
            | lit g bs ys =>
              obtain ⟨-, hc1, hc2⟩ := shape_lit hb
              simp only [shapeEq]
              rw [tupEq_congr (ys := bs) (fun x h1 x' h2 y h3 => ih x x' y (by have := ha1 x h1; have := hb1 x' h2; have := hc1 y h3; omega)) he]
              obtain ⟨b0, h0, h0'⟩ := setEq_iff (f := pyEq n) (xs := xs) (ys := xs') fun x hx y hy =>
                ⟨pyEq_ne_oof _ _ _ (by have := ha2 x hx; have := hb2 y hy; omega), pyEq_ne_oof _ _ _ (by have := ha2 x hx; have := hb2 y hy; omega)⟩
              obtain ⟨b1, h1, h1'⟩ := setEq_iff (f := pyEq n) (xs := xs) (ys := ys) fun x hx y hy =>
                ⟨pyEq_ne_oof _ _ _ (by have := ha2 x hx; have := hc2 y hy; omega), pyEq_ne_oof _ _ _ (by have := ha2 x hx; have := hc2 y hy; omega)⟩
              obtain ⟨b2, h2, h2'⟩ := setEq_iff (f := pyEq n) (xs := xs') (ys := ys) fun x hx y hy =>
                ⟨pyEq_ne_oof _ _ _ (by have := hb2 x hx; have := hc2 y hy; omega), pyEq_ne_oof _ _ _ (by have := hb2 x hx; have := hc2 y hy; omega)⟩
              rw [hs] at h0
              cases h0
              obtain ⟨k1, k2⟩ := h0'.1 rfl
              rw [h1, h2, show b1 = b2 from ?_]
              rw [Bool.eq_iff_iff, h1', h2']
              have sw : ∀ x ∈ xs, ∀ x' ∈ xs', ∀ y ∈ ys, pyEq n x' x = .ok true → (pyEq n x y = .ok true ↔ pyEq n x' y = .ok true) := by
                intro x hx x' hx' y hy e
                have := ha2 x hx; have := hb2 x' hx'; have := hc2 y hy
                rw [ih x' x y (by omega) e]
              have sy : ∀ x ∈ xs, ∀ x' ∈ xs', pyEq n x x' = .ok true → pyEq n x' x = .ok true := by
                intro x hx x' hx' e
                have := ha2 x hx; have := hb2 x' hx'
                rw [pyEq_symm _ _ _ (by omega)]; exact e
              have sz : ∀ x ∈ xs, ∀ y ∈ ys, pyEq n x y = pyEq n y x := by
                intro x hx y hy; have := ha2 x hx; have := hc2 y hy; exact pyEq_symm _ _ _ (by omega)
              have sz' : ∀ x ∈ xs', ∀ y ∈ ys, pyEq n x y = pyEq n y x := by
                intro x hx y hy; have := hb2 x hx; have := hc2 y hy; exact pyEq_symm _ _ _ (by omega)
              constructor
              · rintro ⟨p1, p2⟩
                refine ⟨fun x' hx' => ?_, fun y hy => ?_⟩
                · obtain ⟨x, hx, e⟩ := k2 x' hx'
                  obtain ⟨y, hy, e'⟩ := p1 x hx
                  exact ⟨y, hy, (sw x hx x' hx' y hy e).1 e'⟩
                · obtain ⟨x, hx, e⟩ := p2 y hy
                  obtain ⟨x', hx', e'⟩ := k1 x hx
                  exact ⟨x', hx', by rw [← sz' x' hx' y hy, ← sw x hx x' hx' y hy (sy x hx x' hx' e'), sz x hx y hy]; exact e⟩
              · rintro ⟨p1, p2⟩
                refine ⟨fun x hx => ?_, fun y hy => ?_⟩
                · obtain ⟨x', hx', e⟩ := k1 x hx
                  obtain ⟨y, hy, e'⟩ := p1 x' hx'
                  exact ⟨y, hy, (sw x hx x' hx' y hy (sy x hx x' hx' e)).2 e'⟩
                · obtain ⟨x', hx', e⟩ := p2 y hy
                  obtain ⟨x, hx, e'⟩ := k2 x' hx'
                  exact ⟨x, hx, by rw [← sz x hx y hy, sw x hx x' hx' y hy e', sz' x' hx' y hy]; exact e⟩
            | _ => simp [shapeEq]
        · rw [if_neg hf] at he; cases he
      | _ => simp [ha, ha', shapeEq] at he

theorem pyEq_trans {n : Nat} {a b c : Term} (hn : a.size + b.size + c.size ≤ n) (h1 : pyEq n a b = .ok true)
    (h2 : pyEq n b c = .ok true) : pyEq n a c = .ok true := by
  rw [pyEq_congr n a b c hn h1]; exact h2

/-! ## Order -/

theorem tupLt_congr_left {eq lt : Term → Term → Ev Bool} {strict : Bool} : ∀ {xs xs' ys : List Term},
    (∀ x ∈ xs, ∀ x' ∈ xs', ∀ y ∈ ys, eq x x' = .ok true → eq x y = eq x' y ∧ lt x y = lt x' y) → tupEq eq xs xs' = .ok true →
    tupLt eq lt strict xs ys = tupLt eq lt strict xs' ys
  | [], [], _, _, _ => rfl
  | [], _ :: _, _, _, h => by simp [tupEq] at h
  | _ :: _, [], _, _, h => by simp [tupEq] at h
  | x :: xs, x' :: xs', [], _, _ => by simp [tupLt]
  | x :: xs, x' :: xs', y :: ys, hf, h => by
    rw [tupEq, Ev.bind_eq_ok] at h
    obtain ⟨e, he, h⟩ := h
    cases e with
    | false => simp at h
    | true =>
      simp only [if_true] at h
      obtain ⟨h1, h2⟩ := hf x (by simp) x' (by simp) y (by simp) he
      rw [tupLt, tupLt, h1, h2,
        tupLt_congr_left (fun x hx x' hx' y hy => hf x (by simp [hx]) x' (by simp [hx']) y (by simp [hy])) h]

theorem tupLt_congr_right {eq lt : Term → Term → Ev Bool} {strict : Bool} : ∀ {xs ys ys' : List Term},
    (∀ x ∈ xs, ∀ y ∈ ys, ∀ y' ∈ ys', eq y y' = .ok true → eq x y = eq x y' ∧ lt x y = lt x y') → tupEq eq ys ys' = .ok true →
    tupLt eq lt strict xs ys = tupLt eq lt strict xs ys'
  | _, [], [], _, _ => rfl
  | _, [], _ :: _, _, h => by simp [tupEq] at h
  | _, _ :: _, [], _, h => by simp [tupEq] at h
  | [], y :: ys, y' :: ys', _, _ => by simp [tupLt]
  | x :: xs, y :: ys, y' :: ys', hf, h => by
    rw [tupEq, Ev.bind_eq_ok] at h
    obtain ⟨e, he, h⟩ := h
    cases e with
    | false => simp at h
    | true =>
      simp only [if_true] at h
      obtain ⟨h1, h2⟩ := hf x (by simp) y (by simp) y' (by simp) he
      rw [tupLt, tupLt, h1, h2,
        tupLt_congr_right (fun x hx y hy y' hy' => hf x (by simp [hx]) y (by simp [hy]) y' (by simp [hy'])) h]

theorem setEq_nil_left {f : Term → Term → Ev Bool} {ys : List Term} (h : setEq f [] ys = .ok true) : ys = [] := by
  cases ys with
  | nil => rfl
  | cons y ys => simp [setEq, Ev.allL, memBy] at h

theorem setEq_nil_right {f : Term → Term → Ev Bool} {xs : List Term} (h : setEq f xs [] = .ok true) : xs = [] := by
  cases xs with
  | nil => rfl
  | cons y ys => simp [setEq, Ev.allL, memBy] at h

theorem setEq_nil_iff {f : Term → Term → Ev Bool} {xs ys : List Term} (h : setEq f xs ys = .ok true) : xs = [] ↔ ys = [] := by
  constructor
  · rintro rfl; exact setEq_nil_left h
  · rintro rfl; exact setEq_nil_right h

theorem tupEq_nil_iff {f : Term → Term → Ev Bool} {xs ys : List Term} (h : tupEq f xs ys = .ok true) : xs = [] ↔ ys = [] := by
  have := tupEq_length h
  cases xs <;> cases ys <;> simp_all

/-- What equality of literals means. -/
theorem shapeEq_lit {rec : Term → Term → Ev Bool} {f g : String} {as xs bs ys : List Term}
    (h : shapeEq rec (.lit f as xs) (.lit g bs ys) = .ok true) : f = g ∧ tupEq rec as bs = .ok true ∧ setEq rec xs ys = .ok true := by
  simp only [shapeEq] at h
  by_cases hf : f = g
  · rw [if_pos hf, Ev.bind_eq_ok] at h
    obtain ⟨e, he, hs⟩ := h
    cases e with
    | false => simp at hs
    | true => exact ⟨hf, he, by simpa using hs⟩
  · rw [if_neg hf] at h; cases h

theorem pyLt_congr_left : ∀ (n : Nat) (strict : Bool) (a a' b : Term), a.size + a'.size + b.size ≤ n → pyEq n a a' = .ok true →
    pyLt n strict a b = pyLt n strict a' b
  | 0, _, a, _, _, h, _ => by have := size_pos a; omega
  | n + 1, strict, a, a', b, h, he => by
    have ih := pyLt_congr_left n strict
    have ihe := pyEq_congr n
    rw [pyEq_shape (by omega)] at he
    rw [pyLt_shape, pyLt_shape]
    cases ha : shape a with
    | num p => cases ha' : shape a' <;> simp [ha, ha', shapeEq] at he; rw [he]
    | str s => cases ha' : shape a' <;> simp [ha, ha', shapeEq] at he; rw [he]
    | var x => cases ha' : shape a' <;> simp [ha, ha', shapeEq] at he; rw [he]
    | other => cases ha' : shape a' <;> simp [ha, ha', shapeEq] at he
    | list i =>
      cases ha' : shape a' with
      | list i' =>
        rw [ha, ha'] at he
        simp only [shapeEq] at he
        rcases shape_list ha with ⟨xs, rfl, hx⟩ | rfl
        · rcases shape_list ha' with ⟨xs', rfl, hx'⟩ | rfl
          · cases hb : shape b with
            | list j =>
              simp only [shapeLt, Ev.bind_ok] at he ⊢
              rcases shape_list hb with ⟨ys, rfl, hy⟩ | rfl
              · simp only [Ev.bind_ok]
                refine tupLt_congr_left (fun x h1 x' h2 y h3 e => ?_) he
                have := hx x h1; have := hx' x' h2; have := hy y h3
                exact ⟨ihe x x' y (by omega) e, ih x x' y (by omega) e⟩
              · rfl
            | _ => simp [shapeLt]
          · cases he
        · cases he
      | _ => simp [ha, ha', shapeEq] at he
    | lit f as xs =>
      cases ha' : shape a' with
      | lit f' as' xs' =>
        obtain ⟨-, ha1, -⟩ := shape_lit ha
        obtain ⟨-, hb1, -⟩ := shape_lit ha'
        rw [ha, ha'] at he
        obtain ⟨rfl, he, hs⟩ := shapeEq_lit he
        cases hb : shape b with
        | lit g bs ys =>
          obtain ⟨-, hc1, -⟩ := shape_lit hb
          simp only [shapeLt]
          simp only [setEq_nil_iff hs, tupEq_nil_iff he]
          rw [tupEq_length he, tupLt_congr_left (fun x h1 x' h2 y h3 e => ?_) he]
          have := ha1 x h1; have := hb1 x' h2; have := hc1 y h3
          exact ⟨ihe x x' y (by omega) e, ih x x' y (by omega) e⟩
        | _ => simp [shapeLt]
      | _ => simp [ha, ha', shapeEq] at he

theorem pyLt_congr_right : ∀ (n : Nat) (strict : Bool) (a b b' : Term), a.size + b.size + b'.size ≤ n → pyEq n b b' = .ok true →
    pyLt n strict a b = pyLt n strict a b'
  | 0, _, a, _, _, h, _ => by have := size_pos a; omega
  | n + 1, strict, a, b, b', h, he => by
    have ih := pyLt_congr_right n strict
    have ihe : ∀ x y y' : Term, x.size + y.size + y'.size ≤ n → pyEq n y y' = .ok true → pyEq n x y = pyEq n x y' := by
      intro x y y' hn e
      rw [pyEq_symm n x y (by omega), pyEq_symm n x y' (by omega)]
      exact pyEq_congr n y y' x (by omega) e
    rw [pyEq_shape (by omega)] at he
    rw [pyLt_shape, pyLt_shape]
    cases hb : shape b with
    | num p => cases hb' : shape b' <;> simp [hb, hb', shapeEq] at he; rw [he]
    | str s => cases hb' : shape b' <;> simp [hb, hb', shapeEq] at he; rw [he]
    | var x => cases hb' : shape b' <;> simp [hb, hb', shapeEq] at he; rw [he]
    | other => cases hb' : shape b' <;> simp [hb, hb', shapeEq] at he
    | list i =>
      cases hb' : shape b' with
      | list i' =>
        rw [hb, hb'] at he
        simp only [shapeEq] at he
        rcases shape_list hb with ⟨ys, rfl, hy⟩ | rfl
        · rcases shape_list hb' with ⟨ys', rfl, hy'⟩ | rfl
          · cases ha : shape a with
            | list j =>
              simp only [shapeLt, Ev.bind_ok] at he ⊢
              rcases shape_list ha with ⟨xs, rfl, hx⟩ | rfl
              · simp only [Ev.bind_ok]
                refine tupLt_congr_right (fun x h1 y h2 y' h3 e => ?_) he
                have := hx x h1; have := hy y h2; have := hy' y' h3
                exact ⟨ihe x y y' (by omega) e, ih x y y' (by omega) e⟩
              · rfl
            | _ => simp [shapeLt]
          · cases he
        · cases he
      | _ => simp [hb, hb', shapeEq] at he
    | lit f bs xs =>
      cases hb' : shape b' with
      | lit f' bs' xs' =>
        obtain ⟨-, ha1, -⟩ := shape_lit hb
        obtain ⟨-, hb1, -⟩ := shape_lit hb'
        rw [hb, hb'] at he
        obtain ⟨rfl, he, hs⟩ := shapeEq_lit he
        cases ha : shape a with
        | lit g as ys =>
          obtain ⟨-, hc1, -⟩ := shape_lit ha
          simp only [shapeLt]
          simp only [setEq_nil_iff hs, tupEq_nil_iff he]
          rw [tupEq_length he, tupLt_congr_right (fun x h1 y h2 y' h3 e => ?_) he]
          have := hc1 x h1; have := ha1 y h2; have := hb1 y' h3
          exact ⟨ihe x y y' (by omega) e, ih x y y' (by omega) e⟩
        | _ => simp [shapeLt]
      | _ => simp [hb, hb', shapeEq] at he

theorem tupLt_ne_tupEq {eq lt : Term → Term → Ev Bool} : ∀ {xs ys : List Term}, tupLt eq lt true xs ys = .ok true →
    tupEq eq xs ys = .ok false
  | [], [], h => by simp [tupLt] at h
  | [], _ :: _, _ => by simp [tupEq]
  | _ :: _, [], h => by simp [tupLt] at h
  | x :: xs, y :: ys, h => by
    rw [tupLt, Ev.bind_eq_ok] at h
    obtain ⟨e, he, h⟩ := h
    rw [tupEq, he, Ev.bind_ok]
    cases e with
    | false => rfl
    | true => simp only [if_true] at h ⊢; exact tupLt_ne_tupEq h

/-- Smaller things are different. -/
theorem pyLt_ne {n : Nat} {a b : Term} (hn : a.size + b.size ≤ n) (h : pyLt n true a b = .ok true) : pyEq n a b = .ok false := by
  cases n with
  | zero => simp [pyLt] at h
  | succ n =>
    rw [pyLt_shape] at h
    rw [pyEq_shape hn]
    cases ha : shape a <;> cases hb : shape b <;> rw [ha, hb] at h <;> simp only [shapeLt, if_true, Ev.ok.injEq, decide_eq_true_eq, reduceCtorEq] at h
    · simp only [shapeEq, Ev.ok.injEq, decide_eq_false_iff_not]; rintro rfl; exact Rat.lt_irrefl h
    · simp only [shapeEq, Ev.ok.injEq, decide_eq_false_iff_not]; rintro rfl; exact String.lt_irrefl _ h
    · next f as xs g bs ys =>
      simp only [shapeEq]
      split at h
      · simp only [Ev.ok.injEq, decide_eq_true_eq] at h
        rw [if_neg]; rintro rfl; exact String.lt_irrefl _ h
      · split at h
        · cases h
        · rw [tupLt_ne_tupEq h]; simp
    · simp only [shapeEq]
      rw [Ev.bind_eq_ok] at h
      obtain ⟨xs, rfl, h⟩ := h
      rw [Ev.bind_eq_ok] at h
      obtain ⟨ys, rfl, h⟩ := h
      exact tupLt_ne_tupEq h

theorem tupLt_asymm {eq lt : Term → Term → Ev Bool} : ∀ {xs ys : List Term},
    (∀ x ∈ xs, ∀ y ∈ ys, eq x y = eq y x ∧ (lt x y = .ok true → lt y x = .ok false)) → tupLt eq lt true xs ys = .ok true →
    tupLt eq lt true ys xs = .ok false
  | [], [], _, h => by simp [tupLt] at h
  | [], _ :: _, _, _ => by simp [tupLt]
  | _ :: _, [], _, h => by simp [tupLt] at h
  | x :: xs, y :: ys, hf, h => by
    rw [tupLt, Ev.bind_eq_ok] at h
    obtain ⟨e, he, h⟩ := h
    rw [tupLt, ← (hf x (by simp) y (by simp)).1, he, Ev.bind_ok]
    cases e with
    | false => simp only [Bool.false_eq_true, if_false] at h ⊢; exact (hf x (by simp) y (by simp)).2 h
    | true => simp only [if_true] at h ⊢; exact tupLt_asymm (fun x hx y hy => hf x (by simp [hx]) y (by simp [hy])) h

theorem pyLt_asymm : ∀ (n : Nat) (a b : Term), a.size + b.size ≤ n → pyLt n true a b = .ok true → pyLt n true b a = .ok false
  | 0, a, _, h, _ => by have := size_pos a; omega
  | n + 1, a, b, hn, h => by
    have ih := pyLt_asymm n
    rw [pyLt_shape] at h ⊢
    cases ha : shape a <;> cases hb : shape b <;> rw [ha, hb] at h <;> simp only [shapeLt, if_true, Ev.ok.injEq, decide_eq_true_eq, reduceCtorEq] at h
    · simp only [shapeLt, if_true, Ev.ok.injEq, decide_eq_false_iff_not]; exact Rat.not_lt.2 (Rat.le_of_lt h)
    · simp only [shapeLt, if_true, Ev.ok.injEq, decide_eq_false_iff_not]; exact String.lt_asymm h
    · next f as xs g bs ys =>
      obtain ⟨-, ha1, -⟩ := shape_lit ha
      obtain ⟨-, hb1, -⟩ := shape_lit hb
      simp only [shapeLt]
      split at h
      · next hc =>
        simp only [Ev.ok.injEq, decide_eq_true_eq] at h
        obtain ⟨h1, h2, h3, h4⟩ := hc
        rw [if_pos ⟨h3, h4, h1, h2⟩]
        simp only [if_true, Ev.ok.injEq, decide_eq_false_iff_not]; exact String.lt_asymm h
      · next hc =>
        rw [if_neg (by rintro ⟨h1, h2, h3, h4⟩; exact hc ⟨h3, h4, h1, h2⟩)]
        split at h
        · cases h
        · next hd =>
          rw [if_neg (by rintro (hg | hg) <;> exact hd (by simp [Ne.symm hg]))]
          refine tupLt_asymm (fun x hx y hy => ?_) h
          have := ha1 x hx; have := hb1 y hy
          exact ⟨pyEq_symm _ _ _ (by omega), ih x y (by omega)⟩
    · simp only [shapeLt]
      rw [Ev.bind_eq_ok] at h
      obtain ⟨xs, rfl, h⟩ := h
      rw [Ev.bind_eq_ok] at h
      obtain ⟨ys, rfl, h⟩ := h
      simp only [Ev.bind_ok]
      obtain ⟨_, e, hx⟩ := (shape_list ha).resolve_right nofun
      cases e
      obtain ⟨_, e, hy⟩ := (shape_list hb).resolve_right nofun
      cases e
      refine tupLt_asymm (fun x h1 y h2 => ?_) h
      have := hx x h1; have := hy y h2
      exact ⟨pyEq_symm _ _ _ (by omega), ih x y (by omega)⟩

theorem tupLt_trans {eq lt : Term → Term → Ev Bool} : ∀ {xs ys zs : List Term},
    (∀ x ∈ xs, ∀ y ∈ ys, ∀ z ∈ zs, (eq x y = .ok true → eq x z = eq y z ∧ lt x z = lt y z) ∧
      (eq y z = .ok true → eq x y = eq x z ∧ lt x y = lt x z) ∧
      (lt x y = .ok true → lt y z = .ok true → lt x z = .ok true ∧ eq x z = .ok false)) →
    tupLt eq lt true xs ys = .ok true → tupLt eq lt true ys zs = .ok true → tupLt eq lt true xs zs = .ok true
  | [], [], [], _, _, h => by simp [tupLt] at h
  | [], _ :: _, [], _, _, h => by simp [tupLt] at h
  | [], _, _ :: _, _, _, _ => by simp [tupLt]
  | _ :: _, [], _, _, h, _ => by simp [tupLt] at h
  | _ :: _, _ :: _, [], _, _, h => by simp [tupLt] at h
  | x :: xs, y :: ys, z :: zs, hf, h, h' => by
    rw [tupLt, Ev.bind_eq_ok] at h h'
    obtain ⟨e, he, h⟩ := h
    obtain ⟨e', he', h'⟩ := h'
    obtain ⟨k1, k2, k3⟩ := hf x (by simp) y (by simp) z (by simp)
    rw [tupLt]
    cases e with
    | true =>
      rw [(k1 he).1, he', Ev.bind_ok]
      cases e' with
      | true =>
        simp only [if_true] at h h' ⊢
        exact tupLt_trans (fun x hx y hy z hz => hf x (by simp [hx]) y (by simp [hy]) z (by simp [hz])) h h'
      | false =>
        simp only [Bool.false_eq_true, if_false] at h' ⊢
        rw [(k1 he).2]; exact h'
    | false =>
      simp only [Bool.false_eq_true, if_false] at h
      cases e' with
      | true =>
        rw [← (k2 he').1, he, Ev.bind_ok]
        simp only [Bool.false_eq_true, if_false]
        rw [← (k2 he').2]; exact h
      | false =>
        simp only [Bool.false_eq_true, if_false] at h'
        obtain ⟨h1, h2⟩ := k3 h h'
        rw [h2, Ev.bind_ok]
        simpa using h1

theorem pyLt_trans : ∀ (n : Nat) (a b c : Term), a.size + b.size + c.size ≤ n → pyLt n true a b = .ok true →
    pyLt n true b c = .ok true → pyLt n true a c = .ok true
  | 0, a, _, _, h, _, _ => by have := size_pos a; omega
  | n + 1, a, b, c, hn, h, h' => by
    have ih := pyLt_trans n
    have key : ∀ x y z : Term, x.size < a.size → y.size < b.size → z.size < c.size →
        (pyEq n x y = .ok true → pyEq n x z = pyEq n y z ∧ pyLt n true x z = pyLt n true y z) ∧
        (pyEq n y z = .ok true → pyEq n x y = pyEq n x z ∧ pyLt n true x y = pyLt n true x z) ∧
        (pyLt n true x y = .ok true → pyLt n true y z = .ok true → pyLt n true x z = .ok true ∧ pyEq n x z = .ok false) := by
      intro x y z hx hy hz
      refine ⟨fun e => ⟨pyEq_congr n x y z (by omega) e, pyLt_congr_left n true x y z (by omega) e⟩, fun e => ⟨?_, ?_⟩, fun e e' => ?_⟩
      · rw [pyEq_symm n x y (by omega), pyEq_symm n x z (by omega)]
        exact pyEq_congr n y z x (by omega) e
      · exact pyLt_congr_right n true x y z (by omega) e
      · have := ih x y z (by omega) e e'
        exact ⟨this, pyLt_ne (by omega) this⟩
    rw [pyLt_shape] at h h' ⊢
    cases ha : shape a <;> cases hb : shape b <;> rw [ha, hb] at h <;> simp only [shapeLt, if_true, Ev.ok.injEq, decide_eq_true_eq, reduceCtorEq] at h <;>
      cases hc : shape c <;> rw [hb, hc] at h' <;> simp only [shapeLt, if_true, Ev.ok.injEq, decide_eq_true_eq, reduceCtorEq] at h'
    · simp only [shapeLt, if_true, Ev.ok.injEq, decide_eq_true_eq]; exact Std.lt_trans h h'
    · simp only [shapeLt, if_true, Ev.ok.injEq, decide_eq_true_eq]; exact String.lt_trans h h'
    · next f as xs g bs ys k cs zs =>
      obtain ⟨-, ha1, -⟩ := shape_lit ha
      obtain ⟨-, hb1, -⟩ := shape_lit hb
      obtain ⟨-, hc1, -⟩ := shape_lit hc
      simp only [shapeLt, if_true]
      split at h
      · next hab =>
        obtain ⟨rfl, rfl, rfl, rfl⟩ := hab
        simp only [Ev.ok.injEq, decide_eq_true_eq] at h
        split at h'
        · next hbc =>
          obtain ⟨-, -, rfl, rfl⟩ := hbc
          simp only [Ev.ok.injEq, decide_eq_true_eq] at h'
          rw [if_pos ⟨rfl, rfl, rfl, rfl⟩]
          simp only [Ev.ok.injEq, decide_eq_true_eq]; exact String.lt_trans h h'
        · split at h'
          · cases h'
          · next hd =>
            cases cs with
            | nil => simp [tupLt] at h'
            | cons => exact absurd (.inr (by simp)) hd
      · split at h
        · cases h
        · next hab hd =>
          split at h'
          · next hbc =>
            obtain ⟨rfl, rfl, rfl, rfl⟩ := hbc
            cases as with
            | nil => simp [tupLt] at h
            | cons => exact absurd (.inr (by simp)) hd
          · split at h'
            · cases h'
            · next hd' =>
              have e1 : f = g := Classical.not_not.1 fun hh => hd (.inl hh)
              have e2 : as.length = bs.length := Classical.not_not.1 fun hh => hd (.inr hh)
              have e3 : g = k := Classical.not_not.1 fun hh => hd' (.inl hh)
              have e4 : bs.length = cs.length := Classical.not_not.1 fun hh => hd' (.inr hh)
              have h3 := tupLt_trans (fun x hx y hy z hz => key x y z (ha1 x hx) (hb1 y hy) (hc1 z hz)) h h'
              rw [if_neg, if_neg fun hh => hh.elim (· (e1.trans e3)) (· (e2.trans e4))]
              · exact h3
              · rintro ⟨rfl, -, rfl, -⟩; simp [tupLt] at h3
    · simp only [shapeLt]
      rw [Ev.bind_eq_ok] at h h'
      obtain ⟨xs, rfl, h⟩ := h
      rw [Ev.bind_eq_ok] at h
      obtain ⟨ys, rfl, h⟩ := h
      obtain ⟨_, e, h'⟩ := h'
      cases e
      rw [Ev.bind_eq_ok] at h'
      obtain ⟨zs, rfl, h'⟩ := h'
      simp only [Ev.bind_ok]
      obtain ⟨_, e, hx⟩ := (shape_list ha).resolve_right nofun
      cases e
      obtain ⟨_, e, hy⟩ := (shape_list hb).resolve_right nofun
      cases e
      obtain ⟨_, e, hz⟩ := (shape_list hc).resolve_right nofun
      cases e
      exact tupLt_trans (fun x h1 y h2 z h3 => key x y z (hx x h1) (hy y h2) (hz z h3)) h h'

/-! ## `<=` -/

theorem tupLt_le_of_eq {eq lt : Term → Term → Ev Bool} : ∀ {xs ys : List Term}, tupEq eq xs ys = .ok true →
    tupLt eq lt false xs ys = .ok true
  | [], [], _ => rfl
  | [], _ :: _, h => by simp [tupEq] at h
  | _ :: _, [], h => by simp [tupEq] at h
  | x :: xs, y :: ys, h => by
    rw [tupEq, Ev.bind_eq_ok] at h
    obtain ⟨e, he, h⟩ := h
    rw [tupLt, he, Ev.bind_ok]
    cases e with
    | false => simp at h
    | true => simp only [if_true] at h ⊢; exact tupLt_le_of_eq h

/-- Equal literals and lists are `<=`. -/
theorem pyLe_of_eq {n : Nat} {a b : Term} (hn : a.size + b.size ≤ n) (hs : shape a ≠ .other) (hv : ∀ x, shape a ≠ .var x)
    (h : pyEq n a b = .ok true) : pyLt n false a b = .ok true := by
  cases n with
  | zero => simp [pyEq] at h
  | succ n =>
    rw [pyEq_shape hn] at h
    rw [pyLt_shape]
    cases ha : shape a with
    | num p => cases hb : shape b <;> simp [ha, hb, shapeEq, shapeLt] at h ⊢; rw [h]; exact Rat.le_refl
    | str s => cases hb : shape b <;> simp [ha, hb, shapeEq, shapeLt] at h ⊢; rw [h]; exact String.le_refl _
    | var x => exact absurd ha (hv x)
    | other => exact absurd ha hs
    | list i =>
      cases hb : shape b with
      | list j =>
        rw [ha, hb] at h
        simp only [shapeEq, Ev.bind_eq_ok] at h
        obtain ⟨xs, rfl, ys, rfl, h⟩ := h
        exact tupLt_le_of_eq h
      | _ => simp [ha, hb, shapeEq] at h
    | lit f as xs =>
      cases hb : shape b with
      | lit g bs ys =>
        rw [ha, hb] at h
        obtain ⟨rfl, h, -⟩ := shapeEq_lit h
        simp only [shapeLt]
        split
        · simp
        · rw [if_neg (by simp [tupEq_length h])]; exact tupLt_le_of_eq h
      | _ => simp [ha, hb, shapeEq] at h

theorem tupLe_of_lt {eq lt le : Term → Term → Ev Bool} : ∀ {xs ys : List Term},
    (∀ x ∈ xs, ∀ y ∈ ys, lt x y = .ok true → le x y = .ok true) → tupLt eq lt true xs ys = .ok true →
    tupLt eq le false xs ys = .ok true
  | [], [], _, h => by simp [tupLt] at h
  | [], _ :: _, _, _ => by simp [tupLt]
  | _ :: _, [], _, h => by simp [tupLt] at h
  | x :: xs, y :: ys, hf, h => by
    rw [tupLt, Ev.bind_eq_ok] at h
    obtain ⟨e, he, h⟩ := h
    rw [tupLt, he, Ev.bind_ok]
    cases e with
    | true => simp only [if_true] at h ⊢; exact tupLe_of_lt (fun x hx y hy => hf x (by simp [hx]) y (by simp [hy])) h
    | false => simp only [Bool.false_eq_true, if_false] at h ⊢; exact hf x (by simp) y (by simp) h

theorem pyLe_of_lt : ∀ (n : Nat) (a b : Term), pyLt n true a b = .ok true → pyLt n false a b = .ok true
  | 0, _, _, h => by simp [pyLt] at h
  | n + 1, a, b, h => by
    have ih := pyLe_of_lt n
    rw [pyLt_shape] at h ⊢
    cases ha : shape a <;> cases hb : shape b <;> rw [ha, hb] at h <;>
      simp only [shapeLt, if_true, Ev.ok.injEq, decide_eq_true_eq, reduceCtorEq] at h
    · simp only [shapeLt, Bool.false_eq_true, if_false, Ev.ok.injEq, decide_eq_true_eq]; exact Rat.le_of_lt h
    · simp only [shapeLt, Bool.false_eq_true, if_false, Ev.ok.injEq, decide_eq_true_eq]; exact Std.le_of_lt h
    · simp only [shapeLt, Bool.false_eq_true, if_false]
      split at h
      · next hc =>
        simp only [Ev.ok.injEq, decide_eq_true_eq] at h
        rw [if_pos hc]
        simp only [Ev.ok.injEq, decide_eq_true_eq]; exact Std.le_of_lt h
      · next hc =>
        rw [if_neg hc]
        split at h
        · cases h
        · next hd => rw [if_neg hd]; exact tupLe_of_lt (fun x _ y _ => ih x y) h
    · simp only [shapeLt]
      rw [Ev.bind_eq_ok] at h
      obtain ⟨xs, rfl, h⟩ := h
      rw [Ev.bind_eq_ok] at h
      obtain ⟨ys, rfl, h⟩ := h
      exact tupLe_of_lt (fun x _ y _ => ih x y) h

theorem tupLt_le_iff {eq lt le : Term → Term → Ev Bool} : ∀ {xs ys : List Term},
    (∀ x ∈ xs, ∀ y ∈ ys, (∀ p, lt x y = .ok p → ∃ e, eq x y = .ok e ∧ le x y = .ok (p || e)) ∧
      ∀ q, le x y = .ok q → ∃ p, lt x y = .ok p) →
    (∀ p, tupLt eq lt true xs ys = .ok p → ∃ e, tupEq eq xs ys = .ok e ∧ tupLt eq le false xs ys = .ok (p || e)) ∧
      ∀ q, tupLt eq le false xs ys = .ok q → ∃ p, tupLt eq lt true xs ys = .ok p
  | [], [], _ => by simp [tupLt, tupEq]
  | [], _ :: _, _ => by simp [tupLt, tupEq]
  | _ :: _, [], _ => by simp [tupLt, tupEq]
  | x :: xs, y :: ys, hf => by
    obtain ⟨ih1, ih2⟩ := tupLt_le_iff (xs := xs) (ys := ys) fun x hx y hy => hf x (by simp [hx]) y (by simp [hy])
    obtain ⟨h1, h2⟩ := hf x (by simp) y (by simp)
    constructor
    · intro p h
      rw [tupLt, Ev.bind_eq_ok] at h
      obtain ⟨e, he, h⟩ := h
      rw [tupEq, tupLt, he, Ev.bind_ok, Ev.bind_ok]
      cases e with
      | true => simp only [if_true] at h ⊢; exact ih1 p h
      | false =>
        simp only [Bool.false_eq_true, if_false] at h ⊢
        obtain ⟨e, he', h⟩ := h1 p h
        rw [he] at he'
        cases he'
        exact ⟨false, rfl, h⟩
    · intro q h
      rw [tupLt, Ev.bind_eq_ok] at h
      obtain ⟨e, he, h⟩ := h
      rw [tupLt, he, Ev.bind_ok]
      cases e with
      | true => simp only [if_true] at h ⊢; exact ih2 q h
      | false => simp only [Bool.false_eq_true, if_false] at h ⊢; exact h2 q h

theorem bareL_mem : ∀ {ts : List Term}, Term.BareL ts → ∀ t ∈ ts, t.Bare
  | _ :: _, h, t, ht => by
    rw [Term.BareL] at h
    rcases List.mem_cons.1 ht with rfl | ht
    · exact h.1
    · exact bareL_mem h.2 t ht

theorem iter_bare : ∀ {t : Term}, t.Bare → ∀ {xs : List Term}, iter t = .ok xs → ∀ x ∈ xs, x.Bare
  | .tup ys, h, xs, hi, x, hx => by
    simp [iter] at hi; subst hi
    exact bareL_mem (by simpa [Term.Bare] using h) x hx
  | .cons hd tl, h, xs, hi, x, hx => by
    rw [iter, Ev.map_eq_ok] at hi
    obtain ⟨ys, hy, rfl⟩ := hi
    rw [Term.Bare] at h
    rcases List.mem_cons.1 hx with rfl | hx
    · exact h.1
    · exact iter_bare h.2 hy x hx
  | .str s, _, xs, hi, x, hx => by
    simp [iter] at hi; subst hi
    obtain ⟨c, _, rfl⟩ := List.mem_map.1 hx
    simp [Term.Bare]
  | .bool _, _, _, hi, _, _ | .num _, _, _, hi, _, _ | .lit _ _ _, _, _, hi, _, _ | .var _, _, _, hi, _, _ | .wild, _, _, hi, _, _
  | .un _ _, _, _, hi, _, _ | .bin _ _ _, _, _, hi, _, _ => by simp [iter] at hi

theorem shape_list_bare {a : Term} {xs : List Term} (hb : a.Bare) (h : shape a = .list (.ok xs)) : ∀ x ∈ xs, x.Bare := by
  cases a <;> simp [shape] at h
  · subst h; exact bareL_mem (by simpa [Term.Bare] using hb)
  · exact iter_bare hb h

/-- Without annotations, `a <= b` is `a < b or a == b`; and `a <= b` raises exactly if `a < b` does. -/
theorem pyLe_iff : ∀ (n : Nat) (a b : Term), a.size + b.size ≤ n → a.Bare → b.Bare →
    (∀ p, pyLt n true a b = .ok p → ∃ e, pyEq n a b = .ok e ∧ pyLt n false a b = .ok (p || e)) ∧
      ∀ q, pyLt n false a b = .ok q → ∃ p, pyLt n true a b = .ok p
  | 0, a, _, h, _, _ => by have := size_pos a; omega
  | n + 1, a, b, hn, hba, hbb => by
    have ih := pyLe_iff n
    rw [pyLt_shape, pyLt_shape, pyEq_shape hn]
    cases ha : shape a <;> cases hb : shape b <;> simp only [shapeLt, shapeEq, if_true, Bool.false_eq_true, if_false, reduceCtorEq, false_implies, implies_true, and_self]
    · next p q =>
      refine ⟨fun r hr => ⟨_, rfl, ?_⟩, fun r _ => ⟨_, rfl⟩⟩
      cases hr
      rw [Ev.ok.injEq, Bool.eq_iff_iff]
      simp only [decide_eq_true_eq, Bool.or_eq_true]
      exact Rat.le_iff_lt_or_eq
    · next s t =>
      refine ⟨fun r hr => ⟨_, rfl, ?_⟩, fun r _ => ⟨_, rfl⟩⟩
      cases hr
      rw [Ev.ok.injEq, Bool.eq_iff_iff]
      simp only [decide_eq_true_eq, Bool.or_eq_true]
      exact Std.le_iff_lt_or_eq
    · next f as xs g bs ys =>
      obtain ⟨rfl, ha1, -⟩ := shape_lit ha
      obtain ⟨rfl, hb1, -⟩ := shape_lit hb
      rw [Term.Bare] at hba hbb
      obtain ⟨rfl, hba⟩ := hba
      obtain ⟨rfl, hbb⟩ := hbb
      by_cases hc : as = [] ∧ bs = []
      · obtain ⟨rfl, rfl⟩ := hc
        simp only [and_self, if_true, tupEq, Ev.bind_ok, setEq, Ev.allL]
        refine ⟨fun r hr => ⟨decide (f = g), by by_cases f = g <;> simp [*], ?_⟩, fun r _ => ⟨_, rfl⟩⟩
        cases hr
        rw [Ev.ok.injEq, Bool.eq_iff_iff]
        simp only [decide_eq_true_eq, Bool.or_eq_true]
        exact Std.le_iff_lt_or_eq
      · have hc' : ¬ (as = [] ∧ ([] : List Term) = [] ∧ bs = [] ∧ ([] : List Term) = []) := by
          rintro ⟨h1, -, h2, -⟩; exact hc ⟨h1, h2⟩
        by_cases hd : f ≠ g ∨ as.length ≠ bs.length
        · rw [if_neg hc', if_neg hc', if_pos hd, if_pos hd]; simp
        · have hfg : f = g := Classical.not_not.1 fun hh => hd (.inl hh)
          obtain ⟨h1, h2⟩ := tupLt_le_iff (eq := pyEq n) (lt := pyLt n true) (le := pyLt n false) (xs := as) (ys := bs) fun x hx y hy =>
            ih x y (by have := ha1 x hx; have := hb1 y hy; omega) (bareL_mem hba x hx) (bareL_mem hbb y hy)
          rw [if_neg hc', if_neg hc', if_neg hd, if_neg hd, if_pos hfg]
          refine ⟨fun p hp => ?_, h2⟩
          obtain ⟨e, he, hle⟩ := h1 p hp
          exact ⟨e, by rw [he]; cases e <;> simp [setEq, Ev.allL], hle⟩
    · rcases shape_list ha with ⟨xs, rfl, hx⟩ | rfl
      · rcases shape_list hb with ⟨ys, rfl, hy⟩ | rfl
        · simp only [Ev.bind_ok]
          exact tupLt_le_iff fun x h1 y h2 => ih x y (by have := hx x h1; have := hy y h2; omega)
            (shape_list_bare hba ha x h1) (shape_list_bare hbb hb y h2)
        · simp
      · simp

/-! ## Fuel -/

theorem tupLt_ne_oof {eq lt : Term → Term → Ev Bool} {strict : Bool} : ∀ {xs ys : List Term},
    (∀ x ∈ xs, ∀ y ∈ ys, eq x y ≠ .oof ∧ lt x y ≠ .oof) → tupLt eq lt strict xs ys ≠ .oof
  | [], [], _ | [], _ :: _, _ | _ :: _, [], _ => by simp [tupLt]
  | x :: xs, y :: ys, h => by
    rw [tupLt, Ev.bind_ne_oof]
    refine ⟨(h x (by simp) y (by simp)).1, fun e _ => ?_⟩
    cases e with
    | true => exact tupLt_ne_oof fun x hx y hy => h x (by simp [hx]) y (by simp [hy])
    | false => exact (h x (by simp) y (by simp)).2

theorem pyLt_ne_oof : ∀ (n : Nat) (strict : Bool) (a b : Term), a.size + b.size ≤ n → pyLt n strict a b ≠ .oof
  | 0, _, a, _, h => by have := size_pos a; omega
  | n + 1, strict, a, b, hn => by
    have ih := pyLt_ne_oof n strict
    rw [pyLt_shape]
    cases ha : shape a <;> cases hb : shape b <;> simp only [shapeLt] <;> try (simp; done)
    · next f as xs g bs ys =>
      obtain ⟨-, ha1, -⟩ := shape_lit ha
      obtain ⟨-, hb1, -⟩ := shape_lit hb
      split
      · exact nofun
      · split
        · exact nofun
        · refine tupLt_ne_oof fun x hx y hy => ?_
          have := ha1 x hx; have := hb1 y hy
          exact ⟨pyEq_ne_oof _ _ _ (by omega), ih x y (by omega)⟩
    · rcases shape_list ha with ⟨xs, rfl, hx⟩ | rfl
      · rcases shape_list hb with ⟨ys, rfl, hy⟩ | rfl
        · simp only [Ev.bind_ok]
          refine tupLt_ne_oof fun x h1 y h2 => ?_
          have := hx x h1; have := hy y h2
          exact ⟨pyEq_ne_oof _ _ _ (by omega), ih x y (by omega)⟩
        · simp
      · simp

theorem pyCompare_ne_oof {n : Nat} {op : BinOp} {a b : Term} (hn : a.size + b.size ≤ n) : pyCompare n op a b ≠ .oof := by
  cases op <;> simp only [pyCompare] <;> try (simp; done)
  · exact pyLt_ne_oof _ _ _ _ hn
  · exact pyLt_ne_oof _ _ _ _ hn
  · rw [Ev.map_ne_oof]; exact pyEq_ne_oof _ _ _ hn
  · exact pyEq_ne_oof _ _ _ hn
  · exact pyLt_ne_oof _ _ _ _ (by omega)
  · exact pyLt_ne_oof _ _ _ _ (by omega)

theorem pyCompare_mono {op : BinOp} {a b : Term} {n m : Nat} (h : n ≤ m) (hne : pyCompare n op a b ≠ .oof) :
    pyCompare m op a b = pyCompare n op a b := by
  induction h with
  | refl => rfl
  | step _ ih => rw [(pyCompare_succ _ op a b).eq (by rw [ih]; exact hne), ih]

theorem Compares.iff {op : BinOp} {a b : Term} {r : Ev Bool} {n : Nat} (hn : a.size + b.size ≤ n) :
    Compares op a b r ↔ pyCompare n op a b = r := by
  constructor
  · rintro ⟨m, h, hne⟩
    rcases Nat.le_total m n with hmn | hmn
    · rw [pyCompare_mono hmn (by rw [h]; exact hne), h]
    · rw [← pyCompare_mono hmn (pyCompare_ne_oof hn), h]
  · intro h
    exact ⟨n, h, by rw [← h]; exact pyCompare_ne_oof hn⟩

end Verif
