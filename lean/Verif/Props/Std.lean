import Verif.Lemmas.Sort
import Verif.Lemmas.Registry
import Verif.Lemmas.Collect
import Verif.Lemmas.BeliefOps
import Verif.Spec.ExactHost

/-!
# The functions of the standard library (C66)
-/

namespace Verif

variable [Host] {random randint : List Term → Ev Term} {i : Nat}

omit [Host] in
theorem find_std (hi : i ≤ 1) {f : String} {k : Nat} {a : Act} (he : findExt randint f k = none) (h : findStd random f k = some a) :
    stdLookup random randint i f k = some a := by
  match i, hi with
  | 0, _ => rw [stdLookup_zero]; exact h
  | 1, _ => rw [stdLookup_one, he]; exact h

omit [Host] in
/-- **C66.** Both libraries can be imported: no action is registered twice. -/
theorem C66_loads : ∃ h, loadStd random randint = .ok h :=
  let ⟨h, e, _⟩ := loadStd_ok random randint
  ⟨h, e⟩

/-! ## Lists -/

/-- **C66.** `.length` is the number of items of a list, or of characters of a string. -/
theorem C66_length (hi : i ≤ 1) :
    (∀ {l : Term} {xs : List Term}, ListOf l xs → StdCall (stdLookup random randint i) ".length" [l] (.ok (.num xs.length))) ∧
      ∀ s : String, StdCall (stdLookup random randint i) ".length" [.str s] (.ok (.num s.length)) := by
  refine ⟨fun h => ⟨_, _, find_std hi rfl rfl, rfl, ?_⟩, fun s => ⟨_, _, find_std hi rfl rfl, rfl, rfl⟩⟩
  simp only [convertAll, convert, Ev.bind_ok, Ev.map_ok, fnLength]
  rw [(C48_items h).1]; rfl

/-- **C66.** `.nth` is the item with this index, counted from 0.  If there is none, it raises. -/
theorem C66_nth (hi : i ≤ 1) {l : Term} {xs : List Term} (h : ListOf l xs) (k : Int) :
    StdCall (stdLookup random randint i) ".nth" [.num k, l]
      (if h : 0 ≤ k ∧ k < xs.length then .ok (xs[k.toNat]'(by omega)) else .err (.py (if 0 ≤ k then "IndexError" else "AssertionError"))) := by
  refine ⟨_, _, find_std hi rfl rfl, rfl, ?_⟩
  have hk : pyInt (.num k) = .ok k := by
    rw [pyInt, Rat.floor_intCast, Rat.ceil_intCast]; simp
  have h0 : ((0 : Rat) ≤ (k : Rat)) ↔ 0 ≤ k := by rw [← Rat.intCast_zero]; exact Rat.intCast_le_intCast
  simp only [convertAll, convert, hk, Ev.map_ok, Ev.bind_ok, h.iter, fnNth]
  by_cases h1 : 0 ≤ k
  · rw [if_pos (h0.2 h1), Rat.floor_intCast]
    by_cases h2 : k < xs.length
    · rw [dif_pos ⟨h1, h2⟩, List.getElem?_eq_getElem (by omega)]
    · rw [dif_neg (fun h => h2 h.2), List.getElem?_eq_none (by omega), if_pos h1]
  · rw [if_neg (mt h0.1 h1), dif_neg (fun h => h1 h.1), if_neg h1]

/-- **C66.** `.min`: an item such that none is smaller; if no item carries annotations, the first
of them.  It raises for the empty list. -/
theorem C66_min (hi : i ≤ 1) :
    (∀ {l : Term} {xs : List Term}, ListOf l xs → xs ≠ [] → Sortable xs →
      ∃ m, StdCall (stdLookup random randint i) ".min" [l] (.ok m) ∧ m ∈ xs ∧ (∀ y ∈ xs, Compares .lt y m (.ok false)) ∧
        ((∀ x ∈ xs, x.Bare) → ∃ us vs, xs = us ++ m :: vs ∧ ∀ u ∈ us, Compares .lt m u (.ok true))) ∧
      ∀ {l : Term}, ListOf l [] → StdCall (stdLookup random randint i) ".min" [l] (.err (.py "ValueError")) := by
  refine ⟨fun {l xs} hl hne hs => ?_, fun {l} hl => ⟨_, _, find_std hi rfl rfl, rfl, ?_⟩⟩
  · cases xs with
    | nil => exact absurd rfl hne
    | cons x xs =>
      obtain ⟨h1, h2⟩ := best_mem (better := lessB) (fun _ _ _ => lessB_trans) lessB_irrefl (xs := xs) (pre := []) (m := x) (by simp)
      refine ⟨best lessB x xs, ⟨_, _, find_std hi rfl rfl, rfl, ?_⟩, h1, fun y hy => ?_, fun hb => ?_⟩
      · simp only [convertAll, convert, hl.iter, Ev.map_ok, Ev.bind_ok, fnMin]
        exact minGo_eq hs
      · rw [pyLess_iff, lessB_ok (hs y hy _ h1), h2 y hy]
      · obtain ⟨us, vs, e, h⟩ := best_first (better := lessB) (us := x :: xs) (fun _ _ _ => lessB_trans)
          (fun a ha b hb' c _ => lessB_neg_trans ⟨hs, hb⟩ ha hb') (xs := xs) (pre := []) (mid := []) (m := x) (by simp) (by simp) (by simp)
        exact ⟨us, vs, e, fun u hu => lessB_true.1 (h u hu)⟩
  · simp only [convertAll, convert, hl.iter, Ev.map_ok, Ev.bind_ok, fnMin]

/-- **C66.** `.max`: an item such that none is larger; if no item carries annotations, the first
of them.  It raises for the empty list. -/
theorem C66_max (hi : i ≤ 1) :
    (∀ {l : Term} {xs : List Term}, ListOf l xs → xs ≠ [] → Sortable xs →
      ∃ m, StdCall (stdLookup random randint i) ".max" [l] (.ok m) ∧ m ∈ xs ∧ (∀ y ∈ xs, Compares .lt m y (.ok false)) ∧
        ((∀ x ∈ xs, x.Bare) → ∃ us vs, xs = us ++ m :: vs ∧ ∀ u ∈ us, Compares .lt u m (.ok true))) ∧
      ∀ {l : Term}, ListOf l [] → StdCall (stdLookup random randint i) ".max" [l] (.err (.py "ValueError")) := by
  refine ⟨fun {l xs} hl hne hs => ?_, fun {l} hl => ⟨_, _, find_std hi rfl rfl, rfl, ?_⟩⟩
  · cases xs with
    | nil => exact absurd rfl hne
    | cons x xs =>
      obtain ⟨h1, h2⟩ := best_mem (better := fun a b => lessB b a) (fun _ _ _ h h' => lessB_trans h' h) lessB_irrefl
        (xs := xs) (pre := []) (m := x) (by simp)
      refine ⟨best (fun a b => lessB b a) x xs, ⟨_, _, find_std hi rfl rfl, rfl, ?_⟩, h1, fun y hy => ?_, fun hb => ?_⟩
      · simp only [convertAll, convert, hl.iter, Ev.map_ok, Ev.bind_ok, fnMax]
        exact maxGo_eq hs
      · rw [pyLess_iff, lessB_ok (hs _ h1 y hy), h2 y hy]
      · obtain ⟨us, vs, e, h⟩ := best_first (better := fun a b => lessB b a) (us := x :: xs) (fun _ _ _ h h' => lessB_trans h' h)
          (fun a _ b hb' c hc h h' => lessB_neg_trans ⟨hs, hb⟩ hc hb' h' h) (xs := xs) (pre := []) (mid := []) (m := x) (by simp) (by simp) (by simp)
        exact ⟨us, vs, e, fun u hu => lessB_true.1 (h u hu)⟩
  · simp only [convertAll, convert, hl.iter, Ev.map_ok, Ev.bind_ok, fnMax]

omit [Host] in
theorem equiv_pyEqB {xs : List Term} (h : Orderable xs) {a x : Term} (ha : a ∈ xs) (hx : x ∈ xs) :
    (!lessB a x && !lessB x a) = pyEqB a x := by
  rw [Bool.eq_iff_iff]
  simp only [Bool.and_eq_true, Bool.not_eq_true']
  have he : pyEqB a x = true ↔ Compares .eq a x (.ok true) := by
    rw [Compares.iff (n := a.size + x.size) (Nat.le_refl _), pyEqB]
    simp only [pyCompare]
    split <;> simp_all
  rw [he]
  constructor
  · rintro ⟨h1, h2⟩
    exact lessB_tri (h.2 a ha) (h.2 x hx) (h.1 a ha x hx) (h.1 x hx a ha) h1 h2
  · intro e
    rw [(lessB_congr (z := x) e).1, (lessB_congr (z := x) e).2]
    exact ⟨lessB_irrefl x, lessB_irrefl x⟩

/-- **C66.** `.sort`, for items without annotations that can be compared: the same items in
ascending order; items that are equal keep their order. -/
theorem C66_sort_partial (hi : i ≤ 1) {l : Term} {xs : List Term} (hl : ListOf l xs) (hs : Sortable xs) (hb : ∀ x ∈ xs, x.Bare) :
    ∃ ys, StdCall (stdLookup random randint i) ".sort" [l] (.ok (.tup ys)) ∧ ys.Perm xs ∧
      ys.Pairwise (fun a b => Compares .le a b (.ok true)) ∧
      ∀ a ∈ xs, ys.filter (pyEqB a) = xs.filter (pyEqB a) := by
  obtain ⟨h1, h2, h3⟩ := sortB_spec (us := xs) ⟨hs, hb⟩ (xs := xs) (acc := []) (by simp) (by simp)
  have hp : (sortB [] xs).reverse.Perm xs := (List.reverse_perm _).trans h1
  refine ⟨(sortB [] xs).reverse, ⟨_, _, find_std hi rfl rfl, rfl, ?_⟩, hp, ?_, fun a ha => ?_⟩
  · simp only [convertAll, convert, hl.iter, Ev.map_ok, Ev.bind_ok, fnSort]
    rw [sortGo_eq (by simpa using hs)]; rfl
  · rw [List.pairwise_reverse]
    refine h2.imp_of_mem fun {a b} ha hb' h => ?_
    have ha := h1.mem_iff.1 ha
    have hb' := h1.mem_iff.1 hb'
    simp only [List.nil_append] at ha hb'
    obtain ⟨h4, -⟩ := C49_le_partial.2.2 b a (hb b hb') (hb a ha)
    cases hc : lessB b a with
    | true => exact C49_le_partial.1 _ _ (lessB_true.1 hc)
    | false =>
      have := h4 false true (by rw [pyLess_iff, lessB_ok (hs b hb' a ha), hc])
        (lessB_tri (hb b hb') (hb a ha) (hs b hb' a ha) (hs a ha b hb') hc h)
      simpa using this
  · have hc : ∀ {zs : List Term}, (∀ z ∈ zs, z ∈ xs) →
        zs.filter (fun x => !lessB a x && !lessB x a) = zs.filter (pyEqB a) := fun hz =>
      List.filter_congr fun z hz' => equiv_pyEqB ⟨hs, hb⟩ ha (hz z hz')
    have := h3 a ha
    rw [hc (fun z hz => hp.mem_iff.1 hz), hc (by simp)] at this
    simpa using this

/-- **C66 fails** with annotations: `.sort` can put a larger item before a smaller one. -/
theorem C66_sort_annotated (hi : i ≤ 1) :
    let t₁ : Term := .tup [.lit "p" [] [.atom "a"], .num 1]
    let t₂ : Term := .tup [.lit "p" [] [.atom "b"], .num 5]
    let t₃ : Term := .tup [.lit "p" [] [.atom "a"], .num 0]
    Sortable [t₁, t₂, t₃] ∧ StdCall (stdLookup random randint i) ".sort" [.tup [t₁, t₂, t₃]] (.ok (.tup [t₁, t₂, t₃])) ∧
      Compares .lt t₃ t₁ (.ok true) := by
  refine ⟨?_, ⟨_, _, find_std hi rfl rfl, rfl, rfl⟩, 20, rfl, nofun⟩
  intro x hx y hy
  simp only [List.mem_cons, List.not_mem_nil, or_false] at hx hy
  rcases hx with rfl | rfl | rfl <;> rcases hy with rfl | rfl | rfl <;> exact ⟨_, 20, rfl, nofun⟩

/-! ## Types -/

/-- **C66.** Every value is exactly one of: a truth value, a number, a string, a literal, a list.
Structures are literals and lists, atoms are literals without arguments and annotations. -/
theorem C66_types (hi : i ≤ 1) (v : Term) :
    ∃ num str lit lst stru atom : Bool, StdTest (stdLookup random randint i) ".number" [v] (.ok num) ∧
      StdTest (stdLookup random randint i) ".string" [v] (.ok str) ∧ StdTest (stdLookup random randint i) ".literal" [v] (.ok lit) ∧
      StdTest (stdLookup random randint i) ".list" [v] (.ok lst) ∧ StdTest (stdLookup random randint i) ".structure" [v] (.ok stru) ∧
      StdTest (stdLookup random randint i) ".atom" [v] (.ok atom) ∧
      (num = true ↔ ∃ q, v = .num q) ∧ (str = true ↔ ∃ s, v = .str s) ∧ (lit = true ↔ ∃ f as xs, v = .lit f as xs) ∧
      (lst = true ↔ (∃ xs, v = .tup xs) ∨ ∃ h t, v = .cons h t) ∧ stru = (lit || lst) ∧ (atom = true ↔ ∃ f, v = .lit f [] []) := by
  refine ⟨v.isNumber, v.isString, v.isLiteral, v.isList, v.isStructure, v.isAtom, ⟨_, _, find_std hi rfl rfl, rfl, rfl⟩,
    ⟨_, _, find_std hi rfl rfl, rfl, rfl⟩, ⟨_, _, find_std hi rfl rfl, rfl, rfl⟩, ⟨_, _, find_std hi rfl rfl, rfl, rfl⟩,
    ⟨_, _, find_std hi rfl rfl, rfl, rfl⟩, ⟨_, _, find_std hi rfl rfl, rfl, rfl⟩, ?_, ?_, ?_, ?_, rfl, ?_⟩
  · cases v <;> simp [Term.isNumber]
  · cases v <;> simp [Term.isString]
  · cases v <;> simp [Term.isLiteral]
  · cases v <;> simp [Term.isList]
  · cases v with
    | lit f as xs => cases as <;> cases xs <;> simp [Term.isAtom]
    | _ => simp [Term.isAtom]

/-! ## Extensions -/

/-- **C66.** `.floor`, `.ceil` and `.round` of the extended library: the next integer below or
above, and the nearest integer, which is even if there are two. -/
theorem C66_round (q : Rat) :
    ∃ a b c : Int, StdCall (stdLookup random randint 1) ".floor" [.num q] (.ok (.num a)) ∧
      StdCall (stdLookup random randint 1) ".ceil" [.num q] (.ok (.num b)) ∧
      StdCall (stdLookup random randint 1) ".round" [.num q] (.ok (.num c)) ∧
      ((a : Rat) ≤ q ∧ q < a + 1) ∧ ((b : Rat) - 1 < q ∧ q ≤ b) ∧
      (c : Rat) - 1 / 2 ≤ q ∧ q ≤ c + 1 / 2 ∧ ((q = c + 1 / 2 ∨ q = c - 1 / 2) → c % 2 = 0) := by
  refine ⟨q.floor, q.ceil, if ((q + 1 / 2).floor : Rat) = q + 1 / 2 ∧ (q + 1 / 2).floor % 2 = 1 then (q + 1 / 2).floor - 1 else (q + 1 / 2).floor,
    ⟨_, _, by rw [stdLookup_one]; rfl, rfl, rfl⟩, ⟨_, _, by rw [stdLookup_one]; rfl, rfl, rfl⟩,
    ⟨_, _, by rw [stdLookup_one]; rfl, rfl, rfl⟩, ⟨Rat.floor_le q, ?_⟩, ⟨?_, Rat.le_ceil⟩, ?_⟩
  · have := Rat.lt_floor (x := q); grind
  · have := Rat.ceil_lt (x := q); grind
  · have h1 := Rat.floor_le (q + 1 / 2)
    have h2 := Rat.lt_floor (x := q + 1 / 2)
    generalize (q + 1 / 2).floor = k at *
    split
    · next h =>
      obtain ⟨h3, h4⟩ := h
      rw [Rat.intCast_sub, Rat.intCast_one]
      refine ⟨by grind, by grind, fun _ => by omega⟩
    · next h =>
      refine ⟨by grind, by grind, ?_⟩
      rintro (h3 | h3)
      · exfalso; grind
      · have : (k : Rat) = q + 1 / 2 := by grind
        have : ¬ k % 2 = 1 := fun e => h ⟨this, e⟩
        omega

/-- **C66.** `.tail` of the extended library: all items but the first one. -/
theorem C66_tail {l : Term} {xs : List Term} (h : ListOf l xs) :
    StdCall (stdLookup random randint 1) ".tail" [l] (.ok (.tup xs.tail)) := by
  refine ⟨_, _, by rw [stdLookup_one]; rfl, rfl, ?_⟩
  simp only [convertAll, convert, h.iter, Ev.map_ok, Ev.bind_ok, fnTail]

/-! ## Actions -/

theorem zipSpecs_ground {n : Nat} {s : QSt World} {rest : List Term} : ∀ {specs : List Spec} {args gs : List Term}, specs.length = args.length →
    AllOf (fun a g => grounded n s.b.scope a = .ok g) args gs →
    zipSpecs n specs (args ++ rest) (fun _ => none) s = Res.lift (convertAll specs gs) s
  | [], [], _, _, .nil => by simp [zipSpecs, convertAll]
  | c :: cs, a :: as, _, hl, .cons (y := g) (ys := gs) h hs => by
    rw [List.cons_append, zipSpecs, freeze_ground (m := ⟨fun _ => none, s.nv⟩) (by simp) n a g h]
    simp only [convertAll]
    rw [show ({ s with nv := s.nv } : QSt World) = s from rfl]
    cases convert c g with
    | ok t =>
      simp only [Res.lift_ok, Res.bind_ok, Ev.bind_ok]
      rw [zipSpecs_ground (by simpa using hl) hs]
      cases convertAll cs gs <;> rfl
    | err e => rfl
    | oof => rfl

theorem AllOf.fuel {sc : Scope} {args gs : List Term} (h : AllOf (fun a g => ∃ k, grounded k sc a = .ok g) args gs) :
    ∃ n, ∀ m, n ≤ m → AllOf (fun a g => grounded m sc a = .ok g) args gs := by
  induction h with
  | nil => exact ⟨0, fun _ _ => .nil⟩
  | cons h _ ih =>
    obtain ⟨k, hk⟩ := h
    obtain ⟨n, hn⟩ := ih
    exact ⟨max k n, fun m hm => .cons (grounded_mono hk (by omega)) (hn m (by omega))⟩

omit [Host] in
theorem AllOf.length {α β : Type} {P : α → β → Prop} {xs : List α} {ys : List β} (h : AllOf P xs ys) : xs.length = ys.length := by
  induction h with
  | nil => rfl
  | cons _ _ ih => simp [ih]

/-- **C66.** Calling a function as an action, with arguments that are ground and an unbound
variable: the variable is bound to the result, and nothing else changes.  There is only one
answer. -/
theorem C66_function {acts : Lookup} {name : String} {args gs as : List Term} {r : Term} {x : VarId} {s : QSt World}
    (hg : AllOf (fun a g => ∃ k, grounded k s.b.scope a = .ok g) args gs) (hx : s.b.scope x = none)
    (hc : StdCall acts name gs (.ok r)) (hr : r.Closed) :
    ∃ a g, acts name (args.length + 1) = some a ∧
      (∃ n, ∀ m, n ≤ m → gnext m (.start (.act a (.lit name (args ++ [.var x]) as)) : Gen Act ActGen) s =
        .ok (some g) { s with b := { s.b with scope := s.b.scope.set x r, stack := .v x :: s.b.stack } }) ∧
      ∃ n, ∀ m, n ≤ m → ∀ s : QSt World, gnext m g s = .ok none s := by
  obtain ⟨specs, f, h1, h2, h3⟩ := hc
  obtain ⟨n, hn⟩ := hg.fuel
  rw [← hg.length] at h1 h2
  refine ⟨_, .act .fin, h1, ⟨n + 4, fun m hm => ?_⟩, 2, fun m hm s => ?_⟩
  · obtain ⟨m, rfl⟩ : ∃ k, m = k + 4 := ⟨m - 4, by omega⟩
    rw [gnext_act, actNext]
    simp only [argList]
    rw [zipSpecs_ground h2 (hn _ (by omega))]
    rw [Ev.bind_eq_ok] at h3
    obtain ⟨vs, h4, h5⟩ := h3
    simp only [h4, h5, Res.lift_ok, Res.bind_ok, lastOf, List.getLast?_concat, unifyThenYield, QSt.onB, unify_open_var hr hx]
    rfl
  · obtain ⟨m, rfl⟩ : ∃ k, m = k + 2 := ⟨m - 2, by omega⟩
    rfl

/-- **C66.** If the function raises, so does the action. -/
theorem C66_raises {acts : Lookup} {name : String} {args gs as : List Term} {e : Err} {t : Term} {s : QSt World}
    (hg : AllOf (fun a g => ∃ k, grounded k s.b.scope a = .ok g) args gs) (hc : StdCall acts name gs (.err e)) :
    ∃ a, acts name (args.length + 1) = some a ∧
      ∃ n, ∀ m, n ≤ m → gnext m (.start (.act a (.lit name (args ++ [t]) as)) : Gen Act ActGen) s = .err e s := by
  obtain ⟨specs, f, h1, h2, h3⟩ := hc
  obtain ⟨n, hn⟩ := hg.fuel
  rw [← hg.length] at h1 h2
  refine ⟨_, h1, n + 4, fun m hm => ?_⟩
  obtain ⟨m, rfl⟩ : ∃ k, m = k + 4 := ⟨m - 4, by omega⟩
  rw [gnext_act, actNext]
  simp only [argList]
  rw [zipSpecs_ground h2 (hn _ (by omega))]
  cases h4 : convertAll specs gs with
  | ok vs =>
    rw [h4, Ev.bind_ok] at h3
    simp only [h3, Res.lift_ok, Res.bind_ok]
    rfl
  | err e' => rw [h4] at h3; cases h3; rfl
  | oof => rw [h4] at h3; cases h3

/-- **C66.** Calling a predicate as an action, with arguments that are ground: one answer if the
predicate is true, none otherwise; nothing changes. -/
theorem C66_predicate {acts : Lookup} {name : String} {args gs as : List Term} {b : Bool} {s : QSt World}
    (hg : AllOf (fun a g => ∃ k, grounded k s.b.scope a = .ok g) args gs) (hc : StdTest acts name gs (.ok b)) :
    ∃ a g, acts name args.length = some a ∧
      (∃ n, ∀ m, n ≤ m → gnext m (.start (.act a (.lit name args as)) : Gen Act ActGen) s = .ok (if b then some g else none) s) ∧
      ∃ n, ∀ m, n ≤ m → ∀ s : QSt World, gnext m g s = .ok none s := by
  obtain ⟨specs, f, h1, h2, h3⟩ := hc
  obtain ⟨n, hn⟩ := hg.fuel
  rw [← hg.length] at h1 h2
  refine ⟨_, .act .fin, h1, ⟨n + 4, fun m hm => ?_⟩, 2, fun m hm s => ?_⟩
  · obtain ⟨m, rfl⟩ : ∃ k, m = k + 4 := ⟨m - 4, by omega⟩
    rw [gnext_act, actNext]
    simp only [argList]
    have := zipSpecs_ground (rest := []) h2 (hn (m + 2) (by omega))
    rw [List.append_nil] at this
    rw [this]
    rw [Ev.bind_eq_ok] at h3
    obtain ⟨vs, h4, h5⟩ := h3
    simp only [h4, h5, Res.lift_ok, Res.bind_ok]
    cases b <;> rfl
  · obtain ⟨m, rfl⟩ : ∃ k, m = k + 2 := ⟨m - 2, by omega⟩
    rfl

section examples
attribute [local instance] exactHost

/-- `[3, 1|[2, 1]]`: a linked list of numbers. -/
private def nums : Term := .cons (.num 3) (.cons (.num 1) (.tup [.num 2, .num 1]))

omit [Host] in
private theorem nums_list : ListOf nums [.num 3, .num 1, .num 2, .num 1] := .cons (.cons (.tup _))

omit [Host] in
private theorem nums_sortable : Sortable [.num 3, .num 1, .num 2, .num 1] := by
  intro x hx y hy
  simp only [List.mem_cons, List.not_mem_nil, or_false] at hx hy
  rcases hx with rfl | rfl | rfl | rfl <;> rcases hy with rfl | rfl | rfl | rfl <;> exact ⟨_, 20, rfl, nofun⟩

/-- `.sort`, `.min`, `.max`, `.length`, `.nth` for this list. -/
example : (∃ ys, StdCall (stdLookup random randint 0) ".sort" [nums] (.ok (.tup ys)) ∧ ys.Perm [.num 3, .num 1, .num 2, .num 1]) ∧
    StdCall (stdLookup random randint 0) ".sort" [nums] (.ok (.tup [.num 1, .num 1, .num 2, .num 3])) ∧
    StdCall (stdLookup random randint 0) ".min" [nums] (.ok (.num 1)) ∧ StdCall (stdLookup random randint 0) ".max" [nums] (.ok (.num 3)) ∧
    StdCall (stdLookup random randint 0) ".length" [nums] (.ok (.num 4)) ∧
    StdCall (stdLookup random randint 0) ".nth" [.num 2, nums] (.ok (.num 2)) := by
  refine ⟨?_, ⟨_, _, find_std (Nat.zero_le _) rfl rfl, rfl, by with_unfolding_all rfl⟩,
    ⟨_, _, find_std (Nat.zero_le _) rfl rfl, rfl, by with_unfolding_all rfl⟩,
    ⟨_, _, find_std (Nat.zero_le _) rfl rfl, rfl, by with_unfolding_all rfl⟩,
    (C66_length (Nat.zero_le _)).1 nums_list, C66_nth (Nat.zero_le _) nums_list 2⟩
  obtain ⟨ys, h1, h2, -⟩ := C66_sort_partial (random := random) (randint := randint) (Nat.zero_le 1) nums_list nums_sortable
    (by simp [Term.Bare])
  exact ⟨ys, h1, h2⟩

/-- `.sort([3, 1|[2, 1]], X)` with `X` unbound; `.nth(7, …, X)` raises; `.list(…)`. -/
example (s : QSt World) (hx : s.b.scope 0 = none) :
    (∃ a g, stdLookup random randint 0 ".sort" 2 = some a ∧
      (∃ n, ∀ m, n ≤ m → gnext m (.start (.act a (.lit ".sort" [nums, .var 0] [])) : Gen Act ActGen) s =
        .ok (some g) { s with b := { s.b with scope := s.b.scope.set 0 (.tup [.num 1, .num 1, .num 2, .num 3]), stack := .v 0 :: s.b.stack } }) ∧
      ∃ n, ∀ m, n ≤ m → ∀ s : QSt World, gnext m g s = .ok none s) ∧
    ∃ a, stdLookup random randint 0 ".nth" 3 = some a ∧
      ∃ n, ∀ m, n ≤ m → gnext m (.start (.act a (.lit ".nth" [.num 7, nums, .var 0] [])) : Gen Act ActGen) s = .err (.py "IndexError") s := by
  refine ⟨C66_function (args := [nums]) (gs := [nums]) (.cons ⟨9, rfl⟩ .nil) hx
      ⟨_, _, find_std (Nat.zero_le _) rfl rfl, rfl, by with_unfolding_all rfl⟩ (by simp [Term.Closed, Term.Every, Term.EveryL]),
    C66_raises (args := [.num 7, nums]) (gs := [.num 7, nums]) (.cons ⟨9, rfl⟩ (.cons ⟨9, rfl⟩ .nil)) (C66_nth (Nat.zero_le _) nums_list 7)⟩

/-- `.round(5/2)` is 2, `.round(7/2)` is 4; `.tail`; `.min([])` raises. -/
example : StdCall (stdLookup random randint 1) ".round" [.num (5 / 2)] (.ok (.num 2)) ∧
    StdCall (stdLookup random randint 1) ".round" [.num (7 / 2)] (.ok (.num 4)) ∧
    StdCall (stdLookup random randint 1) ".tail" [nums] (.ok (.tup [.num 1, .num 2, .num 1])) ∧
    StdCall (stdLookup random randint 1) ".min" [.tup []] (.err (.py "ValueError")) :=
  ⟨⟨_, _, by rw [stdLookup_one]; rfl, rfl, by with_unfolding_all rfl⟩, ⟨_, _, by rw [stdLookup_one]; rfl, rfl, by with_unfolding_all rfl⟩,
    C66_tail nums_list, (C66_min (Nat.le_refl _)).2 (.tup [])⟩

/-- `.list([3, 1|[2, 1]])` has one answer, `.number("a")` has none. -/
example (s : QSt World) :
    (∃ a g, stdLookup random randint 0 ".list" 1 = some a ∧
      (∃ n, ∀ m, n ≤ m → gnext m (.start (.act a (.lit ".list" [nums] [])) : Gen Act ActGen) s = .ok (some g) s) ∧
      ∃ n, ∀ m, n ≤ m → ∀ s : QSt World, gnext m g s = .ok none s) ∧
    ∃ a, stdLookup random randint 0 ".number" 1 = some a ∧
      ∃ n, ∀ m, n ≤ m → gnext m (.start (.act a (.lit ".number" [.str "a"] [])) : Gen Act ActGen) s = .ok none s := by
  refine ⟨C66_predicate (b := true) (args := [nums]) (gs := [nums]) (.cons ⟨9, rfl⟩ .nil) ⟨_, _, find_std (Nat.zero_le _) rfl rfl, rfl, rfl⟩, ?_⟩
  have h : StdTest (stdLookup random randint 0) ".number" [.str "a"] (.ok false) :=
    ⟨_, _, find_std (Nat.zero_le _) rfl rfl, rfl, rfl⟩
  obtain ⟨a, _, h1, h2, _⟩ := C66_predicate (as := []) (s := s) (args := [.str "a"]) (.cons ⟨9, rfl⟩ .nil) h
  exact ⟨a, h1, h2⟩

end examples

end Verif
