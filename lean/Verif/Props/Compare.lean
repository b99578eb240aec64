import Verif.Lemmas.OrderLaws

/-!
# Linked lists and comparison (C48, C49)
-/

namespace Verif

theorem ListOf.iter {t : Term} {xs : List Term} (h : ListOf t xs) : Verif.iter t = .ok xs := by
  induction h with
  | tup xs => rfl
  | cons _ ih => rw [Verif.iter, ih]; rfl

theorem ListOf.shape {t : Term} {xs : List Term} (h : ListOf t xs) : Verif.shape t = .list (.ok xs) := by
  cases h with
  | tup xs => rfl
  | cons h => rw [Verif.shape, (ListOf.cons h).iter]

/-- **C48.** Length and items of a linked list are those of the tuple. -/
theorem C48_items {t : Term} {xs : List Term} (h : ListOf t xs) :
    pyLen t = .ok xs.length ∧ iter t = .ok xs ∧ pyLen (.tup xs) = .ok xs.length ∧ iter (.tup xs) = .ok xs := by
  refine ⟨?_, h.iter, rfl, rfl⟩
  induction h with
  | tup xs => rfl
  | cons _ ih => rw [pyLen, ih]; simp [Nat.add_comm]

theorem pyEq_of_shape {a a' b : Term} {n : Nat} (h : shape a = shape a') (h1 : a.size + b.size ≤ n) (h2 : a'.size + b.size ≤ n) :
    pyEq n a b = pyEq n a' b := by
  cases n with
  | zero => have := size_pos a; omega
  | succ n => rw [pyEq_shape h1, pyEq_shape h2, h]

theorem pyLt_of_shape {a a' b b' : Term} {n : Nat} {strict : Bool} (h : shape a = shape a') (h' : shape b = shape b') :
    pyLt n strict a b = pyLt n strict a' b' := by
  cases n with
  | zero => rfl
  | succ n => rw [pyLt_shape, pyLt_shape, h, h']

/-- **C48.** A linked list compares with everything like the tuple of its items, on either side of every operator:
the same truth value or the same exception. -/
theorem C48_compare {t : Term} {xs : List Term} (h : ListOf t xs) (op : BinOp) (u : Term) (r : Ev Bool) :
    (Compares op t u r ↔ Compares op (.tup xs) u r) ∧ (Compares op u t r ↔ Compares op u (.tup xs) r) := by
  have hs : shape t = shape (.tup xs) := h.shape
  have key : ∀ n, t.size + (Term.tup xs).size + u.size ≤ n →
      pyCompare n op t u = pyCompare n op (.tup xs) u ∧ pyCompare n op u t = pyCompare n op u (.tup xs) := by
    intro n hn
    have e1 : pyEq n t u = pyEq n (.tup xs) u := pyEq_of_shape hs (by omega) (by omega)
    have e2 : pyEq n u t = pyEq n u (.tup xs) := by
      rw [pyEq_symm n u t (by omega), pyEq_symm n u (.tup xs) (by omega)]; exact e1
    have l1 : ∀ strict, pyLt n strict t u = pyLt n strict (.tup xs) u := fun _ => pyLt_of_shape hs rfl
    have l2 : ∀ strict, pyLt n strict u t = pyLt n strict u (.tup xs) := fun _ => pyLt_of_shape rfl hs
    cases op <;> simp [pyCompare, e1, e2, l1, l2]
  obtain ⟨k1, k2⟩ := key _ (Nat.le_refl _)
  rw [Compares.iff (n := t.size + (Term.tup xs).size + u.size) (by omega), Compares.iff (n := t.size + (Term.tup xs).size + u.size) (by omega),
    Compares.iff (n := t.size + (Term.tup xs).size + u.size) (by omega), Compares.iff (n := t.size + (Term.tup xs).size + u.size) (by omega), k1, k2]
  exact ⟨Iff.rfl, Iff.rfl⟩

/-- `[1|["a"]]` is the list `[1, "a"]`, is longer than `[1]`, and is smaller than `[2]`. -/
example : ListOf (.cons (.num 1) (.cons (.str "a") (.tup []))) [.num 1, .str "a"] ∧
    Compares .eq (.cons (.num 1) (.cons (.str "a") (.tup []))) (.tup [.num 1, .str "a"]) (.ok true) ∧
    Compares .lt (.tup [.num 1]) (.cons (.num 1) (.cons (.str "a") (.tup []))) (.ok true) ∧
    Compares .lt (.cons (.num 1) (.cons (.str "a") (.tup []))) (.tup [.num 2]) (.ok true) :=
  ⟨.cons (.cons (.tup _)), ⟨9, by decide, nofun⟩, ⟨9, by decide, nofun⟩, ⟨9, by decide, nofun⟩⟩

/-- Not a list: the tail is a number.  Length, iteration and comparison raise. -/
theorem C48_improper : pyLen (.cons (.num 1) (.num 2)) = .err (.py "TypeError") ∧
    iter (.cons (.num 1) (.num 2)) = .err (.py "TypeError") ∧
    Compares .eq (.cons (.num 1) (.num 2)) (.tup [.num 1, .num 2]) (.err (.py "TypeError")) :=
  ⟨rfl, rfl, 9, rfl, nofun⟩

/-! ## C49 -/

/-- **C49.** `==` is an equivalence relation on ground terms without improper lists.  (Symmetry and transitivity
hold for all terms.) -/
theorem C49_equivalence :
    (∀ a : Term, a.Ground → a.Proper → Compares .eq a a (.ok true)) ∧
      (∀ (a b : Term) (r : Ev Bool), Compares .eq a b r → Compares .eq b a r) ∧
      ∀ a b c : Term, Compares .eq a b (.ok true) → Compares .eq b c (.ok true) → Compares .eq a c (.ok true) := by
  refine ⟨fun a hg hp => ⟨_, pyEq_refl _ a hg hp (Nat.le_refl _), nofun⟩, fun a b r h => ?_, fun a b c h1 h2 => ?_⟩
  · rw [Compares.iff (n := a.size + b.size) (by omega)] at h ⊢
    simp only [pyCompare] at h ⊢
    rw [pyEq_symm _ _ _ (by omega)]; exact h
  · rw [Compares.iff (n := a.size + b.size + c.size) (by omega)] at h1 h2 ⊢
    exact pyEq_trans (Nat.le_refl _) h1 h2

/-- **C49.** `<` is a strict order where it is defined, and does not distinguish equal terms: what is less is
not equal, not greater, and less than everything that is greater. -/
theorem C49_strict_order :
    (∀ a b : Term, Compares .lt a b (.ok true) → Compares .eq a b (.ok false) ∧ Compares .lt b a (.ok false) ∧ Compares .gt b a (.ok true)) ∧
      (∀ a b c : Term, Compares .lt a b (.ok true) → Compares .lt b c (.ok true) → Compares .lt a c (.ok true)) ∧
      ∀ (a a' b b' : Term) (r : Ev Bool), Compares .eq a a' (.ok true) → Compares .eq b b' (.ok true) →
        (Compares .lt a b r ↔ Compares .lt a' b' r) := by
  refine ⟨fun a b h => ?_, fun a b c h1 h2 => ?_, fun a a' b b' r h1 h2 => ?_⟩
  · rw [Compares.iff (n := a.size + b.size) (by omega)] at h ⊢
    rw [Compares.iff (n := a.size + b.size) (by omega), Compares.iff (n := a.size + b.size) (by omega)]
    exact ⟨pyLt_ne (Nat.le_refl _) h, pyLt_asymm _ _ _ (Nat.le_refl _) h, h⟩
  · rw [Compares.iff (n := a.size + b.size + c.size) (by omega)] at h1 h2 ⊢
    exact pyLt_trans _ _ _ _ (Nat.le_refl _) h1 h2
  · rw [Compares.iff (n := a.size + a'.size + b.size + b'.size) (by omega)] at h1 h2 ⊢
    rw [Compares.iff (n := a.size + a'.size + b.size + b'.size) (by omega)]
    simp only [pyCompare] at h1 h2 ⊢
    rw [pyLt_congr_left _ _ a a' b (by omega) h1, pyLt_congr_right _ _ a' b b' (by omega) h2]

/-- **C49**, the part that holds: `a < b` and, for literals, `a == b` each imply `a <= b`.  The converse
holds for terms without annotations, where `a <= b` raises exactly if `a < b` does. -/
theorem C49_le_partial :
    (∀ a b : Term, Compares .lt a b (.ok true) → Compares .le a b (.ok true)) ∧
      (∀ (f g : String) (as xs bs ys : List Term), Compares .eq (.lit f as xs) (.lit g bs ys) (.ok true) →
        Compares .le (.lit f as xs) (.lit g bs ys) (.ok true)) ∧
      ∀ a b : Term, a.Bare → b.Bare →
        (∀ p e, Compares .lt a b (.ok p) → Compares .eq a b (.ok e) → Compares .le a b (.ok (p || e))) ∧
        ((∃ p, Compares .le a b (.ok p)) ↔ ∃ p, Compares .lt a b (.ok p)) := by
  refine ⟨fun a b h => ?_, fun f g as xs bs ys h => ?_, fun a b ha hb => ?_⟩
  · obtain ⟨n, h, _⟩ := h
    exact ⟨n, pyLe_of_lt n a b h, nofun⟩
  · rw [Compares.iff (n := (Term.lit f as xs).size + (Term.lit g bs ys).size) (by omega)] at h ⊢
    exact pyLe_of_eq (Nat.le_refl _) nofun nofun h
  · obtain ⟨h1, h2⟩ := pyLe_iff (a.size + b.size) a b (Nat.le_refl _) ha hb
    simp only [Compares.iff (n := a.size + b.size) (Nat.le_refl _), pyCompare]
    refine ⟨fun p e hp he => ?_, fun ⟨q, hq⟩ => h2 q hq, fun ⟨p, hp⟩ => ?_⟩
    · obtain ⟨e', he', h⟩ := h1 p hp
      rw [he] at he'; cases he'; exact h
    · obtain ⟨e, -, h⟩ := h1 p hp; exact ⟨_, h⟩

/-- **C49 fails**: `p(1)[a] <= p(1)[b]`, but neither `<` nor `==` holds, in either direction. -/
theorem C49_annotations_ignored :
    let a : Term := .lit "p" [.num 1] [.atom "a"]
    let b : Term := .lit "p" [.num 1] [.atom "b"]
    Compares .le a b (.ok true) ∧ Compares .le b a (.ok true) ∧ Compares .lt a b (.ok false) ∧ Compares .eq a b (.ok false) :=
  ⟨⟨9, by decide, nofun⟩, ⟨9, by decide, nofun⟩, ⟨9, by decide, nofun⟩, ⟨9, by decide, nofun⟩⟩

/-- **C49 fails**: comparing two equal terms raises if they contain an improper list. -/
theorem C49_improper_raises :
    Compares .eq (.lit "p" [.cons (.num 1) (.num 2)] []) (.lit "p" [.cons (.num 1) (.num 2)] []) (.err (.py "TypeError")) :=
  ⟨9, by decide, nofun⟩

/-- Where it is not defined: literals with different functors, unless both are atoms. -/
example : Compares .lt (.lit "p" [.num 1] []) (.lit "q" [.num 1] []) (.err (.py "TypeError")) ∧
    Compares .lt (.lit "p" [] []) (.lit "q" [] []) (.ok true) ∧
    Compares .lt (.lit "p" [.num 1, .atom "a"] []) (.lit "p" [.num 1, .atom "b"] []) (.ok true) ∧
    Compares .eq (.lit "p" [.num 1] [.atom "x", .atom "y"]) (.lit "p" [.bool true] [.atom "y", .atom "x"]) (.ok true) :=
  ⟨⟨9, by decide, nofun⟩, ⟨9, by decide, nofun⟩, ⟨9, by decide, nofun⟩, ⟨9, by decide, nofun⟩⟩

example : (Term.lit "p" [.num 1, .cons (.atom "a") (.tup [])] [.atom "x"]).Ground ∧
    (Term.lit "p" [.num 1, .cons (.atom "a") (.tup [])] [.atom "x"]).Proper ∧
    (Term.lit "p" [.num 1, .cons (.atom "a") (.tup [])] []).Bare := by
  refine ⟨?_, ?_, ?_⟩
  · simp [Term.Ground, Term.All, Term.AllL]
  · simp [Term.Proper, Term.ProperL, iter]
  · simp [Term.Bare, Term.BareL]

end Verif
