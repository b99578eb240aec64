import Verif.Model.Unify
import Verif.Model.Freeze

/-! More fuel never changes a finished computation. -/

namespace Verif

/-- `x` has not finished, or `y` is the same result. -/
def Ev.le {α : Type} (x y : Ev α) : Prop := x = .oof ∨ x = y
def Res.le {σ α : Type} (x y : Res σ α) : Prop := x = .oof ∨ x = y

theorem Ev.le.refl {α : Type} (x : Ev α) : x.le x := Or.inr rfl
theorem Ev.le.oof {α : Type} (x : Ev α) : (Ev.oof : Ev α).le x := Or.inl rfl
theorem Res.le.refl {σ α : Type} (x : Res σ α) : x.le x := Or.inr rfl
theorem Res.le.oof {σ α : Type} (x : Res σ α) : (Res.oof : Res σ α).le x := Or.inl rfl

theorem Ev.le.eq {α : Type} {x y : Ev α} (h : x.le y) (hx : x ≠ .oof) : y = x := by
  rcases h with h | h
  · exact absurd h hx
  · exact h.symm
theorem Res.le.eq {σ α : Type} {x y : Res σ α} (h : x.le y) (hx : x ≠ .oof) : y = x := by
  rcases h with h | h
  · exact absurd h hx
  · exact h.symm

theorem Ev.le.bind {α β : Type} {x x' : Ev α} {f f' : α → Ev β} (h : x.le x') (hf : ∀ a, (f a).le (f' a)) :
    (x.bind f).le (x'.bind f') := by
  rcases h with h | h <;> subst h
  · exact Or.inl rfl
  · cases x with
    | ok a => exact hf a
    | err e => exact Or.inr rfl
    | oof => exact Or.inl rfl

theorem Ev.le.map {α β : Type} {x x' : Ev α} {f : α → β} (h : x.le x') : (x.map f).le (x'.map f) :=
  h.bind fun _ => .refl _

theorem Res.le.bind {σ α β : Type} {x x' : Res σ α} {f f' : α → σ → Res σ β} (h : x.le x')
    (hf : ∀ a s, (f a s).le (f' a s)) : (x.bind f).le (x'.bind f') := by
  rcases h with h | h <;> subst h
  · exact Or.inl rfl
  · cases x with
    | ok a s => exact hf a s
    | err e s => exact Or.inr rfl
    | oof => exact Or.inl rfl

theorem Res.le.lift {σ α : Type} {x x' : Ev α} {s : σ} (h : x.le x') : (Res.lift x s).le (Res.lift x' s) := by
  rcases h with h | h <;> subst h
  · exact Or.inl rfl
  · exact Or.inr rfl

theorem Ev.le.mapL {α β : Type} {f f' : α → Ev β} (hf : ∀ a, (f a).le (f' a)) :
    ∀ xs : List α, (Ev.mapL f xs).le (Ev.mapL f' xs)
  | [] => .refl _
  | x :: xs => by
    simp only [Ev.mapL]
    exact (hf x).bind fun a => (Ev.le.mapL hf xs).map

theorem Ev.le.allL {α : Type} {f f' : α → Ev Bool} (hf : ∀ a, (f a).le (f' a)) :
    ∀ xs : List α, (Ev.allL f xs).le (Ev.allL f' xs)
  | [] => .refl _
  | x :: xs => by
    simp only [Ev.allL]
    refine (hf x).bind fun a => ?_
    cases a
    · exact .refl _
    · exact Ev.le.allL hf xs

theorem deref_succ : ∀ (n : Nat) (sc : Scope) (t : Term), (deref n sc t).le (deref (n + 1) sc t)
  | 0, _, t => .oof _
  | n + 1, sc, t => by
    cases t with
    | var x =>
      rw [deref, deref]
      cases sc x with
      | none => exact .refl _
      | some u => exact deref_succ n sc u
    | _ => exact .refl _

theorem tupEq_le {f f' : Term → Term → Ev Bool} (hf : ∀ a b, (f a b).le (f' a b)) :
    ∀ xs ys, (tupEq f xs ys).le (tupEq f' xs ys)
  | [], [] => .refl _
  | [], _ :: _ => .refl _
  | _ :: _, [] => .refl _
  | x :: xs, y :: ys => by
    simp only [tupEq]
    refine (hf x y).bind fun a => ?_
    cases a
    · exact .refl _
    · exact tupEq_le hf xs ys

theorem tupLt_le {f f' g g' : Term → Term → Ev Bool} (hf : ∀ a b, (f a b).le (f' a b))
    (hg : ∀ a b, (g a b).le (g' a b)) (strict : Bool) :
    ∀ xs ys, (tupLt f g strict xs ys).le (tupLt f' g' strict xs ys)
  | [], [] => .refl _
  | [], _ :: _ => .refl _
  | _ :: _, [] => .refl _
  | x :: xs, y :: ys => by
    simp only [tupLt]
    refine (hf x y).bind fun a => ?_
    cases a
    · exact hg x y
    · exact tupLt_le hf hg strict xs ys

theorem memBy_le {f f' : Term → Term → Ev Bool} (hf : ∀ a b, (f a b).le (f' a b)) (x : Term) :
    ∀ ys, (memBy f x ys).le (memBy f' x ys)
  | [] => .refl _
  | y :: ys => by
    simp only [memBy]
    rcases hf x y with h | h
    · rw [h]; exact .oof _
    · rw [← h]
      split
      · exact .refl _
      · exact .refl _
      · exact memBy_le hf x ys

theorem setEq_le {f f' : Term → Term → Ev Bool} (hf : ∀ a b, (f a b).le (f' a b)) (xs ys : List Term) :
    (setEq f xs ys).le (setEq f' xs ys) := by
  unfold setEq
  refine (Ev.le.allL (fun a => memBy_le hf a ys) xs).bind fun b => ?_
  cases b
  · exact .refl _
  · exact Ev.le.allL (fun a => memBy_le hf a xs) ys

theorem pyEqStep_le {f f' : Term → Term → Ev Bool} (hf : ∀ a b, (f a b).le (f' a b)) (a b : Term) :
    (pyEqStep f a b).le (pyEqStep f' a b) := by
  unfold pyEqStep
  split
  · exact .refl _
  · exact .refl _
  · exact .refl _
  · split
    · exact .refl _
    · split
      · refine (tupEq_le hf _ _).bind fun e => ?_
        cases e
        · exact .refl _
        · exact setEq_le hf _ _
      · exact .refl _
    · exact .refl _
    · exact tupEq_le hf _ _
    · exact (Ev.le.refl _).bind fun _ => tupEq_le hf _ _
    · exact (Ev.le.refl _).bind fun _ => tupEq_le hf _ _
    · exact (Ev.le.refl _).bind fun _ => (Ev.le.refl _).bind fun _ => tupEq_le hf _ _
    · exact .refl _

theorem pyEq_succ : ∀ (n : Nat) (a b : Term), (pyEq n a b).le (pyEq (n + 1) a b)
  | 0, _, _ => .oof _
  | n + 1, a, b => pyEqStep_le (pyEq_succ n) a b

theorem pyLtStep_le {f f' g g' : Term → Term → Ev Bool} (hf : ∀ a b, (f a b).le (f' a b))
    (hg : ∀ a b, (g a b).le (g' a b)) (strict : Bool) (a b : Term) :
    (pyLtStep f g strict a b).le (pyLtStep f' g' strict a b) := by
  unfold pyLtStep
  split
  · exact .refl _
  · exact .refl _
  · exact .refl _
  · split
    · exact .refl _
    · split
      · exact .refl _
      · split
        · exact .refl _
        · exact tupLt_le hf hg _ _ _
    · exact tupLt_le hf hg _ _ _
    · exact (Ev.le.refl _).bind fun _ => tupLt_le hf hg _ _ _
    · exact (Ev.le.refl _).bind fun _ => tupLt_le hf hg _ _ _
    · exact (Ev.le.refl _).bind fun _ => (Ev.le.refl _).bind fun _ => tupLt_le hf hg _ _ _
    · exact .refl _

theorem pyLt_succ : ∀ (n : Nat) (strict : Bool) (a b : Term), (pyLt n strict a b).le (pyLt (n + 1) strict a b)
  | 0, _, _, _ => .oof _
  | n + 1, strict, a, b => pyLtStep_le (pyEq_succ n) (pyLt_succ n strict) strict a b

theorem pyCompare_succ (n : Nat) (op : BinOp) (a b : Term) : (pyCompare n op a b).le (pyCompare (n + 1) op a b) := by
  unfold pyCompare
  split
  · exact pyEq_succ _ _ _
  · exact (pyEq_succ _ _ _).map
  · exact pyLt_succ _ _ _ _
  · exact pyLt_succ _ _ _ _
  · exact pyLt_succ _ _ _ _
  · exact pyLt_succ _ _ _ _
  · exact .refl _

variable [Arith]

theorem eval_grounded_succ : ∀ (n : Nat) (sc : Scope) (t : Term),
    (evaluate n sc t).le (evaluate (n + 1) sc t) ∧ (grounded n sc t).le (grounded (n + 1) sc t)
  | 0, sc, t => ⟨by rw [evaluate]; exact .oof _, by rw [grounded]; exact .oof _⟩
  | n + 1, sc, t => by
    have ihe := fun t => (eval_grounded_succ n sc t).1
    have ihg := fun t => (eval_grounded_succ n sc t).2
    constructor
    · rw [evaluate.eq_def (n + 1), evaluate.eq_def (n + 1 + 1)]
      cases t with
      | var x =>
        simp only
        cases sc x with
        | none => exact .refl _
        | some u => exact (deref_succ n sc _).bind fun t => ihe t
      | un op t => exact (ihe t).bind fun _ => .refl _
      | bin op l r =>
        refine (ihe l).bind fun l' => (ihe r).bind fun r' => ?_
        split
        · exact (ihg _).bind fun _ => (ihg _).bind fun _ => (pyCompare_succ _ _ _ _).map
        · exact .refl _
      | _ => exact .refl _
    · rw [grounded.eq_def (n + 1), grounded.eq_def (n + 1 + 1)]
      cases t with
      | var x =>
        simp only
        cases sc x with
        | none => exact .refl _
        | some u => exact (deref_succ n sc _).bind fun t => ihg t
      | un op t => exact (ihe _).bind fun _ => ihg _
      | bin op l r => exact (ihe _).bind fun _ => ihg _
      | lit f as xs =>
        exact (Ev.le.mapL ihg _).bind fun _ => (Ev.le.mapL ihg _).bind fun _ => .refl _
      | cons h t => exact (ihg _).bind fun _ => (ihg _).bind fun _ => .refl _
      | tup xs => exact (Ev.le.mapL ihg _).map
      | _ => exact .refl _

theorem evaluate_succ (n : Nat) (sc : Scope) (t : Term) : (evaluate n sc t).le (evaluate (n + 1) sc t) :=
  (eval_grounded_succ n sc t).1
theorem grounded_succ (n : Nat) (sc : Scope) (t : Term) : (grounded n sc t).le (grounded (n + 1) sc t) :=
  (eval_grounded_succ n sc t).2

omit [Arith] in
theorem isGround_succ : ∀ (n : Nat) (sc : Scope) (t : Term), (isGround n sc t).le (isGround (n + 1) sc t)
  | 0, sc, t => .oof _
  | n + 1, sc, t => by
    have ih := isGround_succ n sc
    rw [isGround.eq_def (n + 1), isGround.eq_def (n + 1 + 1)]
    cases t with
    | var x =>
      simp only
      cases sc x with
      | none => exact .refl _
      | some u => exact (deref_succ n sc _).bind fun t => ih t
    | un op t => exact ih t
    | bin op l r =>
      refine (ih l).bind fun b => ?_
      cases b
      · exact .refl _
      · exact ih r
    | lit f as xs =>
      refine (Ev.le.allL ih _).bind fun b => ?_
      cases b
      · exact .refl _
      · exact Ev.le.allL ih _
    | cons h t =>
      refine (ih _).bind fun b => ?_
      cases b
      · exact .refl _
      · exact ih _
    | tup xs => exact Ev.le.allL ih _
    | _ => exact .refl _

/-! ## Unification -/

omit [Arith] in
theorem unifyAll_le {f f' : Term → Term → BSt → Res BSt Bool} (hf : ∀ l r b, (f l r b).le (f' l r b)) :
    ∀ ls rs b, (unifyAll f ls rs b).le (unifyAll f' ls rs b)
  | [], [], b => .refl _
  | [], _ :: _, b => .refl _
  | _ :: _, [], b => .refl _
  | l :: ls, r :: rs, b => by
    simp only [unifyAll]
    refine (hf l r b).bind fun a s => ?_
    cases a
    · exact .refl _
    · exact unifyAll_le hf ls rs s

theorem varUnify_le {n : Nat} {f f' : Term → Term → BSt → Res BSt Bool} (hf : ∀ l r b, (f l r b).le (f' l r b))
    (x : VarId) (r : Term) (b : BSt) : (varUnify n f x r b).le (varUnify (n + 1) f' x r b) := by
  unfold varUnify
  split
  · exact (Res.le.lift (deref_succ _ _ _)).bind fun _ _ => hf _ _ _
  · split
    · exact .refl _
    · exact (Res.le.lift (evaluate_succ _ _ _)).bind fun _ _ => .refl _

omit [Arith] in
theorem and_le {x x' : Res BSt Bool} {f f' : BSt → Res BSt Bool} (hx : x.le x') (hf : ∀ b, (f b).le (f' b)) :
    (x.bind fun ok b => if ok then f b else .ok false b).le (x'.bind fun ok b => if ok then f' b else .ok false b) := by
  refine hx.bind fun a s => ?_
  cases a
  · exact .refl _
  · exact hf s

theorem litUnify_le {n : Nat} {f f' : Term → Term → BSt → Res BSt Bool} (hf : ∀ l r b, (f l r b).le (f' l r b))
    (g : String) (as xs : List Term) (r : Term) (b : BSt) :
    (litUnify n f g as xs r b).le (litUnify (n + 1) f' g as xs r b) := by
  unfold litUnify
  refine (Res.le.lift (evaluate_succ _ _ _)).bind fun r b => ?_
  split
  · exact varUnify_le hf _ _ _
  · exact .refl _
  · split
    · exact .refl _
    · split
      · exact .refl _
      · exact unifyAll_le hf _ _ _
  · exact .refl _

theorem consUnify_le {n : Nat} {f f' : Term → Term → BSt → Res BSt Bool} (hf : ∀ l r b, (f l r b).le (f' l r b))
    (h t : Term) (r : Term) (b : BSt) :
    (consUnify n f h t r b).le (consUnify (n + 1) f' h t r b) := by
  unfold consUnify
  refine (Res.le.lift (evaluate_succ _ _ _)).bind fun r b => ?_
  split
  · exact varUnify_le hf _ _ _
  · exact .refl _
  · exact .refl _
  · exact and_le (hf _ _ _) fun _ => hf _ _ _
  · exact and_le (hf _ _ _) fun _ => hf _ _ _
  · exact .refl _

theorem methUnify_le {n : Nat} {f f' : Term → Term → BSt → Res BSt Bool} (hf : ∀ l r b, (f l r b).le (f' l r b))
    (l r : Term) (b : BSt) : (methUnify n f l r b).le (methUnify (n + 1) f' l r b) := by
  unfold methUnify
  split
  · exact varUnify_le hf _ _ _
  · exact .refl _
  · exact (Res.le.lift (evaluate_succ _ _ _)).bind fun _ _ => hf _ _ _
  · exact (Res.le.lift (evaluate_succ _ _ _)).bind fun _ _ => hf _ _ _
  · exact litUnify_le hf _ _ _ _ _
  · exact consUnify_le hf _ _ _ _
  · exact .refl _

omit [Arith] in
theorem plainUnify_le {f f' : Term → Term → BSt → Res BSt Bool} (hf : ∀ l r b, (f l r b).le (f' l r b))
    (l r : Term) (b : BSt) : (plainUnify f l r b).le (plainUnify f' l r b) := by
  unfold plainUnify
  split
  · exact .refl _
  · split
    · exact .refl _
    · exact unifyAll_le hf _ _ _
  · exact .refl _
  · exact .refl _
  · exact .refl _

theorem unify_succ : ∀ (n : Nat) (l r : Term) (b : BSt), (unify n l r b).le (unify (n + 1) l r b)
  | 0, _, _, _ => .oof _
  | n + 1, l, r, b => by
    have ih := unify_succ n
    rw [unify, unify]
    split
    · exact methUnify_le ih _ _ _
    · split
      · exact methUnify_le ih _ _ _
      · exact plainUnify_le ih _ _ _

omit [Arith] in
theorem findAnnot_le {f f' : Term → Term → BSt → Res BSt (Option Nat)} (hf : ∀ l r b, (f l r b).le (f' l r b))
    (l : Term) : ∀ rs b, (findAnnot f l rs b).le (findAnnot f' l rs b)
  | [], _ => .refl _
  | r :: rs, b => by
    simp only [findAnnot]
    refine (hf l r b).bind fun y s => ?_
    cases y
    · exact (findAnnot_le hf l rs s).bind fun _ _ => .refl _
    · exact .refl _

omit [Arith] in
theorem matchAnnots_le {f f' : Term → Term → BSt → Res BSt (Option Nat)} (hf : ∀ l r b, (f l r b).le (f' l r b)) :
    ∀ ls rs b, (matchAnnots f ls rs b).le (matchAnnots f' ls rs b)
  | [], _, _ => .refl _
  | l :: ls, rs, b => by
    simp only [matchAnnots]
    refine (findAnnot_le hf l rs b).bind fun y s => ?_
    cases y
    · exact .refl _
    · exact matchAnnots_le hf ls _ s

omit [Arith] in
theorem yieldIf_le {c : Nat} {x x' : Res BSt Bool} (h : x.le x') : (yieldIf c x).le (yieldIf c x') :=
  h.bind fun _ _ => .refl _

theorem uaStart_succ : ∀ (n : Nat) (l r : Term) (b : BSt), (uaStart n l r b).le (uaStart (n + 1) l r b)
  | 0, _, _, _ => by rw [uaStart]; exact .oof _
  | n + 1, l, r, b => by
    have ih := uaStart_succ n
    have ihu := unify_succ n
    cases l with
    | lit f as xs =>
      simp only [uaStart]
      refine (Res.le.lift (evaluate_succ _ _ _)).bind fun r b => ?_
      split
      · exact yieldIf_le (varUnify_le ihu _ _ _)
      · exact .refl _
      · refine yieldIf_le ((litUnify_le ihu _ _ _ _ _).bind fun a s => ?_)
        cases a
        · exact .refl _
        · simp only [if_true, matchRight]
          split
          · exact matchAnnots_le ih _ _ _
          · exact .refl _
    | _ => exact yieldIf_le (ihu _ _ _)

/-! ## Freezing -/

omit [Arith] in
theorem freezeAll_le {f f' : Term → FSt → Res FSt Term} (hf : ∀ t m, (f t m).le (f' t m)) :
    ∀ ts m, (freezeAll f ts m).le (freezeAll f' ts m)
  | [], _ => .refl _
  | t :: ts, m => by
    simp only [freezeAll]
    exact (hf t m).bind fun _ s => (freezeAll_le hf ts s).bind fun _ _ => .refl _

theorem freeze_succ : ∀ (n : Nat) (sc : Scope) (t : Term) (m : FSt), (freeze n sc t m).le (freeze (n + 1) sc t m)
  | 0, _, _, _ => .oof _
  | n + 1, sc, t, m => by
    have ih := freeze_succ n sc
    rw [freeze.eq_def (n + 1), freeze.eq_def (n + 1 + 1)]
    cases t with
    | var x =>
      simp only
      cases m.memo x with
      | some y => exact .refl _
      | none =>
        cases sc x with
        | none => exact .refl _
        | some u => exact (Res.le.lift (deref_succ _ _ _)).bind fun _ _ => ih _ _
    | un op t => exact (Res.le.lift (evaluate_succ _ _ _)).bind fun _ _ => ih _ _
    | bin op l r => exact (Res.le.lift (evaluate_succ _ _ _)).bind fun _ _ => ih _ _
    | lit f as xs =>
      exact (freezeAll_le ih _ _).bind fun _ _ => (freezeAll_le ih _ _).bind fun _ _ => .refl _
    | cons h t => exact (ih _ _).bind fun _ _ => (ih _ _).bind fun _ _ => .refl _
    | tup xs => exact (freezeAll_le ih _ _).bind fun _ _ => .refl _
    | _ => exact .refl _

/-! ## From one step to many -/

omit [Arith] in
theorem Ev.mono {α : Type} {f : Nat → Ev α} (h : ∀ n, (f n).le (f (n + 1))) {n m : Nat} (hnm : n ≤ m)
    (hn : f n ≠ .oof) : f m = f n := by
  induction hnm with
  | refl => rfl
  | step _ ih => rw [← ih]; exact (h _).eq (by rw [ih]; exact hn)

omit [Arith] in
theorem Res.mono {σ α : Type} {f : Nat → Res σ α} (h : ∀ n, (f n).le (f (n + 1))) {n m : Nat} (hnm : n ≤ m)
    (hn : f n ≠ .oof) : f m = f n := by
  induction hnm with
  | refl => rfl
  | step _ ih => rw [← ih]; exact (h _).eq (by rw [ih]; exact hn)

end Verif
