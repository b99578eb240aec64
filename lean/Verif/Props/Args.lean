import Verif.Lemmas.Collect
import Verif.Spec.Args
import Verif.Spec.ExactHost

/-!
# The arguments of actions are copied together (C72)
-/

namespace Verif

section
variable [Host]

omit [Host] in
theorem iter_items : ∀ {t : Term} {xs : List Term}, iter t = .ok xs → ItemsOf t xs
  | .tup ys, xs, h => by cases h; exact .tup _
  | .cons h' t, xs, h => by
    obtain ⟨ys, h1, rfl⟩ := Ev.map_eq_ok.1 h
    exact .cons (iter_items h1)
  | .str s, xs, h => by
    cases h
    have := ItemsOf.str s.toList
    rwa [String.ofList_toList] at this
  | .bool _, _, h => by cases h
  | .num _, _, h => by cases h
  | .lit _ _ _, _, h => by cases h
  | .var _, _, h => by cases h
  | .wild, _, h => by cases h
  | .un _ _, _, h => by cases h
  | .bin _ _ _, _, h => by cases h

theorem given_of_convert {c : Spec} {t v : Term} (h : convert c t = .ok v) : Given c t v := by
  cases c with
  | any => cases h; exact .any _
  | int =>
    obtain ⟨i, h1, rfl⟩ := Ev.map_eq_ok.1 h
    cases t with
    | num q =>
      refine .int ?_
      simp only [pyInt, Ev.ok.injEq] at h1
      by_cases hq : 0 ≤ q
      · rw [if_pos hq] at h1
        subst h1
        refine ⟨fun _ => ⟨Rat.floor_le q, ?_⟩, fun h => absurd h (Rat.not_lt.2 hq)⟩
        have := Rat.lt_floor (x := q); grind
      · rw [if_neg hq] at h1
        subst h1
        refine ⟨fun h => absurd h hq, fun _ => ⟨Rat.le_ceil, ?_⟩⟩
        have := Rat.ceil_lt (x := q); grind
    | bool b =>
      cases h1
      have := Given.intBool b
      cases b <;> exact this
    | _ => cases h1
  | float =>
    cases t with
    | num q => cases h; exact .float q
    | bool b => cases h; exact .floatBool b
    | _ => cases h
  | aslStr =>
    simp only [convert, Ev.ok.injEq] at h
    subst h
    cases t with
    | str s => exact .str s
    | bool b => cases b with
      | false => exact .fls
      | true => exact .tru
    | _ => exact .text (by simp) (by simp)
  | tuple =>
    obtain ⟨xs, h1, rfl⟩ := Ev.map_eq_ok.1 h
    exact .items (iter_items h1)

theorem zipSpecs_ok {n nv₀ : Nat} : ∀ (specs : List Spec) (ts vs : List Term) (memo : VarId → Option VarId) (s s' : QSt World),
    MemoOK s.b.scope nv₀ ⟨memo, s.nv⟩ → zipSpecs n specs ts memo s = .ok vs s' →
    ∃ memo' cs, MemoOK s.b.scope nv₀ ⟨memo', s'.nv⟩ ∧ MemoLe ⟨memo, s.nv⟩ ⟨memo', s'.nv⟩ ∧ s' = { s with nv := s'.nv } ∧
      specs.length ≤ ts.length ∧ CopyL s.b.scope (fun x y => memo' x = some y) (ts.take specs.length) cs ∧ GivenL specs cs vs ∧
      ∀ c ∈ cs, c.VarsIn fun y => nv₀ ≤ y
  | [], ts, vs, memo, s, s', hm, h => by
    cases h
    exact ⟨memo, [], hm, .refl _, rfl, Nat.zero_le _, .nil, .nil, nofun⟩
  | _ :: _, [], vs, memo, s, s', hm, h => by cases h
  | c :: specs, t :: ts, vs, memo, s, s', hm, h => by
    rw [zipSpecs] at h
    cases hf : freeze n s.b.scope t ⟨memo, s.nv⟩ with
    | oof => rw [hf] at h; cases h
    | err e m => rw [hf] at h; cases h
    | ok t' m =>
      rw [hf] at h
      simp only [Res.bind_eq_ok, Res.lift_eq_ok] at h
      obtain ⟨v, _, ⟨h1, rfl⟩, vs', s₁, h2, h3⟩ := h
      cases h3
      have i := freeze_spec n t t' _ m hm hf
      obtain ⟨memo', cs, j1, j2, j3, j4, j5, j6, j7⟩ := zipSpecs_ok specs ts vs' m.memo _ _ i.ok h2
      refine ⟨memo', t' :: cs, j1, i.le.trans j2, j3, by simp; omega, ?_, .cons (given_of_convert h1) j6, ?_⟩
      · exact .cons (i.copy.imp fun x y => j2.memo x y) j5
      · intro c hc
        cases hc with
        | head => exact i.vars.imp fun y hy => hy.1
        | tail _ hc => exact j7 c hc

omit [Host] in
/-- A memo is part of a renaming. -/
theorem renaming_of_memo {sc : Scope} {nv : Nat} {m : FSt} (hm : MemoOK sc nv m) :
    ∃ ρ : VarId → VarId, (∀ x y, ρ x = ρ y → x = y) ∧ (∀ x, nv ≤ ρ x) ∧ ∀ x y, m.memo x = some y → y = ρ x := by
  refine ⟨fun x => (m.memo x).getD (m.nv + x), ?_, ?_, ?_⟩
  · intro x y hxy
    simp only at hxy
    cases hx : m.memo x with
    | none =>
      cases hy : m.memo y with
      | none => simp only [hx, hy, Option.getD] at hxy; exact Nat.add_left_cancel hxy
      | some b =>
        simp only [hx, hy, Option.getD] at hxy
        have := (hm.range y b hy).2
        subst hxy
        exact absurd this (Nat.not_lt.2 (Nat.le_add_right _ _))
    | some a =>
      cases hy : m.memo y with
      | none =>
        simp only [hx, hy, Option.getD] at hxy
        have := (hm.range x a hx).2
        subst hxy
        exact absurd this (Nat.not_lt.2 (Nat.le_add_right _ _))
      | some b =>
        simp only [hx, hy, Option.getD] at hxy
        subst hxy
        exact hm.inj x y a hx hy
  · intro x
    simp only
    cases hx : m.memo x with
    | none => exact Nat.le_trans hm.le (Nat.le_add_right _ _)
    | some a => exact (hm.range x a hx).1
  · intro x y hxy
    simp [hxy]

theorem zipSpecs_together {n : Nat} {specs : List Spec} {ts vs : List Term} {s s' : QSt World}
    (h : zipSpecs n specs ts (fun _ => none) s = .ok vs s') :
    ∃ cs, CopiedTogether s (ts.take specs.length) cs ∧ GivenL specs cs vs ∧ s'.b = s.b ∧ s'.w = s.w := by
  obtain ⟨memo, cs, j1, -, j3, -, j5, j6, j7⟩ :=
    zipSpecs_ok (nv₀ := s.nv) specs ts vs _ s s' ⟨by simp, by simp, by simp, Nat.le_refl _⟩ h
  obtain ⟨ρ, r1, r2, r3⟩ := renaming_of_memo j1
  refine ⟨cs, ⟨ρ, r1, r2, j5.imp r3, j7⟩, j6, ?_, ?_⟩ <;> rw [j3]

variable {f : String} {args as : List Term} {specs : List Spec} {n : Nat} {s s' : QSt World} {o : Option (Gen Act ActGen)}

/-- **C72.** What a function is given are copies of the arguments, converted to the types it declares.  The
copies are made together: the same variable is the same in all of them.  The result is unified with the
last argument; nothing else happens. -/
theorem C72_function {fn : List Term → Ev Term}
    (h : gnext n (.start (.act (.fn specs fn) (.lit f args as)) : Gen Act ActGen) s = .ok o s') :
    ∃ k cs vs v x, CopiedTogether s (args.take specs.length) cs ∧ GivenL specs cs vs ∧ fn vs = .ok v ∧ args.getLast? = some x ∧
      unify k x v s.b = .ok o.isSome s'.b ∧ s'.w = s.w := by
  replace h := act_start h
  obtain ⟨m, o', rfl, h⟩ := h
  rw [actNext] at h
  simp only [argList, Res.bind_eq_ok, Res.lift_eq_ok] at h
  obtain ⟨vs, s₁, h1, v, _, ⟨h2, rfl⟩, x, _, ⟨h3, rfl⟩, h⟩ := h
  obtain ⟨cs, j1, j2, j3, j4⟩ := zipSpecs_together h1
  obtain ⟨u1, u2⟩ := unifyThenYield_ok h
  refine ⟨m, cs, vs, v, x, j1, j2, h2, ?_, by rw [← j3]; simpa using u1, u2.trans j4⟩
  unfold lastOf at h3
  split at h3
  · next y hy => cases h3; exact hy
  · cases h3

/-- **C72.** The same with a predicate: it holds if the result is true. -/
theorem C72_predicate {fn : List Term → Ev Bool}
    (h : gnext n (.start (.act (.pred specs fn) (.lit f args as)) : Gen Act ActGen) s = .ok o s') :
    ∃ cs vs, CopiedTogether s (args.take specs.length) cs ∧ GivenL specs cs vs ∧ fn vs = .ok o.isSome ∧ s'.b = s.b ∧ s'.w = s.w := by
  replace h := act_start h
  obtain ⟨m, o', rfl, h⟩ := h
  rw [actNext] at h
  simp only [argList, Res.bind_eq_ok, Res.lift_eq_ok] at h
  obtain ⟨vs, s₁, h1, v, _, ⟨h2, rfl⟩, h⟩ := h
  obtain ⟨cs, j1, j2, j3, j4⟩ := zipSpecs_together h1
  cases h
  refine ⟨cs, vs, j1, j2, ?_, j3, j4⟩
  cases v <;> exact h2

/-- **C72.** The same with a procedure, which always holds. -/
theorem C72_procedure {fn : List Term → Ev Unit}
    (h : gnext n (.start (.act (.proc specs fn) (.lit f args as)) : Gen Act ActGen) s = .ok o s') :
    ∃ cs vs, CopiedTogether s (args.take specs.length) cs ∧ GivenL specs cs vs ∧ fn vs = .ok () ∧ o.isSome ∧ s'.b = s.b ∧ s'.w = s.w := by
  replace h := act_start h
  obtain ⟨m, o', rfl, h⟩ := h
  rw [actNext] at h
  simp only [argList, Res.bind_eq_ok, Res.lift_eq_ok] at h
  obtain ⟨vs, s₁, h1, v, _, ⟨h2, rfl⟩, h⟩ := h
  obtain ⟨cs, j1, j2, j3, j4⟩ := zipSpecs_together h1
  cases h
  exact ⟨cs, vs, j1, j2, h2, rfl, j3, j4⟩

end

section examples
attribute [local instance] exactHost

/-- The second argument. -/
private def second (ts : List Term) : Ev Term :=
  match ts with
  | [_, t] => .ok t
  | _ => .err (.py "TypeError")

/-- A function of `X` and `[X, Y, Z]`, with `Z ↦ 7`, is given `V` and `[V, W, 7]`. -/
example : zipSpecs 9 [.any, .tuple] [.var 0, .cons (.var 0) (.tup [.var 1, .var 2]), .var 3] (fun _ => none)
      ⟨⟨Scope.empty.set 2 (.num 7), [.v 2], 0⟩, 10, World.init fun _ => 0⟩ =
    .ok [.var 10, .tup [.var 10, .var 11, .num 7]] ⟨⟨Scope.empty.set 2 (.num 7), [.v 2], 0⟩, 12, World.init fun _ => 0⟩ := by rfl

/-- The hypothesis of `C72_function` can be met: the function gives its second argument. -/
example : ∃ s' g, gnext 9 (.start (.act (.fn [.any, .tuple] second) (.lit "f" [.var 0, .cons (.var 0) (.tup [.var 1, .var 2]), .var 3] [])))
      ⟨⟨Scope.empty.set 2 (.num 7), [.v 2], 0⟩, 10, World.init fun _ => 0⟩ = .ok (some g) s' ∧
    s'.b.scope 3 = some (.tup [.var 10, .var 11, .num 7]) := ⟨_, _, rfl, rfl⟩

/-- And those of `C72_predicate` and `C72_procedure`. -/
example : ∃ s' g, gnext 9 (.start (.act (.pred [.aslStr, .int] fun ts => .ok (ts.length == 2)) (.lit "f" [.bool true, .num (5 / 2)] [])))
      ⟨BSt.init, 10, World.init fun _ => 0⟩ = .ok (some g) s' := ⟨_, _, rfl⟩
example : ∃ s' g, gnext 9 (.start (.act (.proc [.float] fun _ => .ok ()) (.lit "f" [.bool true] [])))
      ⟨BSt.init, 10, World.init fun _ => 0⟩ = .ok (some g) s' := ⟨_, _, rfl⟩
example : ∀ c v, Given .int (.num (-5 / 2)) v → v = .num c → c = -2 := by
  intro c v h e
  cases h with
  | @int _ i h =>
    cases e
    obtain ⟨h1, h2⟩ := h.2 (by grind)
    have h3 : ((-3 : Int) : Rat) < i := by
      have : ((-3 : Int) : Rat) = -3 := rfl
      grind
    have h4 : (i : Rat) < ((-1 : Int) : Rat) := by
      have : ((-1 : Int) : Rat) = -1 := rfl
      grind
    have h3 := Rat.intCast_lt_intCast.1 h3
    have h4 := Rat.intCast_lt_intCast.1 h4
    have : i = -2 := by omega
    subst this
    rfl

end examples

end Verif
