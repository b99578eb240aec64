import Verif.Lemmas.Freeze
import Verif.Lemmas.FreezeTotal
import Verif.Lemmas.Ground
import Verif.Spec.ExactArith

/-!
# Properties C09, C10: grounding and freezing
-/

namespace Verif

section
variable [Arith]

/-- **C09.** If `grounded(t, scope)` returns `g` then `is_ground(t, scope)` is `True`, `g`
has no variable, wildcard or expression in it (annotations included), and grounding `g`
again, in whatever scope, returns `g`. -/
theorem C09_grounded_closed {n : Nat} {sc : Scope} {t g : Term} (h : grounded n sc t = .ok g) :
    (∃ N, ∀ m, N ≤ m → isGround m sc t = .ok true) ∧ g.Ground ∧
    ∀ sc' : Scope, ∃ N, ∀ m, N ≤ m → grounded m sc' g = .ok g := by
  have := grounded_settled h
  obtain ⟨k, hk⟩ := (eval_grounded_isGround sc n).2 t g h
  exact ⟨⟨k, fun m hm => isGround_mono hk hm⟩, this.1, this.2⟩

/-- **C09.** The result denotes the same value as the term: under every assignment
consistent with the scope, `t` and `g` denote the same values. -/
theorem C09_grounded_value {cmp : Bool} {n : Nat} {sc : Scope} {t g : Term} (hsc : ScopeOK cmp sc)
    (ht : t.Tame cmp) (h : grounded n sc t = .ok g) :
    ∀ σ : Asg, Models σ sc → ∀ v, Den σ t v ↔ Den σ g v :=
  fun σ hσ v => (grounded_spec hsc ht h).den σ hσ v

/-- **C09**, converse: for terms without expressions (also not in bound terms),
`grounded` returns whenever `is_ground` is `True`. -/
theorem C09_grounded_total {n : Nat} {sc : Scope} {t : Term} (hsc : ∀ x u, sc x = some u → u.ExprFree)
    (ht : t.ExprFree) (h : isGround n sc t = .ok true) : ∃ g, grounded n sc t = .ok g :=
  grounded_of_isGround hsc n t ht h

/-- **C10.** `freeze` returns whenever there is a copy at all: it raises only if an expression cannot be
evaluated, and does not return only if a binding is circular. -/
theorem C10_freeze_total {sc : Scope} {R : VarId → VarId → Prop} {t t' : Term} {nv : VarId} (h : Copy sc R t t') :
    ∃ n t'' m, freezeNew n sc t nv = .ok t'' m := h.freezes.1 _

/-- **C10.** `freeze(t, scope, {})` returns a copy `t'` of `t`: bound variables are
replaced by their values, unbound ones renamed by one injective renaming `ρ` to
variables that did not exist before (`nv` is the number of variables that existed), and
no other variable occurs in `t'`. -/
theorem C10_freeze_copy {n : Nat} {sc : Scope} {t t' : Term} {nv : VarId} {m : FSt}
    (h : freezeNew n sc t nv = .ok t' m) :
    ∃ ρ : VarId → VarId, (∀ x y, ρ x = ρ y → x = y) ∧ (∀ x, nv ≤ ρ x) ∧
      Copy sc (fun x y => y = ρ x) t t' ∧ t'.VarsIn (fun y => nv ≤ y ∧ y < m.nv) := by
  have h0 : MemoOK sc nv ⟨fun _ => none, nv⟩ := ⟨by simp, by simp, by simp, Nat.le_refl _⟩
  have i := freeze_spec n t t' _ m h0 h
  refine ⟨fun x => (m.memo x).getD (m.nv + x), ?_, ?_, i.copy.imp ?_, i.vars⟩
  · intro x y hxy
    simp only at hxy
    cases hx : m.memo x with
    | none =>
      cases hy : m.memo y with
      | none => simp only [hx, hy, Option.getD] at hxy; exact Nat.add_left_cancel hxy
      | some b =>
        simp only [hx, hy, Option.getD] at hxy
        have := (i.ok.range y b hy).2
        subst hxy
        exact absurd this (Nat.not_lt.2 (Nat.le_add_right _ _))
    | some a =>
      cases hy : m.memo y with
      | none =>
        simp only [hx, hy, Option.getD] at hxy
        have := (i.ok.range x a hx).2
        subst hxy
        exact absurd this (Nat.not_lt.2 (Nat.le_add_right _ _))
      | some b =>
        simp only [hx, hy, Option.getD] at hxy
        subst hxy
        exact i.ok.inj x y a hx hy
  · intro x
    simp only
    cases hx : m.memo x with
    | none => exact Nat.le_trans i.le.nv (Nat.le_add_right _ _)
    | some a => exact (i.ok.range x a hx).1
  · intro x y hxy
    simp [hxy]

/-- **C10.** If `t` is ground, `freeze` returns the same term as `grounded` and creates
no variable. -/
theorem C10_freeze_ground {n : Nat} {sc : Scope} {t g : Term} {nv : VarId} (h : grounded n sc t = .ok g) :
    freezeNew n sc t nv = .ok g ⟨fun _ => none, nv⟩ :=
  freeze_ground (by simp) n t g h

/-- **C10.** The copy is isolated: whatever is bound later in the old scope, the frozen
term does not mention any variable that existed before the call. -/
theorem C10_freeze_isolated {n : Nat} {sc : Scope} {t t' : Term} {nv : VarId} {m : FSt}
    (h : freezeNew n sc t nv = .ok t' m) : t'.VarsIn fun y => ¬ y < nv := by
  obtain ⟨_, _, _, _, h⟩ := C10_freeze_copy h
  exact h.imp fun y hy => Nat.not_lt.2 hy.1

end

section examples
attribute [local instance] exactArith

/-- `X ↦ [1|Y], Y ↦ [2]`: `f(X)[a, a]` grounds to `f([1|[2]])[a]`. -/
example : grounded 9 ((Scope.empty.set 0 (.cons (.num 1) (.var 1))).set 1 (.tup [.num 2]))
    (.lit "f" [.var 0] [.atom "a", .atom "a"]) =
    .ok (.lit "f" [.cons (.num 1) (.tup [.num 2])] [.atom "a"]) := by rfl

example : isGround 9 ((Scope.empty.set 0 (.cons (.num 1) (.var 1))).set 1 (.tup [.num 2]))
    (.lit "f" [.var 0] [.atom "a", .atom "a"]) = .ok true := by rfl

/-- `f(X, Y, X, Z)` with `Z ↦ g(Y)` freezes to `f(V₃, V₄, V₃, g(V₄))`. -/
example : ∃ m, freezeNew 9 (Scope.empty.set 2 (.lit "g" [.var 1] []))
    (.lit "f" [.var 0, .var 1, .var 0, .var 2] []) 3 =
    .ok (.lit "f" [.var 3, .var 4, .var 3, .lit "g" [.var 4] []] []) m ∧ m.nv = 5 := ⟨_, rfl, rfl⟩

/-- The converse of C09 needs its hypothesis: `f(1 + true)` is ground, but `grounded`
raises. -/
example : isGround 9 Scope.empty (.lit "f" [.bin .add (.num 1) (.bool true)] []) = .ok true ∧
    ∀ g, grounded 9 Scope.empty (.lit "f" [.bin .add (.num 1) (.bool true)] []) ≠ .ok g := by
  refine ⟨rfl, fun g => ?_⟩
  simp [grounded, evaluate, binFunc, BinOp.compOp, BinOp.booleanOp, BinOp.numericOp, Ev.mapL]

end examples

end Verif
