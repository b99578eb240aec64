import Verif.Lemmas.Fuel
import Verif.Spec.Ground

/-! `freeze` returns whenever there is a copy. -/

namespace Verif

variable [Arith]

/-- `freeze` returns. -/
def Freezes (sc : Scope) (t : Term) : Prop := ∀ m, ∃ n a m', freeze n sc t m = .ok a m'

theorem freeze_up {n k : Nat} {sc : Scope} {t a : Term} {m m' : FSt} (h : freeze n sc t m = .ok a m') (hk : n ≤ k) :
    freeze k sc t m = .ok a m' :=
  (Res.mono (f := fun n => freeze n sc t m) (fun n => freeze_succ n sc t m) hk (fun e => by rw [h] at e; cases e)).trans h

omit [Arith] in
theorem deref_up {n k : Nat} {sc : Scope} {t a : Term} (h : deref n sc t = .ok a) (hk : n ≤ k) : deref k sc t = .ok a :=
  (Ev.mono (f := fun n => deref n sc t) (fun n => deref_succ n sc t) hk (fun e => by rw [h] at e; cases e)).trans h

theorem evaluate_up {n k : Nat} {sc : Scope} {t a : Term} (h : evaluate n sc t = .ok a) (hk : n ≤ k) : evaluate k sc t = .ok a :=
  (Ev.mono (f := fun n => evaluate n sc t) (fun n => evaluate_succ n sc t) hk (fun e => by rw [h] at e; cases e)).trans h

theorem freezeAll_up {n k : Nat} {sc : Scope} {ts as : List Term} {m m' : FSt} (h : freezeAll (freeze n sc) ts m = .ok as m') (hk : n ≤ k) :
    freezeAll (freeze k sc) ts m = .ok as m' :=
  (Res.mono (f := fun n => freezeAll (freeze n sc) ts m) (fun n => freezeAll_le (fun t m => freeze_succ n sc t m) ts m) hk
    (fun e => by rw [h] at e; cases e)).trans h

omit [Arith] in
/-- What a variable stands for. -/
theorem deref_var {sc : Scope} {x : VarId} {u : Term} (hx : sc x = some u) {n : Nat} {v : Term} (h : deref n sc u = .ok v) :
    deref (n + 1) sc (.var x) = .ok v := by
  rw [deref, hx]; exact h

/-- A variable that is bound to a term that can be frozen. -/
theorem freezes_bound {sc : Scope} {x : VarId} {u : Term} (hx : sc x = some u) (hd : ∃ n v, deref n sc u = .ok v ∧ Freezes sc v) :
    Freezes sc (.var x) := by
  intro m
  obtain ⟨n, v, h1, h2⟩ := hd
  obtain ⟨k, a, m', h3⟩ := h2 m
  cases hm : m.memo x with
  | some y => exact ⟨1, .var y, m, by rw [freeze.eq_def]; simp [hm]⟩
  | none =>
    refine ⟨n + k + 2, a, m', ?_⟩
    rw [freeze.eq_def]
    simp only [hm, hx]
    rw [deref_up (deref_var hx h1) (by omega)]
    exact freeze_up h3 (by omega)

mutual
theorem Copy.freezes {sc : Scope} {R : VarId → VarId → Prop} : ∀ {t t' : Term}, Copy sc R t t' → Freezes sc t ∧ ∃ n v, deref n sc t = .ok v ∧ Freezes sc v
  | _, _, .bool b => plain fun m => ⟨1, _, m, rfl⟩
  | _, _, .num q => plain fun m => ⟨1, _, m, rfl⟩
  | _, _, .str s => plain fun m => ⟨1, _, m, rfl⟩
  | _, _, .wild => plain fun m => ⟨1, _, m, rfl⟩
  | _, _, .free (x := x) (y := y) hx hr => by
    have : Freezes sc (.var x) := fun m => by
      cases hm : m.memo x with
      | some y => exact ⟨1, .var y, m, by rw [freeze.eq_def]; simp [hm]⟩
      | none => exact ⟨1, _, _, by rw [freeze.eq_def]; simp only [hm, hx]; rfl⟩
    exact ⟨this, 1, .var x, by rw [deref, hx], this⟩
  | _, _, .bound hx h => by
    have h1 := h.freezes
    obtain ⟨n, v, h2, h3⟩ := h1.2
    exact ⟨freezes_bound hx h1.2, n + 1, v, deref_var hx h2, h3⟩
  | _, _, .un (n := n) (v := v) he h => plain fun m => by
    obtain ⟨k, a, m', h1⟩ := h.freezes.1 m
    refine ⟨n + k + 1, a, m', ?_⟩
    rw [freeze.eq_def]
    simp only [evaluate_up he (Nat.le_add_right n k)]
    exact freeze_up h1 (by omega)
  | _, _, .bin (n := n) (v := v) he h => plain fun m => by
    obtain ⟨k, a, m', h1⟩ := h.freezes.1 m
    refine ⟨n + k + 1, a, m', ?_⟩
    rw [freeze.eq_def]
    simp only [evaluate_up he (Nat.le_add_right n k)]
    exact freeze_up h1 (by omega)
  | _, _, .lit (f := f) h1 h2 => plain fun m => by
    obtain ⟨n, as, m₁, e1⟩ := h1.freezes m
    obtain ⟨k, xs, m₂, e2⟩ := h2.freezes m₁
    refine ⟨n + k + 1, .lit f as (pySet xs), m₂, ?_⟩
    rw [freeze.eq_def]
    simp only [freezeAll_up e1 (Nat.le_add_right n k), freezeAll_up e2 (Nat.le_add_left k n), Res.bind]
  | _, _, .tup h => plain fun m => by
    obtain ⟨n, as, m₁, e1⟩ := h.freezes m
    exact ⟨n + 1, .tup as, m₁, by rw [freeze.eq_def]; simp only [e1, Res.bind]⟩
  | _, _, .cons h1 h2 => plain fun m => by
    obtain ⟨n, a, m₁, e1⟩ := h1.freezes.1 m
    obtain ⟨k, c, m₂, e2⟩ := h2.freezes.1 m₁
    refine ⟨n + k + 1, .cons a c, m₂, ?_⟩
    rw [freeze.eq_def]
    simp only [freeze_up e1 (Nat.le_add_right n k), freeze_up e2 (Nat.le_add_left k n), Res.bind]
where
  plain {sc : Scope} {t : Term} (h : Freezes sc t) (ht : deref 1 sc t = .ok t := by rfl) :
      Freezes sc t ∧ ∃ n v, deref n sc t = .ok v ∧ Freezes sc v := ⟨h, 1, t, ht, h⟩
theorem CopyL.freezes {sc : Scope} {R : VarId → VarId → Prop} : ∀ {ts ts' : List Term}, CopyL sc R ts ts' →
    ∀ m, ∃ n as m', freezeAll (freeze n sc) ts m = .ok as m'
  | _, _, .nil => fun m => ⟨0, [], m, rfl⟩
  | _, _, .cons h1 h2 => fun m => by
    obtain ⟨n, a, m₁, e1⟩ := h1.freezes.1 m
    obtain ⟨k, as, m₂, e2⟩ := h2.freezes m₁
    refine ⟨n + k, a :: as, m₂, ?_⟩
    simp only [freezeAll, freeze_up e1 (Nat.le_add_right n k), freezeAll_up e2 (Nat.le_add_left k n), Res.bind]
end

end Verif
