import Verif.Lemmas.Unify
import Verif.Spec.Trail

/-! The trail: undoing what has been pushed since a state was left. -/

namespace Verif

theorem undo_append : ∀ (δ ε : List Entry) (sc : Scope), undo (δ ++ ε) sc = undo ε (undo δ sc)
  | [], _, _ => rfl
  | .v _ :: δ, ε, _ => undo_append δ ε _
  | .cp _ :: δ, ε, _ => undo_append δ ε _

theorem rerollGo_append {c : Nat} : ∀ (δ : List Entry) (rest : List Entry) (sc : Scope), .cp c ∉ δ →
    rerollGo c sc (δ ++ .cp c :: rest) = (undo δ sc, rest)
  | [], rest, sc, _ => by simp [rerollGo, undo]
  | .v x :: δ, rest, sc, h => by
    simp at h
    simp only [List.cons_append, rerollGo, undo]
    exact rerollGo_append δ rest _ h
  | .cp d :: δ, rest, sc, h => by
    simp at h
    have : d ≠ c := fun e => h.1 e.symm
    simp only [List.cons_append, rerollGo, undo, if_neg this]
    exact rerollGo_append δ rest _ h.2

theorem Above.refl (a : BSt) : Above a a := ⟨[], rfl, rfl, by simp, Nat.le_refl _⟩

theorem Above.trans {a b c : BSt} : Above a b → Above b c → Above a c
  | ⟨δ, h1, h2, h3, h4⟩, ⟨ε, g1, g2, g3, g4⟩ => by
    refine ⟨ε ++ δ, by rw [g1, h1, List.append_assoc], by rw [undo_append, g2, h2], ?_, Nat.le_trans h4 g4⟩
    intro d hd
    rcases List.mem_append.1 hd with hd | hd
    · have := g3 d hd; omega
    · have := h3 d hd; omega

theorem undo_vars (xs : List VarId) (sc : Scope) :
    undo (xs.map .v) sc = fun y => if y ∈ xs then none else sc y := by
  induction xs generalizing sc with
  | nil => simp [undo]
  | cons x xs ih =>
    simp only [List.map_cons, undo, ih]
    funext y
    by_cases h1 : y ∈ xs <;> by_cases h2 : y = x <;> simp [Scope.erase, h1, h2]

theorem Grow.above {a b : BSt} : Grow a b → Above a b
  | ⟨xs, h⟩ => by
    refine ⟨xs.map .v, h.stack, ?_, by simp, by rw [h.ncp]; exact Nat.le_refl _⟩
    rw [undo_vars]
    funext y
    by_cases hy : y ∈ xs
    · simp [hy, h.wasFree y hy]
    · simp [hy, h.frame y hy]

theorem Above.newCp {a b : BSt} (h : Above a b) : Above a b.newCp.2 := by
  obtain ⟨δ, h1, h2, h3, h4⟩ := h
  exact ⟨δ, h1, h2, fun d hd => ⟨(h3 d hd).1, Nat.lt_succ_of_lt (h3 d hd).2⟩, Nat.le_succ_of_le h4⟩

theorem above_mark (b : BSt) : Above b b.mark := by
  refine ⟨[.cp b.ncp], rfl, rfl, ?_, Nat.le_succ _⟩
  intro d hd
  simp at hd; subst hd
  exact ⟨Nat.le_refl _, Nat.lt_succ_self _⟩

theorem reroll_mark {b b' : BSt} (h : Above b.mark b') :
    reroll b' b.ncp = { b with ncp := b'.ncp } := by
  obtain ⟨δ, h1, h2, h3, h4⟩ := h
  have hc : Entry.cp b.ncp ∉ δ := fun hh => by
    have := (h3 _ hh).1
    simp [BSt.mark, BSt.newCp, BSt.pushCp] at this
    omega
  unfold reroll
  rw [h1, show (b.mark).stack = .cp b.ncp :: b.stack from rfl, rerollGo_append δ _ _ hc]
  simp only
  rw [h2]
  rfl

theorem above_ncp {a b : BSt} (h : Above a b) : a.ncp ≤ b.ncp := by
  obtain ⟨_, _, _, _, h⟩ := h; exact h

theorem above_same {b : BSt} {k : Nat} (h : b.ncp ≤ k) : Above b { b with ncp := k } :=
  ⟨[], rfl, rfl, by simp, h⟩

end Verif
