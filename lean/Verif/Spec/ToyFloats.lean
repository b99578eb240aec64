import Verif.Model.Parser

/-! Numbers for examples: only natural numbers, everything else is infinite. -/

namespace Verif

/-- The number with these digits. -/
def natOf (u : List Char) : Nat := u.foldl (fun n c => 10 * n + (c.toNat - 48)) 0

/-- The digits of a number. -/
def decimals : Nat → Nat → List Char
  | 0, _ => []
  | k + 1, n => if n < 10 then [Char.ofNat (48 + n)] else decimals k (n / 10) ++ [Char.ofNat (48 + n % 10)]

theorem digit_of : ∀ n < 10, (Char.ofNat (48 + n)).isDigit = true ∧ (Char.ofNat (48 + n)).toNat - 48 = n := by decide

theorem natOf_append (u : List Char) (c : Char) : natOf (u ++ [c]) = 10 * natOf u + (c.toNat - 48) := by simp [natOf]

theorem decimals_spec : ∀ (k n : Nat), n < k → natOf (decimals k n) = n ∧ decimals k n ≠ [] ∧ ∀ c ∈ decimals k n, c.isDigit = true
  | 0, _, h => by omega
  | k + 1, n, h => by
    rw [decimals]
    by_cases hn : n < 10
    · rw [if_pos hn]
      simp [natOf, digit_of n hn]
    · rw [if_neg hn]
      obtain ⟨h1, h2, h3⟩ := decimals_spec k (n / 10) (by omega)
      have hd := digit_of (n % 10) (by omega)
      refine ⟨?_, by simp, ?_⟩
      · rw [natOf_append, h1, hd.2]; omega
      · intro c hc
        simp only [List.mem_append, List.mem_singleton] at hc
        rcases hc with hc | rfl
        · exact h3 c hc
        · exact hd.1

theorem toyRead_nonneg {u : List Char} {q : Rat} (h : (if u.all Char.isDigit then FloatV.fin (natOf u) else .inf) = .fin q) : 0 ≤ q := by
  split at h
  · cases h
    exact Rat.natCast_nonneg
  · cases h

@[reducible] def toyFloats : Floats where
  read u := if u.all Char.isDigit then .fin (natOf u) else .inf
  print q := if q < 0 then '-' :: decimals (q.num.natAbs + 1) q.num.natAbs else decimals (q.num.natAbs + 1) q.num.natAbs
  print_text := by
    intro u q h
    have h0 := toyRead_nonneg h
    simp only [if_neg (Rat.not_lt.2 h0)]
    obtain ⟨-, h2, h3⟩ := decimals_spec (q.num.natAbs + 1) q.num.natAbs (by omega)
    exact ⟨⟨_, [], [], by simp, ⟨h2, h3⟩, .inl rfl, .inl rfl⟩⟩
  read_print := by
    intro u q h
    have h0 := toyRead_nonneg h
    simp only [if_neg (Rat.not_lt.2 h0)]
    split at h
    · cases h
      have e : ((natOf u : Nat) : Rat).num.natAbs = natOf u := by simp
      obtain ⟨h1, h2, h3⟩ := decimals_spec (natOf u + 1) (natOf u) (by omega)
      rw [e, if_pos (List.all_eq_true.2 h3), h1]
    · cases h
  read_nonneg := toyRead_nonneg
  print_neg := by
    intro u q h hq
    rw [if_pos (by rw [Rat.neg_lt_iff]; simpa using hq), if_neg (by exact Rat.not_lt.2 (Rat.le_of_lt hq))]
    simp

end Verif
