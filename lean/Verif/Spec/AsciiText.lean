import Verif.Model.Lexer

/-! Unicode tables for examples: nothing but ASCII. -/

namespace Verif

@[reducible] def asciiText : Unicode where
  space c := decide (9 ≤ c.toNat ∧ c.toNat ≤ 13) || decide (28 ≤ c.toNat ∧ c.toNat ≤ 32)
  digit c := c.isDigit
  alnum c := c.isAlphanum
  lower c := [c.toLower]
  named _ := none
  space_ascii _ _ := rfl
  digit_ascii _ _ := rfl
  alnum_ascii _ _ := rfl
  lower_ascii _ _ := rfl
  named_lt _ _ h := by cases h

end Verif
