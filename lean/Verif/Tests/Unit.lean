import Verif.Spec.RunHost

/-!
# The unit tests of the repository (`tests/test_terms.py`, `test_stdlib.py`, `test_parser.py`)
-/

namespace Verif.Tests

attribute [local instance] asciiText Decimal.floats Run.arith Run.host

set_option maxRecDepth 10000

private abbrev X : Term := .var 0
private abbrev Y : Term := .var 1

/-! ## `test_terms.py` -/

/-! `test_unifies`, lines 11-26 -/
example : unifies 9 (.bool true) (.num 1) = .ok false := by decide +kernel
example : unifies 9 (.num 3) (.num 3) = .ok true := by decide +kernel
example : unifies 9 (.bool true) (.bool true) = .ok true := by decide +kernel
example : unifies 9 (.num 5) .wild = .ok true := by decide +kernel
example : unifies 9 (.tup [.num 1, .num 2]) (.tup [.num 1, .wild]) = .ok true := by decide +kernel
example : unifies 9 (.tup [.str "hello", .num 2]) (.tup [.str "hello", X]) = .ok true := by decide +kernel
example : unifies 9 X (.atom "beep") = .ok true := by decide +kernel
example : unifies 9 (.atom "boop") X = .ok true := by decide +kernel
example : unifies 9 (.lit "foo" [X, X] []) (.lit "foo" [.num 1, .num 1] []) = .ok true := by decide +kernel
example : unifies 9 (.lit "bar" [X, X] []) (.lit "bar" [.num 1, .num 2] []) = .ok false := by decide +kernel

/-! `test_unifies_annotated`, lines 28-45; annotations are sets: `(X, X)` is one annotation -/
private def foo (as : List Term) : Term := .lit "foo" [] as
private def ua (l r : Term) : Option Bool := match unifiesAnnotated 20 l r BSt.init with
  | .ok b _ => some b
  | _ => none
private abbrev a : Term := .str "a"
private abbrev b : Term := .str "b"
example : ua (foo [a]) (foo [a, b]) = some true := by decide +kernel
example : ua (foo [a]) (foo [X, Y]) = some true := by decide +kernel
example : ua (foo [a]) (foo [X]) = some true := by decide +kernel
example : ua (foo [a, b]) (foo [X, Y]) = some true := by decide +kernel
example : ua (foo [X, Y]) (foo [a, b]) = some true := by decide +kernel
example : ua (foo [X]) (foo [a, b]) = some true := by decide +kernel
example : ua (foo [a, b]) (foo [X]) = some false := by decide +kernel
example : ua (foo [X, Y]) (foo [a]) = some false := by decide +kernel

/-! `test_parse_string`, lines 47-49 -/
example : parseString "\"hello\"".toList = .ok ("hello".toList.map Char.toNat) := by decide +kernel
example : parseString "\"line 1\nline 2\"".toList = .ok ("line 1\nline 2".toList.map Char.toNat) := by decide +kernel

/-! `test_is_number`, lines 51-58 -/
example : (Term.num 1).isNumber = true ∧ (Term.num (-37 / 10)).isNumber = true ∧ (Term.num (2 ^ 128)).isNumber = true ∧
    (Term.str "a string").isNumber = false ∧ (Term.bool false).isNumber = false ∧ (Term.bool true).isNumber = false :=
  ⟨rfl, rfl, rfl, rfl, rfl, rfl⟩

/-! ## `test_stdlib.py` -/

/-- `next(_concat(agent, term, intention))` and `X.grounded(intention.scope)` -/
private def concatenated (args : List Term) : Option (Ev Term) :=
  match concat 20 (.lit ".concat" (args ++ [X]) []) Run.start with
  | .ok (some _) s => some (grounded 20 s.b.scope X)
  | _ => none

private def isStr (s : String) : Option (Ev Term) → Bool
  | some (.ok (.str t)) => t == s
  | _ => false

/-! `test_concat_strings`, lines 12-21 -/
example : isStr "hello world" (concatenated [.str "hello", .str " ", .str "world"]) = true := by decide +kernel
/-! `test_concat_lists`, lines 23-32 -/
example : (match concatenated [.tup [.num 1, .num 2], .tup [.num 3]] with
    | some (.ok (.tup [.num p, .num q, .num r])) => (p, q, r) = (1, 2, 3)
    | _ => False) := by with_unfolding_all exact rfl

/-! ## `test_parser.py` -/

/-- `parse("<test>", tokens, log, frozenset())`: the number of errors logged, and the exception. -/
private def parsed (s : String) : Option (Option Err × Nat) :=
  match Run.toks s with
  | .ok ts =>
    match parseFile (fun _ => none) (Run.fuel ts) "<test>".toList ts with
    | .ok _ n => some (none, n)
    | .err e n => some (some e, n)
    | .oof => none
  | _ => none

/-! `test_rule_head_not_unifiable`, lines 21-28: `log.throw()` raises -/
example : parsed "rule(X + 1) :- true." = some (none, 1) := by decide +kernel
/-! `test_unexpected_eof`, lines 30-36: `parse` raises -/
example : parsed "a" = some (some (.asl "end of file"), 1) := by decide +kernel
/-! `test_unify_return_value`, lines 38-45: one of the two raises -/
example : parsed "+!p <- (X = 2) + 1 > 0." = some (none, 1) := by decide +kernel

end Verif.Tests
