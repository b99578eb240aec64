import Verif.Tests.Language

/-!
# The programs of `tests/asl` and `examples`, run by the model: beliefs, actions, errors

From text to output: lexer, parser, compiler, interpreter, actions and scheduler, evaluated by
the kernel.  Belief sets are visited in the order of insertion here (in Python in any order), and
the clock shows the deadline after sleeping.
-/

namespace Verif.Tests
open Run

set_option maxRecDepth 100000

/-- `tests/asl/abolish.asl` -/
private def src_abolish : String := "b(1, 2)[source(foo)].
b(2, 2)[source(percept)].
b(3, 4)[source(percept)].

!test.

+!test <-
    .abolish(b(_, _)[source(foo)]);
    .abolish(b(X, X));
    ?b(A, B);
    A == 3;
    B == 4.
"

/-! The test expects `A == 3`, but `b(2, 2)[source(percept)]` has not been removed (see C22), and
which of the two beliefs is found first depends on the order of a Python set. -/
example : programs 0 1000 400 [("abolish", src_abolish)] =
    ([], some (Err.py "AggregatedError")) := by decide +kernel

/-- `tests/asl/count.asl` -/
private def src_count : String := "bel(1).
bel(2).

!test_bound(1).
!test_unbound(X).

+!test_bound(Arg) <-
  .count(bel(Arg), Cnt);
  Cnt == 1.

+!test_unbound(Arg) <-
  .count(bel(Arg), Cnt);
  Cnt == 2.
"

example : programs 0 1000 400 [("count", src_count)] =
    ([], none) := by decide +kernel

/-- `tests/asl/illegal-belief.asl` -/
private def src_illegal_belief : String := "!p1(1,X).
// !p2(1,2).

+!p1(A, B) <-
  C = 5;
  +test(A, B, C).  # ok

+!p2(A, B) <-
  +test(A, B, C).  # C unbound

+!p3(A, B) <-
  X = Z + 1.



// a(1,3)[1,2] = a(X,Y)[Z]
"

/-! The belief has an unbound argument. -/
example : programs 0 1000 400 [("illegal_belief", src_illegal_belief)] =
    ([], some (Err.py "AggregatedError")) := by decide +kernel

/-- `tests/asl/optimizer_actions.asl` -/
private def src_optimizer_actions : String := "!p.
+!p <-
    .inf_mark_nosidef(\".w\");
    .inf_nosideef;
    .inf_disable_local;
    .inf_side_effect(\"AFFECT_PARAM_ALL\", \"EFFECT_BIND\", A);
    .unbind_all;
    .print(\"Done.\") .
"

example : programs 0 1000 400 [("optimizer_actions", src_optimizer_actions)] =
    ([("optimizer_actions", "Done.")], none) := by decide +kernel

/-- `tests/asl/remove-belief.asl` -/
private def src_remove_belief : String := "did_not_say(\"hello world\").

!go.

+!go <-
  -did_not_say(X);
  .ground(X);
  .print(X).
"

example : programs 0 1000 400 [("remove_belief", src_remove_belief)] =
    ([("remove_belief", "hello world")], none) := by decide +kernel

/-- `tests/asl/crashes/believe_in_floats.asl` -/
private def src_crash_believe_in_floats : String := "!p1.

+!p1 <- A = 1; +A.
"

example : programs 0 1000 400 [("believe_in_floats", src_crash_believe_in_floats)] =
    ([], some (Err.py "AggregatedError")) := by decide +kernel

/-- `tests/asl/crashes/iterating_beliefs.asl` -/
private def src_crash_iterating_beliefs : String := "q(1).
!p.

+!p <- for(q(X)) {-q(X)}.
"

example : programs 0 1000 400 [("iterating_beliefs", src_crash_iterating_beliefs)] =
    ([], some (Err.py "AggregatedError")) := by decide +kernel

/-- `tests/asl/crashes/ordering_strings.asl` -/
private def src_crash_ordering_strings : String := "/* Crashes in python3 only */
!p.
+!p <- 1 < \"a\".
"

example : programs 0 1000 400 [("ordering_strings", src_crash_ordering_strings)] =
    ([], some (Err.py "AggregatedError")) := by decide +kernel

/-- `tests/asl/crashes/unreferenced_rules.asl` -/
private def src_crash_unreferenced_rules : String := "q(X) :- true.
"

example : programs 0 1000 400 [("unreferenced_rules", src_crash_unreferenced_rules)] =
    ([], none) := by decide +kernel

/-- `tests/asl/crashes/wrong_argument_type.asl` -/
private def src_crash_wrong_argument_type : String := "!p.
+!p <- .nth(_, _, _)."

example : programs 0 1000 400 [("wrong_argument_type", src_crash_wrong_argument_type)] =
    ([], some (Err.py "AggregatedError")) := by decide +kernel

end Verif.Tests
