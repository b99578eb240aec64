import Verif.Tests.Evaluated

/-!
# The programs of `tests/asl` and `examples`, run by the model: statements, arithmetic, lists

From text to output: lexer, parser, compiler, interpreter, actions and scheduler, evaluated by
the kernel.  Belief sets are visited in the order of insertion here (in Python in any order), and
the clock shows the deadline after sleeping.
-/

namespace Verif.Tests
open Run

set_option maxRecDepth 100000

/-- `tests/asl/if-at-plan-end.asl` -/
private def src_if_at_plan_end : String := "!go.

+!go <-
  if (.fail) {
    .print(\"Will not be printed.\");
    .fail;
  }.
"

example : programs 0 1000 400 [("if_at_plan_end", src_if_at_plan_end)] =
    ([], none) := by decide +kernel

/-- `tests/asl/inline-comments.asl` -/
private def src_inline_comments : String := "!test.

+!test <-
  /* Start */ +reached; /* End */ ?reached.
"

example : programs 0 1000 400 [("inline_comments", src_inline_comments)] =
    ([], none) := by decide +kernel

/-- `tests/asl/linked-list-plan-header.asl` -/
private def src_linked_list_plan_header : String := "!start([1, 2]).

+!start([H|T]) : true <-
    H == 1.
"

example : programs 0 1000 400 [("linked_list_plan_header", src_linked_list_plan_header)] =
    ([], none) := by decide +kernel

/-- `tests/asl/odd.asl` -/
private def src_odd : String := "odd(1) :- true.
odd(X) :- X > 0 & odd(X - 2).

!a.
!b.
!c.

+!a <- odd(5).
+!b <- odd(7).
+!c <- ?odd(101).
"

example : programs 0 1000 400 [("odd", src_odd)] =
    ([], none) := by decide +kernel

/-- `tests/asl/ordering-literals.asl` -/
private def src_ordering_literals : String := "offer(38, gold).
offer(23, silver).
offer(34, wood).

!test.

+!test <-
  .findall(a(X, Y), offer(X, Y), L);
  .min(L, a(Price, Item));
  Price == 23;
  Item == silver.
"

example : programs 0 1000 400 [("ordering_literals", src_ordering_literals)] =
    ([], none) := by decide +kernel

/-- `tests/asl/subplan.asl` -/
private def src_subplan : String := "foo(2).

!init.

+!subplan(X) : foo(X) <-
  .print(\"subplan:\", X).

+!init <-
  .print(\"init\");
  !subplan(X);
  .print(\"subplan returned:\", X);
  X == 2.
"

example : programs 0 1000 400 [("subplan", src_subplan)] =
    ([("subplan", "init"), ("subplan", "subplan: 2"), ("subplan", "subplan returned: 2")], none) := by decide +kernel

/-- `tests/asl/while.asl` -/
private def src_while : String := "a(1).
a(2).
a(3).

!consume.

+!consume <-
  while(a(X)) {
    .print(X);
    -a(X);
  }.
"

example : programs 0 1000 400 [("while", src_while)] =
    ([("while", "1"), ("while", "2"), ("while", "3")], none) := by decide +kernel

/-- `examples/hello_world.asl` -/
private def src_hello_world : String := "!hello_world.

+!hello_world <-
  .print(\"Hello world!\").
"

example : programs 0 1000 400 [("hello_world", src_hello_world)] =
    ([("hello_world", "Hello world!")], none) := by decide +kernel

/-- `tests/asl/arithmetic.asl` -/
private def src_arithmetic : String := "!test.

+!test <-
  1 / 2 == 0.5;
  1 div 2 == 0;
  5 mod 3 == 2;
  2 ** 128 mod 16 == 0;
  X = 3 & -X == -3.
"

example : programs 0 1000 400 [("arithmetic", src_arithmetic)] =
    ([], none) := by decide +kernel

end Verif.Tests
