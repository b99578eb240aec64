import Verif.Tests.Actions

/-!
# The programs of `tests/asl` and `examples`, run by the model: waiting and messages

From text to output: lexer, parser, compiler, interpreter, actions and scheduler, evaluated by
the kernel.  Belief sets are visited in the order of insertion here (in Python in any order), and
the clock shows the deadline after sleeping.
-/

namespace Verif.Tests
open Run

set_option maxRecDepth 100000

/-- `examples/askhow/receiver.asl` -/
private def src_ex_askhow_receiver : String := "@plan_tag2[hello(1)]
+!plan1(N) : not meet(john) & meet(george) <-
  .print(\"This plan is from\", N).
"

/-- `examples/askhow/sender.asl` -/
private def src_ex_askhow_sender : String := "!start.

meet(george).

+!start
   <- 
      .print(\"Ask Plan\");
      .send(receiver, askHow, \"+!plan1\");
      .print(\"Plan added...\");
      .wait(1000);
      !plan1(scarlett)
   .
"

example : programs 0 1000 400 [("receiver", src_ex_askhow_receiver), ("sender", src_ex_askhow_sender)] =
    ([("sender", "Ask Plan"), ("sender", "Plan added..."), ("sender", "This plan is from scarlett")], none) := by decide +kernel

/-- `examples/untellhow/receiver.asl` -/
private def src_ex_untellhow_receiver : String := "!start.

+!start <- 
  .print(\"Starting...\");
  !plan1.

@custom_tag
+!plan1 <-
  .print(\"I'm a plan\");
  .wait(1000);
  !plan1.

+!plan1 <-
  .print(\"Ending example\").
"

/-- `examples/untellhow/sender.asl` -/
private def src_ex_untellhow_sender : String := "
!start.

+!start
   <- 
      .wait(5000);
      .print(\"Make the receiver forget about the plan\");
      .send(receiver, untellHow, \"@custom_tag\").
"

example : programs 0 1000 400 [("receiver", src_ex_untellhow_receiver), ("sender", src_ex_untellhow_sender)] =
    ([("receiver", "Starting..."), ("receiver", "I'm a plan"), ("receiver", "I'm a plan"), ("receiver", "I'm a plan"), ("receiver", "I'm a plan"), ("receiver", "I'm a plan"), ("sender", "Make the receiver forget about the plan"), ("receiver", "Ending example")], none) := by decide +kernel

end Verif.Tests
