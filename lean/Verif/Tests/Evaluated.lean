import Verif.Spec.RunHost
import Verif.Tests.Unit

/-!
# The programs of `tests/asl` and `examples` that are too long for the kernel

They are evaluated by `#guard`, with the same definitions: tests of the model, not theorems.
-/

namespace Verif.Tests
open Run

/-- `tests/asl/annotations.asl` -/
private def src_annotations : String := "weather(sunny)[source(self)].

!test1.
!test2.
!test3.

+!test1 <-
  foo[a(1), b(X)] = foo[a(1), d(4), b(2), c(3)];
  X == 2;
  .print(\"OK, X =\", X).

+!test2 : weather(sunny)[source(X)] <-
  X == self;
  .print(\"OK, X =\", X).

+!test3 <-
  foo[outer[inner]] = foo[outer[X]];
  .print(\"OK, X =\", X).
"

#guard programs 0 1000 400 [("annotations", src_annotations)] =
  ([("annotations", "OK, X = 2"), ("annotations", "OK, X = self"), ("annotations", "OK, X = inner")], none)

/-- `tests/asl/ext_stdlib.asl` -/
private def src_ext_stdlib : String := "!test_floor.
!test_ceil.
!test_round.
!test_tail.

+!test_floor <-
  .floor(-3.7, -4);
  .floor(0, 0);
  .floor(2.9, 2).

+!test_ceil <-
  .ceil(-3.7, -3);
  .ceil(0, 0);
  .ceil(2.9, 3).

+!test_round <-
  .round(-3.7, -4);
  .round(0, 0);
  .round(2.9, 3).

+!test_tail <-
  L = [1, 2, 3, 4];
  .nth(0, L, 1);
  .tail(L, [2, 3, 4]).
"

#guard programs 1 1000 400 [("ext_stdlib", src_ext_stdlib)] =
  ([], none)

/-- `tests/asl/family.asl` -/
private def src_family : String := "// https://en.wikipedia.org/wiki/Prolog#Execution

mother_child(trude, sally).

father_child(tom, sally).
father_child(tom, erica).
father_child(mike, tom).

sibling(X, Y)      :- parent_child(Z, X) & parent_child(Z, Y) & not X = Y.

parent_child(X, Y) :- father_child(X, Y).
parent_child(X, Y) :- mother_child(X, Y).

!p1.
!p2.
!p3.


+!p1 <-
  .print(\"1. Siblings:\");
  sibling(A, B);
  .print(A, B).

+!p2 <-
  .print(\"2. Siblings:\");
  for (sibling(A, B)) {
    .print(A, B)
  }.

+!p3 <-
  .print(\"3. Siblings:\");
  ?sibling(A, B);
  .print(A, B).
"

#guard programs 0 1000 400 [("family", src_family)] =
  ([("family", "1. Siblings:"), ("family", "sally erica"), ("family", "2. Siblings:"), ("family", "sally erica"), ("family", "erica sally"), ("family", "3. Siblings:"), ("family", "sally erica")], none)

/-- `tests/asl/linked-list.asl` -/
private def src_linked_list : String := "!test_simple.
!test_multi.
!test_nth.

+!test_simple <-
  L = [1, 2, 3, 4];
  L = [A|B];
  A == 1;
  B == [2, 3, 4].

+!test_multi <-
  L = [1, 2, 3, 4];
  [A|B|C] = L;
  A == 1;
  B == 2;
  C == [3, 4].

+!test_nth <-
  Tail = [three, four];
  L = [one|two|Tail];
  .nth(0, L, one);
  .nth(1, L, two);
  .nth(2, L, three);
  .nth(3, L, four).
"

#guard programs 0 1000 400 [("linked_list", src_linked_list)] =
  ([], none)

/-- `tests/asl/list.asl` -/
private def src_list : String := "list_a([3, 1, 2]).
list_b([4, 5]).
list_c([]).

!test_unification.
!test_concat.
!test_min.
!test_max.
!test_nth.
!test_sort.
!test_length.
!test_member.

+!test_unification : list_a([A, B, C]) & list_b([D, E]) <-
  .print(A, B, C, D, E).

+!test_concat : list_a(A) & list_b(B) <-
  .concat(A, B, R);
  .print(R).

+!test_min : list_a(A) <-
  .min(A, R);
  .print(\"min = \", R);
  R == 1.

+!test_max : list_a(A) <-
  .max(A, R);
  .print(\"max = \", R);
  R == 3.

+!test_nth : list_a(A) <-
  .nth(0, A, R0) & R0 == 3;
  .nth(1, A, R1) & R1 == 1;
  .nth(2, A, R2) & R2 == 2;
  .print(R0, R1, R2).

+!test_sort : list_a(A) <-
  .sort(A, Sorted);
  .nth(2, Sorted, R) & R = 3;
  .print(Sorted).

+!test_length : list_a(A) & list_b(B) <-
  .length(A, LengthA) & LengthA == 3;
  .length(B, LengthB) & LengthB == 2;
  .length(\"hello\", 5).

+!test_member : list_b(B) <-
  .member(X, B) & X \\== 4;
  .member(Y, B) & Y == 4;
  for (.member(M, B)) {
    .print(M)
  }.
"

#guard programs 0 1000 400 [("list", src_list)] =
  ([("list", "3 1 2 4 5"), ("list", "[3, 1, 2, 4, 5]"), ("list", "min =  1"), ("list", "max =  3"), ("list", "3 1 2"), ("list", "[1, 2, 3]"), ("list", "4"), ("list", "5")], none)

/-- `tests/asl/optimizer.asl` -/
private def src_optimizer : String := "+!test1(X, Y1, Y2) <-
    .inf_mark_nosidef(\".p\");

    /* unary ops */
    .p(+A); /* warning */
    +p(A); /* no warning, A considered ground */
    A = p(1); .p(+A); /* warning */
    .p(+ - + - 8); /* optimized to constant */
    .p(X + X); /* nothing */
    
    /* unification */
    B = X+X; B = Y1; .p(Y1, B); /* changed into .p(B, B) */
    C = Y2; .p(Y2, C); /* changed into .p(Y2, Y2) */
    D = p(X+X, X, 3); .p(D); /* unify for X+X, inline D */
    E = p(X+X, X, 3); /* optimized away */
    Y2 = p(5); /* nothing */
    Y2 = q(5); /* warning */
    Y2 = p(5, 5); /* warning */
    p(p(3), 3) = p(p(3), 3); /* optimized away */
    p(p(7), 7) = p(p(X+X), 7); /* simplified */
    Y2 = 3; /* warning */
    3 = 4; /* warning */
    3 = X+X; /* nothing */
    X+X = X+X; /* nothing */
    p(_, 3) = p(X+X, 3); /* optimized away */
    
    /* binary ops */
    .p(F + F); /* warning */
    +p(F); /* no warning, F considered ground */
    G = p(5); .p(1 + G); /* warning */
    F = 3;
    .p(5 + F); /* constant propagation */
    
    /* other formula types */
    +p(p(H), 3); /* warning */
    +p(H); /* no warning, term considered ground */
    -I; /* warning */
    -p(J); J = 3; /* nothing, J considered unproven */
    
    /* if-then-else 1 */
    if (true)  {K = 1; .p(3)} else {K = 2}; .p(K); /* simplified */
    if (false) {L = 1} else {L = 2}; .p(L); /* optimized to .p(2) */
    if (J) {true} else {true}; /* warning */
    if (X == 5) {M = 1} else {M = 2}; .p(M); /* not optimized */
    if (X == 6) {N = 1} else {N = 1}; .p(N); /* optimized to .p(1) */
    if (X == 7) {O = 1} else {}; /* optimized away */

    /* term elimination */
    p(P, _) = p(X+X, 3); /* optimized away */
    p(Q, _) = p(X+X, 3); .p(Q); /* kept, but simplified */

    /* side-effects 1 */
    .inf_nosideef; /* optimized away */

    true.

+!test2 <-
    /* side-effects 2 */
    .inf_disable_local; /* plan is not optimized */
    true.
    
+!test3(X, Ha) :
    /* context */
    Ga = 17 /* optimized away */
<-
    .p(Ga); /* simplified */

    /* side-effects 3 */
    .inf_side_effect(\"AFFECT_PARAM_ALL\", \"EFFECT_CHANGE\"); /* warning */
    .inf_side_effect(\"AFFECT_PARAM_ALL\", \"EFFECT_UNBIND\"); /* warning */

    .inf_side_effect(\"AFFECT_PARAM_ALL\", \"EFFECT_BIND\", A); /* optimized away */
    A = 1; /* kept, A was considered unproven */
    
    .inf_side_effect(\"AFFECT_PARAM_ALL\", \"EFFECT_DOBIND\", B); /* optimized away */
    B = 2; /* kept, B was considered bound */

    C = 3; /* kept */
    .inf_side_effect(\"AFFECT_SCOPE\", \"EFFECT_CHANGE\"); /* optimized away */
    3 = C; /* kept */

    /* lists */
    D = [E, 2, 3]; .p(D); /* kept, no value optimisations for lists */

    E = 2; /* kept, E was considered unproven */
    [F, 2] = [3, 2]; .p(F); /* simplified */
    p(5, 6) = [7, 8]; /* warning */
    5 = [9, 1]; /* warning */
    X+X = [2, 3]; /* warning */
    [2, 3] = [2, 3, 4]; /* warning */

    /* if-then-else 2 */
    if (G = X+X) {.p(3)} else {.p(4)} /* optimized */
    .p(G);
    if (G = X+2) {} /* optimized away */
    if (G = X+3) {} else {.p(5)} /* nothing */

    /* while and for */
    while (p(X)) {
        H = 3 /* optimized away */
    }
    .p(H); /* warning, H unbound */
    while (false) {H = 3} /* optimized away */

    /* boolean operators */
    I = true; /* optimized away */
    .p(I & (false | I)); /* simplified */

    /* belief queries */
    J = X+X & K = X+X; /* expanded into statements */
    .p(J, K);
    if (p(3) & L = 4) {.p(L)} /* simplified L to 4 */
    if (p(4) | M = 4) {.p(M)} /* nothing, M considered unproven */
    if ((p(N) & N = 4) | N = 4) {.p(N)} /* simplified N to 4 */
    if (p(O, P, _) = p(5, 6, 7)) {.p} /* simplified and expanded */
    if (not p(Q)) {.p(Q)} /* warning */

    Q = X+2 & p(Q) | true; /* kept, because of errors, else removed */
    if (R = X+3 & p(2)) {.p} /* simplified */
    if (S = X+3 & p(2)) {.p(S)} /* nothing */
    (T = X+3 | X+X > X+3) | true; /* simplified */
    true | (U = X+3 | X+X > X+3); /* simplified */
    not p(V) | true; /* kept, because of errors, else removed */
    
    /* variables in variables */
    if (X+X > 1) {W = p(Aa); Ca = p(Da)} /* nothing */
    W = p(1); /* kept, Aa is used later */
    Ca; /* kept, Da is used later */
    .p(Aa, Da);
    p(Ea, Fa);
    Fa | true; /* kept, Fa may bind Ea */
    Ea;

    /* annotations */
    p[1] = p; /* warning */
    p(X+1)[X+2, w(X+3)] = p(X+3)[X+4, w(X+5)]; /* split */
    
    /* standard library */
    Ia = 5;
    .unbind_all;
    .print(Ia); /* nothing, Ia considered unproven */

    true.
"

#guard programs 0 1000 400 [("optimizer", src_optimizer)] =
  ([], none)

/-- `tests/asl/pop-query.asl` -/
private def src_pop_query : String := "!test_for_with_if.
!test_for_with_while.
!test_for_with_for.

+!test_for_with_if <-
  for(.member(I, [1, 2, 3])) {
    if(false) {
    }
    +reached_after_if(I);
  }
  ?reached_after_if(1);
  ?reached_after_if(2);
  ?reached_after_if(3).

+!test_for_with_while <-
  for(.member(I, [1, 2, 3])) {
    while(false) {
    }
    +reached_after_while(I);
  }
  ?reached_after_while(1);
  ?reached_after_while(2);
  ?reached_after_while(3).

+!test_for_with_for <-
  for(.member(I, [1, 2, 3])) {
    for (.member(_, [])) {
    }
    +reached_after_for(I);
  }
  ?reached_after_for(1);
  ?reached_after_for(2);
  ?reached_after_for(3).
"

#guard programs 0 1000 400 [("pop_query", src_pop_query)] =
  ([], none)

/-- `tests/asl/syntax.asl` -/
private def src_syntax : String := "/*
 * An agent file with all syntactical constructs for parser testing.
 */

// Initial beliefs

round(apple).
round(world).
weight(apple, 0.25).
weight(world, 5.9721986e24).
negative(-1).
grounded(not not true).

// Rules.

even(Number) :- not odd(Number).

// Initial plans.

!hello(world).
!ungrounded(X, Y).

// Plans

+!hello(W) <-
  .print(\"Hello\", W).

+!ungrounded(X, 8) <-
  .print(\"ungrounded:\", X, 8).

+!always_successful.

+!with_context(X) : weight(X, Weight) <-
  if (Weight > 4) {
    .print(\"if\");
  } else {
    .print(\"else\")
  }.

+!with_context(X) : true <-
  .print(\"Previous plan not applicable -> weight not known\").

+!enumerate <-
  .print(\"Round things:\");
  for (round(Thing)) {
    .print(Thing);
  }.

+!loop(Z) : true <-
  while (.buy(Z)) {
    ?inventory(Count);
    NewCount = Count + 1;
    -+inventory(NewCount);
  }.

@annotation(foo, bar(Baz))
+!subplans <-
  !immediately;
  !!later.

-!subplans <-
  .print(\"subplans failed\").

+inventory(NewCount) <-
  .print(\"Inventory belief updated: \", NewCount).

// Include something

{include(\"/dev/null\")}

// Apply a transformation

{begin myTransformation(13)}
  +!plan <-
    +foo;
    +bar;
    +baz(-(2 ** 10 - 2 * 3) mod 5 div 2).
{end}

// Optional semicolons left out

-tricky <-
  for (foo(F)) {
    for (bar(B)) {
    }
    for (jar(J)) {
    }
  }
  for (baz(Z)) {
  }.
"

#guard programs 0 1000 400 [("syntax", src_syntax)] =
  ([("syntax", "Hello world"), ("syntax", "ungrounded: _X_abc_13 8")], none)

/-- `examples/annotations/receiver.asl` -/
private def src_ex_annotations_receiver : String := "
!start.

@p1[hello(world),time(sunny)]
+!start
<- 
    .print(\"hello world\").

+!start
<-
    .print(\"by world\").

+hello(world)[source(sender1)]
<-
    .print(\"I receive a message from sender1\");
    -hello(world)[source(sender1)];
    -hello(world);
    !stop.

+hello(world)[source(S)]
<-
    .print(\"I receive a message from\", S).


+!stop: hello(world)[source(S)]
<-
    .print(\"almost one belief remains\").

+!stop
<-
    .print(\"all delete\")."

/-- `examples/annotations/sender.asl` -/
private def src_ex_annotations_sender : String := "!start.

+!start
<-
    .send(receiver,tell, hello(world))."

#guard programs 0 1000 400 [("receiver", src_ex_annotations_receiver), ("sender", src_ex_annotations_sender)] =
  ([("receiver", "hello world"), ("receiver", "I receive a message from sender")], none)

/-- `examples/communication/receiver.asl` -/
private def src_ex_communication_receiver : String := "

+!hello(Msg,M)[source(Sender)] <-
  .print(\"got a message from saying\", Msg, M, Sender).
"

/-- `examples/communication/sender.asl` -/
private def src_ex_communication_sender : String := "!start.
+!start <-
  /*.print(\"about to broadcast ...\");
  .broadcast(achieve, hello(42,56));
  .print(\"broadcasted.\");
  .print(\"sending individual message ...\");*/

  .send(receiver,askHow, \"+!hello(M,N)\");
  .wait(2000);
  !hello(2,3)[source(self)];
  .print(\"sent.\").
"

#guard programs 0 1000 400 [("receiver", src_ex_communication_receiver), ("sender", src_ex_communication_sender)] =
  ([("sender", "got a message from saying 2 3 self"), ("sender", "sent.")], none)

/-- `tests/asl/nested-loops.asl` -/
private def src_nested_loops : String := "iterations(0).

!test.

+!test <-
  for (.member(I, [1, 2, 3])) {
    for (.member(J, [1, 2, 3, 4, 5])) {
      .print(I, J);

      ?iterations(X);
      -+iterations(X + 1);
    }
  };
  iterations(15).
"

#guard programs 0 1000 400 [("nested_loops", src_nested_loops)] =
  ([("nested_loops", "1 1"), ("nested_loops", "1 2"), ("nested_loops", "1 3"), ("nested_loops", "1 4"), ("nested_loops", "1 5"), ("nested_loops", "2 1"), ("nested_loops", "2 2"), ("nested_loops", "2 3"), ("nested_loops", "2 4"), ("nested_loops", "2 5"), ("nested_loops", "3 1"), ("nested_loops", "3 2"), ("nested_loops", "3 3"), ("nested_loops", "3 4"), ("nested_loops", "3 5")], none)

/-- `tests/asl/datetime.asl` -/
private def src_datetime : String := "!test_date.
!test_time.

+!test_date : .date(Y, M, D) <-
  .concat(Y, \"-\", M, \"-\", D, Date);
  .print(\"Date:\", Date).

+!test_time : .time(H, M, S) <-
  .concat(H, \":\", M, \":\", S, Time);
  .print(\"Time:\", Time).
"

/-! In Python `Date: 1970-1-1`: the numbers are of type `int` there, which is not modelled, and
`.concat` uses `str`. -/
#guard programs 0 1000 400 [("datetime", src_datetime)] =
  ([("datetime", "Date: 1970.0-1.0-1.0"), ("datetime", "Time: 0.0:0.0:0.0")], none)

/-- `tests/asl/findall.asl` -/
private def src_findall : String := "a(30).
a(20).
b(1, 2).
b(3, 4).
b(5, 6).

!t1.
!t2.

!test_count.

+!t1 <-
  .findall(X, a(X), L);
  .print(L).

+!t2 <-
  .findall(c(Y, X), b(X, Y), L);
  .print(L).

+!test_count <-
  .count(a(_), N1) & N1 == 2;
  .count(b(X, X), 0);
  .count(b(X, Y), 3);
  .print(\".count ok\").
"

#guard programs 0 1000 400 [("findall", src_findall)] =
  ([("findall", "[30, 20]"), ("findall", "[c(2, 1), c(4, 3), c(6, 5)]"), ("findall", ".count ok")], none)

/-- `tests/asl/substring.asl` -/
private def src_substring : String := "!test_found.
!test_not_found.


+!test_found : .substring(\"foo\", \"foo bar baz foo\", Pos) & Pos > 2 <-
  .print(\"Pos:\", Pos).


+!test_not_found : .substring(\"foo\", \"hello\", _) <- .fail.
+!test_not_found <- .print(\"foo not contained in hello\").
"

#guard programs 0 1000 400 [("substring", src_substring)] =
  ([("substring", "Pos: 12"), ("substring", "foo not contained in hello")], none)

/-- `tests/asl/wait.asl` -/
private def src_wait : String := "!alpha.
!beta.
!gamma.

+!alpha <-
  .print(\"Waiting on beta\");
  .wait(\"+done(beta)\", 500);
  +done(alpha);
  .print(\"Alpha done\").

+!beta <-
  .print(\"Waiting on alpha\");
  .wait(\"+done(alpha)\");
  +done(beta);
  .print(\"Beta done\").

+!gamma <-
  .wait(\"+done(X)\");
  .print(\"Someone is done\").
"

#guard programs 0 1000 400 [("wait", src_wait)] =
  ([("wait", "Waiting on beta"), ("wait", "Waiting on alpha"), ("wait", "Alpha done"), ("wait", "Beta done"), ("wait", "Someone is done")], none)

/-- `examples/tellHow/receiver.asl` -/
private def src_ex_tellHow_receiver : String := "!start.

+!start <- 
  .print(\"Waiting for start message...\").
"

/-- `examples/tellHow/sender.asl` -/
private def src_ex_tellHow_sender : String := "!start.

+!start
   <- 
      .print(\"Telling plan to slave\");

      .send(receiver, tellHow, \"+!hello(N) <- .print(\\\"I'm a plan called \\\", N).\");
      .send(receiver, achieve, hello(john));
      .send(receiver, achieve, hello(jack)).
"

#guard programs 0 1000 400 [("receiver", src_ex_tellHow_receiver), ("sender", src_ex_tellHow_sender)] =
  ([("receiver", "Waiting for start message..."), ("sender", "Telling plan to slave"), ("receiver", "I'm a plan called  john"), ("receiver", "I'm a plan called  jack")], none)

/-- `examples/unAchieve/receiver.asl` -/
private def src_ex_unAchieve_receiver : String := "+!plan1(N) <-
  .wait(800);
  .print(\"Plan1\", N);
  !plan1(N)
.

+!plan2(N) <-
  .wait(800);
  .print(\"Plan2\", N);
  !plan2(N)
.

+!plan3(N, M) <-
    .wait(800);
    .print(\"Plan3\", N, \"-\", M);
    !plan3(N, M)
.
"

/-- `examples/unAchieve/sender.asl` -/
private def src_ex_unAchieve_sender : String := "!start.

+!start <-
  .print(\"start plan1(1) achievement ...\");
  .send(receiver, achieve, plan1(1));
  .print(\"start plan1(2) achievement ...\");
  .send(receiver, achieve, plan1(2));
  .print(\"start plan2(3) achievement ...\");
  .send(receiver, achieve, plan2(3));
  .wait(2000);
  .print(\"start plan3(3,2) achievement ...\");
  .send(receiver, achieve, plan3(3, 2));
  .wait(3000);
  .print(\"cancel achievents ...\");
  .send(receiver, unachieve, plan3(N, M));
  .print(\"plan3(N,M) cancelled.\");
  .wait(1000);
  .send(receiver, unachieve, plan1(N));
  .print(\"plan1(N) cancelled.\");
  .wait(1000);
  .send(receiver, unachieve, plan2(N));
  .print(\"plan2(N) cancelled.\").
"

#guard programs 0 1000 400 [("receiver", src_ex_unAchieve_receiver), ("sender", src_ex_unAchieve_sender)] =
  ([("sender", "start plan1(1) achievement ..."), ("sender", "start plan1(2) achievement ..."), ("sender", "start plan2(3) achievement ..."), ("receiver", "Plan1 1"), ("receiver", "Plan1 2"), ("receiver", "Plan2 3"), ("receiver", "Plan1 1"), ("receiver", "Plan1 2"), ("receiver", "Plan2 3"), ("sender", "start plan3(3,2) achievement ..."), ("receiver", "Plan1 1"), ("receiver", "Plan1 2"), ("receiver", "Plan2 3"), ("receiver", "Plan3 3 - 2"), ("receiver", "Plan1 1"), ("receiver", "Plan1 2"), ("receiver", "Plan2 3"), ("receiver", "Plan3 3 - 2"), ("receiver", "Plan1 1"), ("receiver", "Plan1 2"), ("receiver", "Plan2 3"), ("receiver", "Plan3 3 - 2"), ("receiver", "Plan1 1"), ("receiver", "Plan1 2"), ("receiver", "Plan2 3"), ("sender", "cancel achievents ..."), ("sender", "plan3(N,M) cancelled."), ("receiver", "Plan1 1"), ("receiver", "Plan1 2"), ("receiver", "Plan2 3"), ("sender", "plan1(N) cancelled."), ("receiver", "Plan2 3"), ("sender", "plan2(N) cancelled.")], none)

end Verif.Tests
