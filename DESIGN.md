# Formal model of python-agentspeak — design

Everything below concerns the source in `/repo/agentspeak` (read as text, never run).

## 1. Method

* A *shallow, executable* Lean 4 model, one Lean definition per Python function
  or method, mirroring it branch by branch.  Each definition cites file and lines.
* Exceptions are values.  `Res σ α = ok a s | err e s | oof`: `err` keeps the state
  because Python keeps every mutation made before the exception.  `oof` ("out of
  fuel") stands for non-termination / `RecursionError`.  Every recursive function
  takes a fuel argument; theorems speak about *every* fuel for which the model
  returns `ok`/`err`, or prove that a sufficient fuel exists (termination), or that
  no fuel is sufficient (divergence).  So no theorem is bounded by the fuel.
* Generators are defunctionalised: a suspended generator is a data value, `resume`
  runs it to the next `yield`.
* Object identity is explicit where the code depends on it (variables,
  choicepoints, shared belief sets, intentions).
* Iteration order of Python sets is arbitrary: sets are lists and theorems hold for
  every order of the list.

## 2. Trusted base

* Lean 4.33.0's kernel.
* Axioms: only `propext`, `Classical.choice`, `Quot.sound` (checked with
  `#print axioms` in `Verif/Audit.lean`).
* The correspondence between the Python source and the Lean definitions: by reading,
  supported by the line citations, by the mutation log `seeded/LOG.jsonl`, and by running the
  repository's own tests and example programs in the model (section 8).
* Python semantics assumed: dict/list/deque/set operations, generator suspension,
  short-circuit `all/any/and/or`, `==`/`<` of numbers, strings and tuples, identity of
  freshly created objects, GeneratorExit at a bare `yield` without `finally` has no
  effect.

### Not modelled / simplifications (global)

* Numbers are identified by value (`Rat`): the `int`/`float` tag, NaN, infinities and
  complex results are not modelled.  Arithmetic is a *parameter* (`[Arith]`, a partial
  function on values; `none` = Python exception), so every theorem holds for every
  rounding behaviour.  Python's `str`, which depends on the tag, is a parameter (`Host.pyStr`);
  it matters in `.concat` only.
* Hash collisions, memory exhaustion, threads, signals, colours, log text and source
  locations are not modelled.  Error *messages* are reduced to a tag.
* `Var`'s printed name (`_X_md5_id`) is a parameter (`Wording`), used for the texts of plans only.
* Unicode tables (white space, digits, alphanumerics, lower case, names) are a parameter
  (`[Unicode]`), fixed on ASCII only.  Regular expressions are run by a backtracking matcher,
  proved to agree with the languages they denote (`Lemmas/Regex.lean`).
* `.geometric` is not modelled, nor are illegal characters in files given to `main`; of the output of `.control_flow` and
  `dump_variables`, the texts are left out (`Model/Dump`).  The texts of numbers
  and the values of the clocks are parameters (`[Host]`).

## 3. Model files (`lean/Verif/Model`) and code they cover

| file | Python |
|---|---|
| `Basic`, `Term`, `Order` | `__init__.py` 247-290 operators, 416-854 term classes, `==`/`<` |
| `Eval`, `Unify`, `Freeze` | `__init__.py` 406-413, 416-950 |
| `Query` | `runtime.py` 169-298 |
| `Program`, `Compile` | `runtime.py` 82-91, 301-346, 957-1079: programs, instructions, compilation |
| `World` | `runtime.py` 301-385, 757-759: agents, intentions and environment as heaps |
| `Agent` | `runtime.py` 387-659: `call`, belief changes, messages about plans |
| `Step` | `runtime.py` 661-728, 902-954 |
| `Env` | `runtime.py` 757-899 |
| `Stdlib` | `stdlib.py`, `ext_stdlib.py`: actions with effects or several answers |
| `Std` | functions, predicates and the registration of all actions, `stdlib.py` 59-461, `ext_stdlib.py` (without `.geometric`) |
| `Lexer`, `Strings` | `lexer.py`, `__init__.py` 293-350 |
| `Parser` | terms in `parser.py` 85-230, 427-676 |
| `Fold` | constant folding, `parser.py` 1118-1400; `BuildTermVisitor`, `runtime.py` 40-81 |
| `Script` | plans, clauses, directives, files and validation, `parser.py` 142-425, 679-1045, 1316-1440; paths |
| `Build` | building programs from trees, `runtime.py` 40-166, 505-549, 772-840, 966-1088 |
| `Text` | the text of a plan that is asked for, `runtime.py` 222-289, 731-754 |
| `Optimize` | what `build_agent_optimized` reaches, and the states of variables, `optimizer.py` 47-224, 379-832, 1218-1242, 1769-1862 |
| `Symbolic` | symbolic unification of the optimiser, `optimizer.py` 1064-1078, 1116-1152, 1244-1467, 1786-1801 |
| `Actions`, `Log`, `Lists` | `__init__.py` 174-218, 1001-1095 |
| `Message` | the text of messages, `__init__.py` 42-148; printing the tokens of a file, `lexer.py` 215-236 |
| `Repl` | the prompt of an agent, `runtime.py` 1095-1143 |
| `ParserRepl` | the prompt of the parser, `parser.py` 1453-1486 |
| `Main` | `runtime.py` 1146-1169 `main` (without prompt), `os.path.basename`, `os.path.splitext` |
| `MainPrompt` | `runtime.py` 1146-1169 `main` with a terminal: the prompt after the program, or for a new agent |
| `Dump` | `stdlib.py` 430-457 `.control_flow`, `runtime.py` 1082-1092 `dump_variables` |
| `AgentDump` | `runtime.py` 360-379 `Agent.dump`, for the action `.dump` |

Specifications live in `lean/Verif/Spec`, helper lemmas in `lean/Verif/Lemmas`, the
property theorems (and the examples showing that their hypotheses are satisfiable) in
`lean/Verif/Props`.

## 4. Per property: model and proof plan

Status is kept in `MANIFEST.json`; the full English statements in `properties.jsonl`.
Properties that turn out to be *false of the code* are answered by a theorem proving
the negation from a concrete witness together with a `_partial` theorem for the part
that holds; section 5 lists these disagreements.

* **C01, C02, C06, C07** `unify` against a value semantics: values `Val` (annotations
  erased, lists as cons cells), assignments `σ : Var → Val`, relation `Den σ t v`;
  `σ` models a scope if it satisfies every binding as an equation.  Induction on fuel:
  success ⇒ models of new scope = models of old scope that make both sides equal;
  failure ⇒ no such model.  Instance matching is a corollary; symmetry (C06) is proved by
  a relation `Unifies` that may bind two variables in either direction and is deterministic
  up to this direction (`SameBindings`), also for cyclic bindings; termination
  for ground right-hand sides by induction on the ground term.
* **C03** decision on ground terms: corollary plus fuel existence.
* **C04, C05, C13** trail discipline: relation `Ext b b'` ("b' extends b: the stack grew
  by a list δ, undoing δ restores the scope") preserved by every operation; `reroll`
  lemma; by induction over the generator machine for queries.
* **C08** negation: `X=f(X), Y=f(Y), X=Y` has no sufficient fuel; partial: acyclic/ground.
* **C09, C10** induction on fuel and terms; freshness through a variable counter.
* **C11, C12** greedy matching against injective matching; negation for C12.
* **C13–C17, C50** query generators over an arbitrary belief base/rule set; least-model
  semantics as an inductive predicate; soundness by induction on fuel over the machine.
* **C18–C22** belief base as list with Python set operations; history refinement
  against a mathematical set; negations where Python equality and unification differ.
* **C23–C27, C31, C34** agent model: intentions heap, `call`, `step`; case analysis.
* **C28, C52, C53** `run`/`run_agent` loops with an arbitrary clock; scheduling.
* **C29, C30** compile to a code store; complete traces of compiled graph = traces of the
  structured source, by induction on the body; stacks balanced along traces.
* **C32, C33** `.send`/`.broadcast` over the agent model.
* **C35, C36** plan library; negation for askHow.
* **C37, C38** environment building; heap of belief sets expresses sharing; negation.
* **C39, C45** registries and log: refinement over histories.
* **C40** fold visitors versus `evaluate`; folded queries: the query built from the folded tree (`C40_query`),
  its truth (`C40_query_holds`) and its answers (`C40_answers_partial`, from C14 and C15;
  `C40_answers_negation_partial`, from C80 and C83, and `C40_answers_deep_partial`, from C89, because folding keeps the variables and what is bound).
* **C55** grammar of files as inductive predicates; parser sound and complete for it.
* **C56, C57** one induction over the parser functions: with enough fuel an answer with
  fewer tokens or an expected exception (`Parses`, `Halts`); the fuel is linear in the tokens,
  plus a term for every file that may still be included.
* **C58–C60** `Naming vars`: an injective numbering of the names; `AgentOf` relates a tree to a
  program through namings, clause by clause.  The builder's table of variables is one, and only
  grows.  C59 and C60 compose this with `ValidAgent` and the grammar.
* **C61** a printed agent as a list of lines with tokens; with C55 and the folding of what is
  read (`Ast.raw`: negative numbers are read as a sign and a number).
* **C62** the traversal of the tree returns or raises `AttributeError`, by induction on the tree.
* **C63, C64** values of variables at run time (`RunVal`) and what a state says about them
  (`Describes`); merging is computed variable by variable.
* **C65** the text of the head as a sequence of symbols, some of them names of variables; one pass
  of `re.sub` replaces these one by one.  The result is the printed text of another tree
  (`APlan.told`), read as that tree by C60 and C61.
* **C66** registries of both modules as one heap (C39); comparison of sortable values as a Boolean order
  (`lessB`), insertion sort and first best item for it.
* **C67** the table is computed (`C67_declares`); per action: unification with a value, freezing or
  evaluating to something else than a variable leaves a variable with a value (`Resolved`), which
  later bindings do not change.
* **C68** the line of marks is described position by position (`Marked`); the loops that set the
  characters are folds over intervals.  For tokens: the interval of the expanded line is the lexeme, by
  C43.
* **C69** the parser is deterministic in the stream: a body that is read from `ts` is read in the same way
  from every longer stream (`planBody_streams`, `Lemmas/Prefix`), and a proper prefix of a command
  raises `StopIteration` (the stream ends), so that the loop waits.  With completeness of the parser
  (C44) the commands are those of the grammar.
* **C70** by the definition of the loop and `planBody_done` (C56); witnesses are runs of the model.
* **C71** as C47: the loop of `.sum` is a `Drain` (`sum_drain`), and conversely (`drain_sum`).
* **C72** the memo of `freeze` is an injective renaming that only grows (`MemoOK`, `MemoLe`), so the memo after
  the last argument gives the renaming for all of them.
* **C73** `Lemmas/Fuel` and `Lemmas/FuelAll`: with one more unit of fuel every function of the model gives the
  same result or had run out of fuel (`Res.le`), by induction on fuel and `bind`.  The other direction of C47
  and C71 (`_total`) needs it, since a loop over answers combines calls with different fuel.
* **C74** `.print` and `.csv` by unfolding, with the renaming of C72; that output only grows is an invariant of
  the form `WInv` (section 6), kept by everything that happens after a state (`Later`).
* **C75, C76** by unfolding; the result of `.concat` is a relation (`Concat`) with one result. Each of them also
  in the other direction: if the arguments have values, the action returns (`_total`), because a theorem about
  runs that return says nothing about an action that always raises. The same was added to C10 and C74.
* **C77** by an invariant for the traces of a statement (`Hoare` in `Lemmas/Assign`): every instruction acts on the two
  stacks and the bindings of the intention (`InstrF.acts`), the generator on top of the query stack remembers the
  bindings below which it cannot go (`Asked`), and each kind of statement keeps `At Q C b₀`: the stacks are `Q`, `C` and
  the bindings extend `b₀`. The prompt: an invariant of `replExec` (`Prompts`).
* **C78** by splitting a run without exceptions (`Calm`) along the trace of the statement; `Runs.asks` says what
  `nextOrFail` does to the generator on top of the query stack, and `sem_balanced` (C29) that a completed body leaves this
  generator where it was. So a `for` loop is a `Drain` of the generator of its query, and C51 applies to running agents.
* **C79** like C69, with the lemma that clauses are read in the same way from a longer stream (`clause_streams`);
  `typed_alike` says that the parser at the prompt does what it does with a file except for `StopIteration`.
* **C80** meaning `Sat` (`Spec/Negation`): like `Holds`, and a negated query is true if it does not follow.  The lower
  stratum is a world of its own (`lowerWorld`, same beliefs, only its rules), in which `C14`/`C15` apply to what is
  negated; runs in both worlds are the same (`lower_run`).  Then as C14, with an invariant for suspended generators.
* **C81** loop with open and closed sets: some order `is` of visits, each instruction once, closed under references
  (`graphLoop_visits`); at most as many rounds as there are instructions (`graphLoop_total`).  `C81_runs` with
  `History.path` of C29.
* **C82** sorting with distinct keys; the names of the prompt are distinct (`VTab.WF.keys`).
* **C83** `Spec/Safe`: `Query.after` computes the variables that a query binds, `Query.Safe` asks for the variables of
  negated queries to be among them.  `Lemmas/Safe`: unifying a ground term with a term makes its variables ground
  (`unify_grounds`).  Rules for the predicates `M` may rely on head variables that their caller bound (`Rule.given`).
  A ground query that answers under a negation may have bound variables of rules on its way.  They are bound to terms that fit the
  structure of some ground terms (`Lemmas/SafeFit`), so every assignment for the bindings before has an extension for those after
  (`Lemmas/SafeModel`: `neat_models`; `Lemmas/SafeGround`: `gnext_ground`).  Hence the negated query follows for all
  assignments, not only for some.  `Lemmas/SafeLogic`: the invariant of C15 with the set of variables that will be ground.
* **C84** `Lemmas/Symbolic`: by induction on the two terms, together with the numbers of the new variables: the parts are true
  for an assignment only if the unification is, and if the unification is true, the new variables can be given values.
* **C85** `Spec/Paths`: following a path from a directory.  `Lemmas/Paths`: normalised paths are some slashes, some `..` and names
  (`normpath_parts`), which can be read off from where they lead.  With it C57 for names without dots (`C57_names`).
* **C86** `Spec/Order`: queries without generators, a big-step semantics with the pairs of states in which an answer is yielded and
  in which the consumer resumes (`InOrder`).  `Lemmas/Order`: what is left of a suspended generator (`Rest`), one step of it, and the converse by
  building the run of the generator.  `Lemmas/Rules`: nothing but `add_rule` changes the rules of an agent.
* **C87** from `event_sound` and `event_accepted` (C55) and `makeFact_spec` (C58).
* **C88** the composition of C58, C59 (program), C37 (agent and its name), C52 and C28 (run).  With the prompt (`MainPrompt`): `main` without
  it, then the prompt.
* **C41, C44** token-level printer/parser; **C42, C43, C54** character level.
* **C46–C49** stdlib functions, linked lists, comparisons.
* **C51** negation by witness (set changed size during iteration); the part that holds for running agents is
  `C78_for_beliefs_partial` for one predicate, `C78_for_queries_partial` for other queries.  `Lemmas/Rounds` works on `InOrder` (C86): if the
  consumer leaves the predicates alone that the query depends on, its other changes of the world can be forgotten (`InOrder.through`);
  if the query starts by undoing bindings when it is resumed (`Query.tidy`), the bindings of the consumer can be forgotten (`InOrder.undone`).
  What remains is a consumer for C14 and C15, and for C89 with negated queries: these look at the predicates alone, too (`other_run`).
* **C89** `Spec/Deep`: instead of strata, any set `R` of derived facts that is supported by the rules (Clark's completion); `TrueIn R`
  is defined by recursion on the query, so negation needs no order.  Soundness and completeness are proved together, by one induction on
  the fuel (`Lemmas/DeepLogic`: `gnext_deep`), because each is needed for the other under a negation.  `Lemmas/DeepGround` is C83's
  argument about ground queries with a case for negation.  `Lemmas/DeepModel`: for stratified rules, the facts derived level by level are a
  supported set, so the theorems are not vacuous (`C89_model`); without negation truth is `Holds` (`C89_positive`).
* **C29** again, `Spec/Renamed`: the source's own traces, renamed instruction by instruction, because a mutant of the renaming of statements went unnoticed
  while the theorems mentioned it.
* **C90** `Spec/Escapes`: a grammar of the escapes over bytes; `parse_string` accepts exactly the texts of the grammar, with their meaning (added because of a
  mutant: C42 reads only what `asl_repr` prints, which has no upper-case digits).
* **C91** `Spec/StmtVars`: the variables of statements and plans.  `Lemmas/Owns`: an invariant of all reachable states, with the origin of the plan
  (source, first variable, code before it) as a function of where its body starts.
* **C92** `Model/AgentDump`: a list of what is visited, and a loop that prints it.  A query has a text exactly if all its negations are of terms (literals, comparisons) or
  actions (`Query.Part`), which decides whether the loop ends with an exception.

## 5. Disagreements between expected property and code

Each item: expected property, what the code does, theorem with the witness.

* **C06** (symmetry of unification).  `_ = -"a"` is true, `-"a" = _` raises
  (`C06_wildcard`): with a wildcard on the left the right side is not evaluated.  Proved: the
  same answer and bindings if both return, and that both return where no wildcards occur.
* **C08** (termination).  There is no occurs check: after `X = f(X)` and `Y = f(Y)`,
  `X = Y` diverges.  Proved to terminate for acyclic bindings.
* **C12** (annotation matching complete).  Matching is greedy: `foo[X, a]` does not unify
  with `foo[a, b]` (`C12_greedy_incomplete`).
* **C13** (backtracking restores bindings).  (a) `Literal.unify_annotated` with an unbound
  variable on the right (`__init__.py` 632-637) does not push its choicepoint; on resume,
  `reroll` pops the *whole* stack, so the query `a = X` unbinds every variable of the
  intention (`C13_literal_eq_variable_unbinds_all`).  (b) Queries that set no choicepoint
  (`true`, `not`, boolean expressions) do not undo bindings made while they are suspended
  (`C13_true_keeps_consumer_bindings`).  (c) `ActionQuery` sets no choicepoint, so actions
  that bind their result (`.my_name(X)`, `.concat`, `.findall`, all functions) leave it bound
  when they are exhausted (`C13_action_keeps_binding`).  As a consequence,
  `(.my_name(X) & false) | p(X)` has no answer although `p(b)` is believed
  (`C13_failed_alternative_binds`).  (d) `.unbind_all` is not trailed (`C13_unbind_all`).
  `Query.settles` (Spec/Query, Spec/Settles) says exactly which queries are not affected.
* **C15** (queries complete).  At most one answer per belief: with `p[a, b]`, the query
  `p[X]` has the answer `X = a` only (`C15_annotations_incomplete`).
* **C18, C21** (belief bases are sets).  Python's `==` identifies `1` and `true`,
  unification does not: with `p(1)` present, `+p(true)` adds nothing and `p(true)` cannot be
  queried (`C18_bool_not_added`, `C21_bool_lost`).  With annotations, `-q` removes `q[a]`
  (`C21_annotated_removed`).
* **C19** (removal).  Greedy annotation matching again (`C19_greedy`).
* **C20** (`-+b`).  Constants, structures, repeated variables and annotations are kept in
  the removal pattern: `-+p(1)` does not replace `p(0)` (`C20_constant_kept`).
* **C22** (`.abolish`).  `unifies_annotated(old_belief, pattern)` has its arguments swapped:
  `.abolish(q)` does not remove `q[a]` (`C22_annotated_kept`).
* **C28** (`run`/`run_agent`).  `time.sleep` is called with a second clock reading: if the
  deadline passes in between, the duration is negative and `run` raises
  (`C28_sleep_race`).  `if wait_until:` in `run_agent` is false for the deadline 0
  (`C28_run_agent_deadline_zero`).
* **C31** (failed plans).  When an instruction fails and has no failure instruction, `step`
  first sets `intention.instr = None` and then raises; the next step takes the plan for
  completed and lets the caller go on (`C31_failed_plan_completes`).
* **C34** (`unachieve`).  It drops the intention but leaves an empty stack behind;
  `Agent.call` looks at the top of every stack when it attaches a sub-plan, so after it
  `!sub` raises `IndexError` (`C34_stuck`).
* **C36** (`askHow`).  The name of a plan is searched in the text of the question with `in`:
  asked for `go_home`, plans for `go` are sent (`C36_other_plan`).  Of several plans for the
  goal only the last is sent (`C36_last_only`).  With no plan found, `term.args[2]` raises
  `IndexError` (`C36_no_plan_raises`).  Not modelled: `plan_to_str` pops `plan.args`, so the
  second answer with the same plan raises when its head has variables.
* **C38** (separate beliefs).  `build_agents` copies the dict of belief sets with `copy.copy`;
  the sets themselves are shared: a belief added by one agent is believed by the others
  (`C38_shared`).
* **C40** (constant folding).  `evaluate` does not evaluate inside structures: `p(1 + 1)`
  evaluates to itself, folded it is `p(2)` (`C40_structure_differs`); grounded they are the
  same.  `true | true` has two answers, folded it has one (`C40_answers_fewer`).  An operand that is a linked list raises `AttributeError` (`C40_linked_raises`)
  instead of logging an error; arithmetic exceptions other than division by zero leave the
  parser.
* **C41** (printing terms).  `1e999` is read as an infinite float, which is printed as `inf`
  and then parsed as a literal (`C41_infinity`).  Without infinite numbers it holds.
* **C42** (strings) holds for `asl_repr`, but the other direction does not: a letter that is
  not ASCII in a string of the source is read as two or more characters, because
  `parse_string` decodes UTF-8 bytes with `unicode_escape` (`C42_source_not_ascii`).
* **C46** (`.member`).  `evaluate` leaves the tail of a linked list alone: with `T` bound to
  `[2]`, `.member(X, [1|T])` yields 1 and then raises `TypeError`
  (`C46_member_open_tail_raises`).
* **C47** (`.findall`).  All answers are frozen with one memo, which is consulted before the
  scope: a variable that is unbound in one answer stays so in the later ones
  (`C47_findall_shares_memo`).  A rule with `literal = variable` in its body destroys the
  bindings of the intention (C13, `C47_findall_rule_unbinds_all`).
* **C49** (comparison of literals).  `<` and `<=` ignore annotations, `==` does not:
  `p(1)[a] <= p(1)[b]` without `<` or `==` (`C49_annotations_ignored`).  Comparing terms that
  contain an improper list like `[1|2]` raises `TypeError` (`C49_improper_raises`).
* **C51** (`for` loops).  `TermQuery.execute` iterates over the live set of beliefs: a body that
  adds or removes a belief about the predicate makes the next round raise `RuntimeError`
  (`C51_for_false`, `C51_size_change_raises`).  Bindings made by the body are not undone by
  queries like `true | p(X)` (`C51_bindings_leak`).
* **C52** (fair rounds).  An exception of one agent leaves `Environment.run`; the other
  agents are not stepped (`C52_exception_stops_run`).
* **C53** (fair intentions).  The first runnable intention always goes first; an endless loop
  in it starves the others (`C53_starvation`).
* **C54** (`sanitize_functor`).  A leading digit or a letter that is not ASCII is kept; the
  result is then no functor (`C54_digit_fails`, `C54_unicode_fails`).
* **C56** (errors while parsing).  A linked list in a belief raises `AttributeError`
  (`FindVariablesVisitor` has no method for it), as does an operation with a variable
  (`None.name`); an invalid escape in a string raises `UnicodeDecodeError` (`C56_false`).
* **C57** (termination of parsing).  The path of an included file is compared with the
  normalised paths before it is normalised: `a.asl` with `{ include("./a.asl") }` is included
  without end (`C57_false`).
* **C59** (building).  The parser and the folder accept `=..` in queries; the builder logs an
  error.  A variable as an annotation of the event of a plan raises `AttributeError` when the
  texts of its arguments are collected (`C59_false`, `C59_exact`).
* **C60** (told plans).  `tellHow` neither folds nor validates the plan and never throws the
  logged errors: `+!g(X + 1).` and `+!g : X =.. Y.` are told, but rejected in a file
  (`C60_false`).  The registry is always `stdlib.actions`; other actions of the agent become
  beliefs (`C60_actions`).
* **C61** (printing agents).  `AstIfThenElse.__str__` leaves out an empty `else` branch
  (`C61_branch`).  `(-2) ** Y` is folded to a negative constant, printed as `(-2 ** Y)`, and read
  as `-(2 ** Y)` (`C61_power`).
* **C62** (optimised agents).  `CallbackVisitor.visit_plan` reads `ast_plan.annotations`; an
  `AstPlan` has no such attribute, so that `build_agent_optimized` raises `AttributeError` for
  every file with a plan (`C62_plans`), and for lists with tails, for which there is no visitor
  method (`C62_tails`).  For the other files the agent is the same (`C62_partial`).
* **C63** (merging).  After `X = f(1)` and `X = f(1, 2)` the optimiser believes `X = f(1)`; after
  `X = Y` and `X = 1` that `X` is bound; after `X = Y; Y = 1` and `X = 1; Y = 2` that `X = Y`; after
  `X = true` and `X = 1` that `X = true` (`C63_false`).  (These passes are never reached, C62.)
* **C87** (the text of `.wait`).  *Expected no further tokens after event*, but what comes after the first full stop is ignored:
  `.wait("+a. b )")` waits for `+a` (`C87_ignored`).
* **C84** (unifications taken apart; not reached, C62).  `1 = true` is dropped since `1 == True` in Python (`C84_bool_false`).
  Annotations inside of terms are compared, which unification ignores (`C84_annotations_false`).  For literals with
  annotations and variables, `exclude_bound` looks up nodes in a dict of names: `KeyError` (`C84_key_error_false`); lists with a
  tail fail an assertion (`C84_linked_false`).  `not f(X, X) = f(1, 2)` becomes `false`, since the state of the second `X` is
  not updated (`C84_not_false`).  `X = f(Y + 1)` with unbound `Y` raises (`C84_evaluated_false`).  The invented names may be
  names of the program (`C84_capture_false`).  `?p(X) & q(X)` becomes two formulas without backtracking between them
  (`C84_formulas_false`).
* **C64** (declared effects).  `EFFECT_BIND` and `EFFECT_REQUIRE_BOUND` are the same number, so
  that requiring a variable to be bound has no effect (`C64_false`).
* **C65** (plans that are asked for).  In the text of a plan the variables of the head are replaced
  by the arguments, counted from the first one, whether or not they are variables (`+!g(1, X)`
  arrives as `+!g(1, 1)`, `C65_constant`); the variables of the context have their internal names,
  and are no longer those of the head and the body (`C65_context`).  An empty body arrives as the
  variable `None` (`C65_body`), a string in the context as a literal (`C65_string`), and `true` as the variable
  `True`, so that the test is lost (`C65_truth`).  A context with
  `not (a & b)` has no text (`C65_negation`), that of an action cannot be read (`C65_action`).  The
  arguments are consumed: the second request for the same plan fails (`C65_twice`).  (The model of
  the agents, `World`, keeps one text for each plan, that of the first request.)
* **C66** (functions).  Literals with annotations are neither equal nor ordered when only their
  annotations differ, so that `<` is not a weak order: `.sort` leaves `[p[a], 1], [p[b], 5], [p[a], 0]`
  unchanged although the last list is smaller than the first (`C66_sort_annotated`).
* **C67** (declared bindings).  Functions are declared to bind their last parameter.  `.nth(0, [Y], X)`,
  `.min([Y], X)` and `.max([Y], X)` unify it with an unbound variable (`C67_item`).  `.send` is taken for a
  function: `.send([], tellHow, X)` succeeds and does not touch `X` (`C67_send`).
* **C68** (messages).  A message of the level `CRITICAL` raises `AttributeError`, since
  `colorama.Fore.Reset` does not exist (`C68_critical`); the level is not used in the library.  After a tab
  the reported column is not the column in the file (`C68_tab_false`).  After an error at the prompt of the lexer
  the line number is not advanced (`C68_repl_false`).
* **C69** (lines at the prompt).  Each line is a source of its own, so a block comment is not continued
  in the next line: `/* a` and `+b. */` executes `+b`, although a file with these lines has no
  tokens (`C69_false`).
* **C70** (errors at the prompt).  A string with an invalid escape sequence raises `UnicodeDecodeError`, and a list as
  a command raises `AttributeError`; both end the session (`C70_string_false`, `C70_list_false`).  If the plan
  for a subgoal raises, its intention stays on top of the first stack, so every later command executes the
  same instruction again and fails as well (`C70_false`).
* **C71** (`.sum`).  The pattern is evaluated before the query, when its variables usually have no value, so that
  a pattern with an operator raises, e.g. `.sum(X + X, r(X), S)` (`C71_false`).
* **C75** `.concat([1|[2]], [3], X)` binds `X` to a text: only tuples are appended, and a list written with a tail
  is a `LinkedList` (`C75_linked`).
* **C77** `+!main : p(Y) <- for (a = X) { ... }; ...`: the loop unbinds `Y`, because `literal = variable` sets no
  choicepoint of its own (C13), and leaving the loop resumes it (`C77_literal_eq_variable`). `.unbind_all` does so on purpose.
* **C79** (agents at the prompt of the parser).  `repl` calls `parse_agent` for a list of tokens, but in a directive
  (`{ begin x } … { end }`) `parse` is called, for which the end of the tokens is an error: a directive cannot be divided
  into lines (`C79_directive_false`).  If a clause in it is not complete, the error message asks for `tokens.peek()`, which
  a list iterator does not have; `AttributeError` ends the session (`C79_session_false`).
* **C88** (command line).  Only the first argument is run, because the loop over the arguments ends with `break`; the
  others need not even be files (`C88_all_false`).
* **C80** (negation).  Without further conditions completeness is false: with `p(a)` and `r(b)`, `not p(X) & r(X)` has no
  answer, `r(X) & not p(X)` has (`C80_order`); C83 and C89 have conditions under which it is true.  For nested negation soundness is false: `not (not p(X) & r(X))` has an
  answer (`C80_nested_false`).  Rules that are recursive through negation never come to an end (`C80_circular`).
* **C92** (`.dump` lists everything).  `NotQuery.__str__` takes `query.term`, which truth values, conjunctions, disjunctions, unifications and negations
  do not have: with the valid context `not (p & q)` the listing ends with an `AttributeError` (`C92_false`).  Proved: this is the only
  reason (`C92_iff`), and otherwise there is a line for everything (`C92_all_partial`, `C92_listed`).

## 6. How the agent-level proofs work

* `Prim w a b e w'` (`Lemmas/Keeps.lean`) lists the primitive changes that `Agent.call`, an
  instruction or a standard action makes to the world.  A relation `R w w'` that is
  reflexive, transitive and closed under the primitives (`Stable R`) is preserved by whole
  instructions (`runI_keeps`) and by building agents; one induction over the interpreter
  serves every invariant.
* `World.events` is a history variable: the events delivered to agents, newest first.
  Nothing reads it; C27, C32, C33 are stated with it.
* `StacksOK` (every intention object lies on at most one stack, once; stacks hold allocated
  intentions) holds in all `Reachable` states, i.e. after building any agents from any
  programs, any steps, also raising ones, sleeping, and events from outside (`Agent.call`).
* Whole-program witnesses are run by the kernel (`started`, `stepsOf`, all by `rfl`).
* `Inv P` (`Lemmas/Reach.lean`): what a property of worlds must satisfy to hold in all
  reachable states (`Reachable.inv`); used for "belief bases are sets of ground literals".
* `findPlan_spec`, `callPlans_cases` (`Lemmas/Plans.lean`): the search for a plan as
  `RejectsAll`/`Accepts`/`Raises`, from which C23 and C24 follow.
* `EnvOK` (`Spec/Env.lean`): beliefs are sets of ground literals, stacks are in order, names
  are unique.  It holds in reachable states and in the middle of steps; `.send` and
  `.broadcast` need it (C32, C33).  `Received` describes the whole effect of a message on a
  receiver whose rules and contexts contain no actions (`NoActions`).
* Plan bodies (C29, C30): `Stmt.sem` gives a structured body a set of traces (instructions
  with their answers); `Path` runs the instruction graph.  `compileBody_region` shows by
  induction on the body that both agree.  `History` lists the instructions an intention runs
  in a system of many agents; the invariant `CodeOK` (every intention is on a path through a
  compiled body, its stacks have the depth the path gives) holds in all reachable states and
  connects the two.  `WInv` is the form of `Inv` for properties of intentions.

## 7. How the proofs about text work

* `Re.run` (`Model/Lexer.lean`) matches like Python: leftmost alternative first, greedy,
  with backtracking by continuation.  `Re.Accepts` is the language; `run_sound` connects them.
* `Lexes` (`Spec/Lexer.lean`) says how a line is divided; `scan_covers` shows that the scanner
  does it.
* `First`/`Never`/`LoopFirst` (`Lemmas/Exact.lean`) compute where the matcher stops on texts
  with unknown parts; `NextTok k u r`: the next token of `u ++ r` is `u`, of kind `k`.
* `Phrase l ts a` (`Spec/Grammar.lean`): the tokens are a phrase of precedence level `l` with
  the tree `a`.  `allSound` (`Lemmas/Parser.lean`) shows by induction on the fuel that the
  parser accepts only phrases; `phrase_parsed` (`Lemmas/Complete.lean`), by induction on the
  phrase, that it accepts all of them, given a token that ends the phrase.  For left
  associative levels the induction shows where the loop is after the phrase (`Loop`).
* `Tok.Good` (`Lemmas/Tokens.lean`): what the lexer guarantees about tokens.  The parser
  compares lexemes in some places and kinds in others; that is the same for good tokens.
* `Lexed u col r ts` (`Lemmas/Lexed.lean`): the tokens of `u`, when `r` follows, are `ts`.
  `print_lexed` (`Lemmas/Print.lean`): a printed term has tokens that are a phrase with that
  term as its tree.  `phrase_source` (`Lemmas/Sourced.lean`): trees of good tokens consist of
  names, numbers and strings that can be printed and read again.
* `Reduces t u` (`Spec/Folding.lean`): `u` is `t` with constant operations replaced by their
  values.  `fold_ok` (`Lemmas/Folding.lean`): the visitors do only that if they log nothing.
  `limit f` (`Lemmas/Limit.lean`) is the result of a computation with enough fuel; with it
  the equations of `evaluate` and `grounded` need no fuel.
* `Script` (`Spec/Script.lean`) is the grammar of files, `ValidAgent` what validation accepts
  and returns.  `agent_sound` and `agent_complete` (`Lemmas/ScriptAgent.lean`) relate the loop
  over clauses and directives to `Script`; the accumulated agent is generalised, and
  `Closed` says what follows (the end of the file or of the directive).  Errors are counted
  and the count never decreases (`LogGrows`), so an answer with count 0 has no error anywhere.
* `TextLine` (`Lemmas/PrintLines.lean`) is a line with its indentation.  A printed statement,
  plan or agent is a list of lines (`print_lines`, `plan_print`, `agent_print`), each of which has
  its tokens (`LinesLexed`); `file_lexed` says that the lexer, which works by lines, gives them
  all.  `fold_raw` (`Lemmas/RawFold.lean`): what is read is folded to what has been printed.

## 8. The model against the programs of the repository

`Spec/RunHost.lean` gives concrete values to all parameters: ASCII texts, decimal numbers
(`Spec/Decimal.lean`), exact arithmetic, the lexer, parser and printer of the model for the texts
inside programs, a clock that advances when the agents sleep.  `Run.programs` goes from the texts
of programs to their output and their error.

* `Tests/Unit.lean`: the unit tests (`tests/test_terms.py`, `test_stdlib.py`, `test_parser.py`).
* `Tests/Language.lean`, `Tests/Actions.lean`, `Tests/Messages.lean`: programs of `tests/asl` and
  `examples`, evaluated by the kernel (`decide +kernel`, no axioms).
* `Tests/Evaluated.lean`: the longer ones, by `#guard` (evaluation, not a proof).

All programs that are listed in `tox.ini` run without an error, with the output that they were
written for, with two exceptions.  `abolish.asl` needs `b(2, 2)[source(percept)]` to be removed by
`.abolish(b(X, X))`, which the code does not do (C22); whether the test fails depends on the order
of a Python set.  `datetime.asl` prints `1970.0` instead of `1970` in the model, since the type `int`
is not modelled.  The programs in `tests/asl/crashes` end in errors as their names say, except
`unreferenced_rules.asl`, which the interpreter accepts.
