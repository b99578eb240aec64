{"id": "C01", "title": "Unification computes a most general unifier", "statement": "If unify(l, r, scope, stack) returns True, then every assignment of values to variables that is consistent with the resulting scope makes l and r the same value, and the resulting scope is exactly as permissive as necessary: an assignment is consistent with it iff it is consistent with the old scope and makes l and r equal (annotations are ignored, [a|T] lists equal tuples, numbers compare by value, booleans only equal booleans).", "quantifier": "all wildcard-free terms l, r (any nesting, any arithmetic sub-expressions), all scopes and stacks, all assignments", "why_tests_cant": "terms, scopes and assignments are unbounded; a test fixes a handful", "anchors": ["agentspeak/__init__.py::unify", "agentspeak/__init__.py::Var.unify", "agentspeak/__init__.py::Literal.unify", "agentspeak/__init__.py::LinkedList.unify", "agentspeak/__init__.py::evaluate"]}
{"id": "C02", "title": "Failed unification means no unifier exists", "statement": "If unify(l, r, scope, stack) returns False then no assignment consistent with scope makes l and r the same value.", "quantifier": "all wildcard-free terms, all scopes, all assignments", "why_tests_cant": "a universally quantified negative statement over infinite assignments", "anchors": ["agentspeak/__init__.py::unify", "agentspeak/__init__.py::Literal.unify", "agentspeak/__init__.py::LinkedList.unify"]}
{"id": "C03", "title": "Ground terms unify exactly when they are structurally equal", "statement": "For ground expression-free terms unify returns a result without touching scope or stack; the result is True iff the terms are equal ignoring annotations, with true/false distinct from 1/0 and linked lists equal to tuples with the same items.", "quantifier": "all pairs of ground terms", "why_tests_cant": "infinitely many term pairs", "anchors": ["agentspeak/__init__.py::unify"]}
{"id": "C04", "title": "Unification only adds bindings and records each one on the trail", "statement": "Whatever unify returns or raises, every binding present before is unchanged, every variable newly bound was unbound before, and exactly the newly bound variables have been pushed on the stack; so undoing the pushed part restores the scope exactly.", "quantifier": "all terms, scopes, stacks, outcomes (True, False, exception)", "why_tests_cant": "needs every scope and every point of failure", "anchors": ["agentspeak/__init__.py::unify", "agentspeak/__init__.py::Var.bind", "agentspeak/__init__.py::reroll"]}
{"id": "C05", "title": "reroll undoes exactly the bindings made since the choicepoint", "statement": "After pushing a fresh choicepoint and making any number of further bindings / nested choicepoints, reroll(scope, stack, choicepoint) restores the scope and the stack to what they were before the choicepoint was pushed.", "quantifier": "all scopes, stacks and all sequences of bindings and nested choicepoints", "why_tests_cant": "unbounded histories", "anchors": ["agentspeak/__init__.py::reroll"]}
{"id": "C06", "title": "Unification is symmetric", "statement": "unify(l, r) and unify(r, l) from the same scope agree: if both return, they return the same answer, and the bindings they leave are the same except for the direction in which variables are bound to each other (so they admit the same assignments). Where no wildcards occur, one returns iff the other does.", "quantifier": "all terms and scopes in which no variable is bound to a wildcard, including cyclic bindings; for the last sentence, terms and scopes without wildcards", "why_tests_cant": "infinite domain", "anchors": ["agentspeak/__init__.py::unify"]}
{"id": "C07", "title": "Wildcard patterns match a ground value iff the value is an instance", "statement": "Unifying a pattern (variables, wildcards, no expressions) with a ground term terminates and returns True iff some assignment consistent with the scope turns the pattern, each wildcard replaced independently by anything, into that term; afterwards the bound variables hold ground values.", "quantifier": "all patterns, ground terms, scopes with acyclic bindings", "why_tests_cant": "infinite domain and a termination claim", "anchors": ["agentspeak/__init__.py::Wildcard", "agentspeak/__init__.py::unify"]}
{"id": "C08", "title": "Unification always terminates", "statement": "unify returns (or raises AslError) for every pair of terms and every scope reachable by previous unifications.", "quantifier": "all terms and reachable scopes", "why_tests_cant": "termination is not testable; there is no occurs check", "anchors": ["agentspeak/__init__.py::unify", "agentspeak/__init__.py::deref"]}
{"id": "C09", "title": "grounded succeeds exactly on ground terms, and its result is closed", "statement": "If grounded(t, scope) returns g then is_ground(t, scope) is True, g contains no variables, wildcards or expressions and does not depend on any scope; if t contains no arithmetic/boolean expressions, is_ground(t, scope) implies that grounded returns.", "quantifier": "all terms and all scopes", "why_tests_cant": "infinite domain", "anchors": ["agentspeak/__init__.py::grounded", "agentspeak/__init__.py::is_ground"]}
{"id": "C10", "title": "freeze isolates a term from the scope it came from", "statement": "freeze(t, scope, {}) returns a copy that mentions only variables created by that call, that replaces one unbound variable by one fresh variable consistently and injectively, replaces bound variables by their values, and equals grounded(t, scope) when t is ground.", "quantifier": "all terms and scopes", "why_tests_cant": "infinite domain", "anchors": ["agentspeak/__init__.py::freeze", "agentspeak/__init__.py::Var.freeze"]}
{"id": "C11", "title": "Annotated unification demands that the left annotations occur on the right", "statement": "unify_annotated(l, r) yields only if l and r unify and every annotation of l is matched by a different annotation of r; for ground atomic annotations it yields iff the terms unify and annots(l) is a subset of annots(r), irrespective of set iteration order.", "quantifier": "all literals, annotation sets, iteration orders, scopes", "why_tests_cant": "set iteration order varies per process (hash randomisation), so a test sees one order", "anchors": ["agentspeak/__init__.py::Literal.unify_annotated", "agentspeak/__init__.py::unify_annotated", "agentspeak/__init__.py::unifies_annotated"]}
{"id": "C12", "title": "Annotated unification finds a matching whenever one exists", "statement": "If some injective assignment of left annotations to right annotations unifies simultaneously with the terms, unify_annotated yields.", "quantifier": "all literals with variables in annotations, all iteration orders", "why_tests_cant": "depends on hash order", "anchors": ["agentspeak/__init__.py::Literal.unify_annotated"]}
{"id": "C13", "title": "Backtracking restores all variable bindings", "statement": "When the answers of a query are exhausted, the scope and the stack of the intention are exactly what they were before the query started, also if the consumer made further (trailed) bindings between answers.", "quantifier": "all queries, belief bases, rules, scopes, consumers, number of answers", "why_tests_cant": "unbounded answers and histories", "anchors": ["agentspeak/runtime.py::TermQuery.execute", "agentspeak/runtime.py::AndQuery.execute", "agentspeak/runtime.py::OrQuery.execute", "agentspeak/runtime.py::NotQuery.execute", "agentspeak/runtime.py::UnifyQuery.execute", "agentspeak/__init__.py::Literal.unify_annotated", "agentspeak/__init__.py::reroll"]}
{"id": "C14", "title": "Query answers are logically correct", "statement": "Every answer of a query built from beliefs, rules, &, |, =, comparisons is a logical consequence: every assignment consistent with the bindings of the answer makes the query true in the belief base closed under the rules.", "quantifier": "all belief bases, rule sets (including recursive ones), queries, scopes, answers", "why_tests_cant": "infinite domain", "anchors": ["agentspeak/runtime.py::TermQuery.execute", "agentspeak/runtime.py::AndQuery.execute", "agentspeak/runtime.py::OrQuery.execute", "agentspeak/runtime.py::UnifyQuery.execute"]}
{"id": "C15", "title": "Exhausted queries have produced every answer", "statement": "If a query (without rules' negation) runs to exhaustion, every assignment consistent with the initial bindings that makes the query true is consistent with the bindings of one of the answers produced.", "quantifier": "all belief bases, queries, scopes", "why_tests_cant": "infinite domain", "anchors": ["agentspeak/runtime.py::TermQuery.execute", "agentspeak/runtime.py::AndQuery.execute", "agentspeak/runtime.py::OrQuery.execute", "agentspeak/runtime.py::UnifyQuery.execute"]}
{"id": "C16", "title": "Negation as failure", "statement": "not Q yields exactly one answer if Q has no answer and none if Q has one; in both cases the variable bindings are unchanged.", "quantifier": "all queries Q, belief bases, scopes", "why_tests_cant": "infinite domain", "anchors": ["agentspeak/runtime.py::NotQuery.execute"]}
{"id": "C17", "title": "A belief query enumerates exactly the matching beliefs", "statement": "Querying a literal for which there are no rules yields once per belief of that functor/arity that matches, in iteration order, and nothing else; the belief base is unchanged.", "quantifier": "all belief bases, patterns, scopes", "why_tests_cant": "infinite domain", "anchors": ["agentspeak/runtime.py::TermQuery.execute"]}
{"id": "C18", "title": "Adding a belief: set semantics and groundness", "statement": "+b with unbound variables raises AslError and changes nothing; otherwise the belief base afterwards contains exactly the old beliefs and the grounded b, adding twice equals adding once, and b can be queried afterwards.", "quantifier": "all beliefs, belief bases, scopes", "why_tests_cant": "infinite domain", "anchors": ["agentspeak/runtime.py::Agent.add_belief", "agentspeak/runtime.py::Agent.call"]}
{"id": "C19", "title": "Removing a belief removes exactly one match", "statement": "-b removes one belief that unifies with b (including b's annotations) if there is one and keeps all others; if there is none, the belief base and the bindings are unchanged, no event is generated and the plan continues.", "quantifier": "all patterns, belief bases, iteration orders, scopes", "why_tests_cant": "infinite domain", "anchors": ["agentspeak/runtime.py::Agent.remove_belief", "agentspeak/runtime.py::Agent.call"]}
{"id": "C20", "title": "-+b replaces one belief of the same predicate", "statement": "-+b removes at most one belief with the same functor and arity, whatever its argument values, adds the grounded b and changes no other predicate.", "quantifier": "all beliefs, belief bases, scopes", "why_tests_cant": "infinite domain", "anchors": ["agentspeak/runtime.py::BuildReplacePatternVisitor", "agentspeak/runtime.py::BuildInstructionsVisitor.visit_formula"]}
{"id": "C21", "title": "The belief base behaves like a mathematical set of ground literals over any history", "statement": "After any sequence of additions and ground removals, a belief is present iff its last addition was after its last removal; all stored beliefs are ground.", "quantifier": "all operation histories and iteration orders", "why_tests_cant": "unbounded histories", "anchors": ["agentspeak/runtime.py::Agent.add_belief", "agentspeak/runtime.py::Agent.remove_belief"]}
{"id": "C22", "title": ".abolish removes exactly the matching beliefs", "statement": ".abolish(p) removes every belief of the predicate that matches the frozen pattern, leaves all others and does not bind variables.", "quantifier": "all patterns and belief bases", "why_tests_cant": "infinite domain", "anchors": ["agentspeak/stdlib.py::_abolish"]}
{"id": "C23", "title": "The first applicable plan is chosen", "statement": "An event with at least one applicable plan starts exactly one intention: the body of the first plan in program order whose head unifies with the frozen event and whose context has an answer, with the bindings of the first such answer.", "quantifier": "all plan libraries, events, belief bases", "why_tests_cant": "infinite domain", "anchors": ["agentspeak/runtime.py::Agent.call"]}
{"id": "C24", "title": "Events without applicable plan", "statement": "If no plan is applicable, an achievement event raises AslError, a belief event is accepted silently, and a test goal succeeds iff the belief query has an answer; no intention is created in any of the cases.", "quantifier": "all plan libraries, events, agents", "why_tests_cant": "infinite domain", "anchors": ["agentspeak/runtime.py::Agent.call", "agentspeak/runtime.py::Agent.test_belief"]}
{"id": "C25", "title": "Sub-goal calls pass arguments by value and return results by unification", "statement": "While a sub-goal runs, the caller's bindings do not change; when it completes, the caller's goal term is unified with the callee's goal instance and nothing else of the callee's bindings reaches the caller.", "quantifier": "all agents, goals, callee behaviours", "why_tests_cant": "needs every callee behaviour", "anchors": ["agentspeak/runtime.py::Agent.call", "agentspeak/runtime.py::Agent.step", "agentspeak/__init__.py::freeze"]}
{"id": "C26", "title": "One step executes one instruction of the first runnable intention", "statement": "step() returns False and executes nothing iff every intention is empty or suspended; otherwise it executes one instruction of (or pops) the first runnable intention in creation order and leaves the program counters of all other intentions alone.", "quantifier": "all agent states", "why_tests_cant": "infinite state space", "anchors": ["agentspeak/runtime.py::Agent.step"]}
{"id": "C27", "title": "Waiting intentions are not resumed early", "statement": "An intention suspended by .wait is resumed only when the clock is strictly past its deadline or an event matching its pattern is delivered; until then step never executes it.", "quantifier": "all agents, schedules, clocks and events", "why_tests_cant": "schedules and clock readings are unbounded", "anchors": ["agentspeak/runtime.py::Waiter.poll", "agentspeak/runtime.py::Agent.step", "agentspeak/runtime.py::Agent.call", "agentspeak/stdlib.py::_wait"]}
{"id": "C28", "title": "run and run_agent only stop when nothing is left to do and never crash while sleeping", "statement": "run()/run_agent() return only when no intention is runnable and no intention has a deadline, and never call time.sleep with a negative duration.", "quantifier": "all agents and all clock behaviours (monotone clock readings)", "why_tests_cant": "a race between two clock readings", "anchors": ["agentspeak/runtime.py::Environment.run", "agentspeak/runtime.py::Environment.run_agent", "agentspeak/runtime.py::Agent.shortest_deadline"]}
{"id": "C29", "title": "Compiled plan bodies behave like the structured source", "statement": "The instruction graph built for a plan body performs exactly the instruction sequences prescribed by the structured source: sequence, if/else, while and for, nested arbitrarily; the plan fails exactly where a formula outside a condition has no answer.", "quantifier": "all plan bodies (any nesting) and all outcomes of conditions/actions", "why_tests_cant": "infinitely many programs and paths", "anchors": ["agentspeak/runtime.py::BuildInstructionsVisitor", "agentspeak/runtime.py::Instruction"]}
{"id": "C30", "title": "The query and choicepoint stacks stay balanced", "statement": "When control leaves any statement normally, the intention's query stack and choicepoint stack have exactly the contents they had on entry; popping never underflows.", "quantifier": "all plan bodies and executions", "why_tests_cant": "infinitely many programs and paths", "anchors": ["agentspeak/runtime.py::push_query", "agentspeak/runtime.py::pop_query", "agentspeak/runtime.py::push_choicepoint", "agentspeak/runtime.py::pop_choicepoint"]}
{"id": "C31", "title": "A failed plan is never treated as completed", "statement": "If an instruction of a plan fails, stepping the agent further never completes that intention as if the plan had succeeded.", "quantifier": "all agents and all continuations after the error", "why_tests_cant": "needs all continuations", "anchors": ["agentspeak/runtime.py::Agent.step"]}
{"id": "C32", "title": "Message delivery: tell, untell and achieve", "statement": ".send with tell/achieve adds to every named receiver the frozen message annotated with source(sender); unknown receivers or forces raise before anything is delivered; untell from A can only retract beliefs annotated with source(A).", "quantifier": "all environments, senders, receiver lists, messages, belief bases", "why_tests_cant": "infinite domain", "anchors": ["agentspeak/stdlib.py::_send", "agentspeak/runtime.py::Agent.call"]}
{"id": "C33", "title": "Broadcast reaches everybody else exactly once", "statement": ".broadcast delivers the message once to every agent of the environment except the sender, in registration order.", "quantifier": "all environments", "why_tests_cant": "any number of agents", "anchors": ["agentspeak/stdlib.py::_broadcast"]}
{"id": "C34", "title": "unachieve drops exactly the matching goals and leaves the agent usable", "statement": "unachieve removes the top-most intention of exactly those intention stacks whose current goal matches, keeps all others, and the agent can still receive events afterwards.", "quantifier": "all agents, goals and subsequent events", "why_tests_cant": "needs all subsequent events", "anchors": ["agentspeak/runtime.py::Agent._unachieve", "agentspeak/runtime.py::Agent.call"]}
{"id": "C35", "title": "untellHow removes exactly the plans with the given label", "statement": "untellHow(@l) removes all plans labelled l and keeps all other plans in order.", "quantifier": "all plan libraries and labels", "why_tests_cant": "infinite domain", "anchors": ["agentspeak/runtime.py::Agent._untell_how"]}
{"id": "C36", "title": "askHow answers with the plans asked for", "statement": "askHow sends the asking agent every plan for the requested goal and no other plan.", "quantifier": "all plan libraries and requests", "why_tests_cant": "infinite domain", "anchors": ["agentspeak/runtime.py::Agent._ask_how", "agentspeak/runtime.py::plan_to_str"]}
{"id": "C37", "title": "Agent names are unique", "statement": "Every agent built in an environment gets a name different from all registered agents, and stays registered under it; building n agents registers n new names.", "quantifier": "all environments and build histories", "why_tests_cant": "unbounded histories", "anchors": ["agentspeak/runtime.py::Environment._make_name", "agentspeak/runtime.py::Environment.build_agent_from_ast", "agentspeak/runtime.py::Environment.build_agents"]}
{"id": "C38", "title": "Agents have separate belief bases", "statement": "Belief changes of one agent are never visible in another agent.", "quantifier": "all environments, build histories and operations", "why_tests_cant": "unbounded histories", "anchors": ["agentspeak/runtime.py::Environment.build_agents", "agentspeak/runtime.py::Agent.add_belief"]}
{"id": "C39", "title": "Action lookup precedence", "statement": "lookup(functor, arity) returns the action registered for that exact arity if any, else the variadic one, else what the parent registry returns, else raises KeyError; a successful add never changes what any other lookup in the same registry returns.", "quantifier": "all registries, parents and registration histories", "why_tests_cant": "unbounded histories", "anchors": ["agentspeak/__init__.py::Actions.lookup", "agentspeak/__init__.py::Actions.add"]}
{"id": "C40", "title": "Constant folding preserves meaning", "statement": "Constant folding of a term that logs no error yields a term that evaluates to the same result (value or error) under every scope.", "quantifier": "all expression trees and scopes", "why_tests_cant": "infinitely many trees", "anchors": ["agentspeak/parser.py::ConstFoldVisitor", "agentspeak/parser.py::TermFoldVisitor", "agentspeak/parser.py::NumericFoldVisitor", "agentspeak/parser.py::BooleanFoldVisitor", "agentspeak/parser.py::LogicalFoldVisitor"]}
{"id": "C41", "title": "Printing and parsing terms round-trips", "statement": "Parsing the printed form of a parsed term yields the same term.", "quantifier": "all terms", "why_tests_cant": "infinitely many terms", "anchors": ["agentspeak/parser.py::parse_term", "agentspeak/parser.py::AstBinaryOp.__str__", "agentspeak/parser.py::AstLiteral.__str__"]}
{"id": "C42", "title": "String literals round-trip", "statement": "parse_string(asl_repr(s)) == s for every string s, and the printed form is a single string token.", "quantifier": "all strings", "why_tests_cant": "infinitely many strings", "anchors": ["agentspeak/__init__.py::asl_repr", "agentspeak/__init__.py::parse_string", "agentspeak/lexer.py::TokenType.string"]}
{"id": "C43", "title": "The lexer is lossless and always makes progress", "statement": "Tokenizing a line terminates; tokens are non-empty, in order, non-overlapping slices of the line, and everything between tokens is white space, comments or reported illegal characters.", "quantifier": "all input lines", "why_tests_cant": "infinitely many inputs", "anchors": ["agentspeak/lexer.py::tokenize"]}
{"id": "C44", "title": "Operator precedence and associativity", "statement": "The parser groups ** (right associative, binding tighter than unary minus on its left) over unary +/- over * / div mod over + - over comparisons over not over & over |, with the binary arithmetic and logical operators left associative, and chained comparisons meaning the conjunction of adjacent comparisons.", "quantifier": "all expressions", "why_tests_cant": "infinitely many expressions", "anchors": ["agentspeak/parser.py::parse_term", "agentspeak/parser.py::parse_and_expr", "agentspeak/parser.py::parse_not_expr", "agentspeak/parser.py::parse_comparison", "agentspeak/parser.py::parse_arith_expr", "agentspeak/parser.py::parse_product", "agentspeak/parser.py::parse_factor", "agentspeak/parser.py::parse_power"]}
{"id": "C45", "title": "Errors are counted and reported", "statement": "A log with limit m raises AggregatedError at exactly the m-th error; throw() raises iff an error was logged; warnings never raise; the reported counts are the numbers of calls made.", "quantifier": "all call sequences", "why_tests_cant": "unbounded histories", "anchors": ["agentspeak/__init__.py::Log"]}
{"id": "C46", "title": "Nondeterministic list actions enumerate exactly the items", "statement": ".member(X, L) with X unbound yields once for every item of L in order with X bound to it; .range(N, X) yields 0..N-1; .substring yields all positions; afterwards bindings are restored.", "quantifier": "all lists, numbers, strings, scopes", "why_tests_cant": "infinite domain", "anchors": ["agentspeak/stdlib.py::_member", "agentspeak/stdlib.py::_range_2", "agentspeak/stdlib.py::_substring"]}
{"id": "C47", "title": ".findall and .count agree with the query", "statement": ".findall collects the frozen pattern once per answer in order; .count unifies with the number of answers; bindings other than the result are unchanged.", "quantifier": "all queries, belief bases, patterns", "why_tests_cant": "infinite domain", "anchors": ["agentspeak/stdlib.py::_findall", "agentspeak/stdlib.py::_count"]}
{"id": "C48", "title": "Linked lists behave like the list they denote", "statement": "A linked list whose tail is a proper list has the same length, items, equality and order as the corresponding tuple.", "quantifier": "all lists", "why_tests_cant": "infinite domain", "anchors": ["agentspeak/__init__.py::LinkedList"]}
{"id": "C49", "title": "Literal comparison is consistent", "statement": "== on literals is an equivalence relation, < is its compatible strict order where defined, and a<=b iff a<b or a==b.", "quantifier": "all ground literals", "why_tests_cant": "infinite domain", "anchors": ["agentspeak/__init__.py::Literal.__eq__", "agentspeak/__init__.py::Literal.__lt__", "agentspeak/__init__.py::Literal.__le__"]}
{"id": "C50", "title": "Rule variables are hygienic", "statement": "Using a rule never captures or binds variables of another use of the same rule: every use works on a fresh copy.", "quantifier": "all rules, including recursive use", "why_tests_cant": "unbounded recursion depth", "anchors": ["agentspeak/runtime.py::TermQuery.execute"]}
{"id": "C51", "title": "A for loop visits every answer even if the body changes beliefs", "statement": "for (Q) {B} executes B once per answer Q had when the loop was entered, whatever beliefs B adds or removes.", "quantifier": "all queries and bodies", "why_tests_cant": "all interleavings of iteration and update", "anchors": ["agentspeak/runtime.py::BuildInstructionsVisitor.visit_for", "agentspeak/runtime.py::TermQuery.execute"]}
{"id": "C52", "title": "The environment schedules agents fairly", "statement": "While some agent has work, Environment.run steps every agent once per round, so every runnable agent makes progress in each round.", "quantifier": "all environments and schedules", "why_tests_cant": "unbounded runs", "anchors": ["agentspeak/runtime.py::Environment.run"]}
{"id": "C53", "title": "An agent's intentions are scheduled fairly", "statement": "Every runnable intention of an agent eventually makes progress.", "quantifier": "all agents", "why_tests_cant": "liveness", "anchors": ["agentspeak/runtime.py::Agent.step"]}
{"id": "C54", "title": "sanitize_functor yields a valid functor", "statement": "For every input with an alphanumeric character the result is accepted by the lexer as one functor token and is not a keyword.", "quantifier": "all strings", "why_tests_cant": "infinite domain", "anchors": ["agentspeak/__init__.py::sanitize_functor"]}
{"id": "C55", "title": "The file parser accepts exactly the AgentSpeak grammar", "statement": "parse accepts a token stream without logging an error if and only if it is a file of the grammar (beliefs, rules, initial goals and plans, each with a full stop; include and begin/end directives, properly nested; bodies with if/else, while, for) whose clauses are valid; the result consists of these clauses in textual order, included files and directives in place, with constants folded. Validating it again changes nothing.", "quantifier": "all token streams the lexer can produce, all file systems", "why_tests_cant": "infinite language; a test suite checks some accepted and some rejected files", "anchors": ["agentspeak/parser.py::parse_agent", "agentspeak/parser.py::parse_plan", "agentspeak/parser.py::parse_body", "agentspeak/parser.py::validate"]}
{"id": "C56", "title": "Parsing fails only with reported source errors", "statement": "Whatever the source text, parse either returns an agent or raises an AggregatedError/log error that reports an error in the source which has been logged; no other exception escapes.", "quantifier": "all token streams the lexer can produce, all file systems", "why_tests_cant": "infinitely many malformed inputs; each of the parser functions and folding visitors has its own failure modes", "anchors": ["agentspeak/parser.py::parse", "agentspeak/parser.py::validate", "agentspeak/parser.py::FindVariablesVisitor", "agentspeak/__init__.py::parse_string"]}
{"id": "C57", "title": "Parsing terminates", "statement": "Parsing a file ends, including files that include each other or themselves; the number of nested calls for a term or clause is linear in the number of its tokens.", "quantifier": "all token streams, all finite file systems", "why_tests_cant": "termination, for arbitrary nesting and arbitrary include graphs", "anchors": ["agentspeak/parser.py::parse_agent", "agentspeak/parser.py::parse_term"]}
{"id": "C58", "title": "Programs are built with consistent variables", "statement": "In the program built from a syntax tree, all occurrences of a variable name within one rule, goal, belief or plan (head, context and body) become the same variable, different names become different variables, and every occurrence of _ becomes a wildcard; trigger, goal type, statements, branches and operators are those of the tree, and literals in queries become actions exactly if the registry has an action with that functor and arity.", "quantifier": "all syntax trees accepted by the builder, all registries", "why_tests_cant": "unboundedly many trees; a variable table that is shared too much or too little is only visible for particular combinations of clauses", "anchors": ["agentspeak/runtime.py::BuildTermVisitor", "agentspeak/runtime.py::BuildQueryVisitor", "agentspeak/runtime.py::BuildInstructionsVisitor", "agentspeak/runtime.py::BuildEventVisitor", "agentspeak/runtime.py::Environment.build_agent_from_ast"]}
{"id": "C59", "title": "Accepted files are built", "statement": "Every file that is parsed and validated without errors can be built: building logs no error and raises no exception.", "quantifier": "all source texts, all file systems, all registries", "why_tests_cant": "parser, folder and builder each define which trees they support; only a proof relates the three", "anchors": ["agentspeak/runtime.py::BuildQueryVisitor", "agentspeak/runtime.py::Environment.build_agent_from_ast", "agentspeak/parser.py::validate"]}
{"id": "C60", "title": "Telling a plan is the same as writing it in the file", "statement": "tellHow accepts the text of a plan if and only if a file consisting of that text is accepted, and adds the same plan.", "quantifier": "all texts of plans, all registries", "why_tests_cant": "two separate code paths (Agent._tell_how and parser.parse + build) must agree on all inputs", "anchors": ["agentspeak/runtime.py::Agent._tell_how", "agentspeak/parser.py::parse_plan", "agentspeak/parser.py::validate"]}
{"id": "C61", "title": "Printed agents are read as the same agent", "statement": "The text that AstAgent.__str__ gives for an agent that was parsed without errors is accepted by lexer, parser and validation without errors, and the result is the same agent.", "quantifier": "all source texts with all included files that are accepted", "why_tests_cant": "printing, line-wise lexing, parsing and constant folding have to fit together for every nesting of statements and terms", "anchors": ["agentspeak/parser.py::AstAgent.__str__", "agentspeak/parser.py::AstPlan.__str__", "agentspeak/parser.py::AstBody.__str__", "agentspeak/parser.py::indent", "agentspeak/parser.py::parse_agent", "agentspeak/lexer.py::tokenize"]}
{"id": "C62", "title": "Optimised agents are the same agents", "statement": "Every agent that can be built with Environment.build_agent can be built with optimizer.build_agent_optimized, and the resulting agent behaves the same.", "quantifier": "all source texts, all registries of actions", "why_tests_cant": "the optimiser must not change any program; tests only compare single programs", "anchors": ["agentspeak/optimizer.py::build_agent_optimized", "agentspeak/optimizer.py::InferenceCallback", "agentspeak/optimizer.py::CallbackVisitor", "agentspeak/optimizer.py::collect_type"]}
{"id": "C63", "title": "Merging what is known about variables is sound", "statement": "InferenceScopedState.merge gives a state that is implied by both states: whatever is known afterwards about a variable is true whenever what was known in either of the two states is true.", "quantifier": "all pairs of states, all values of the variables", "why_tests_cant": "soundness of an abstract interpretation is a statement about all values at run time", "anchors": ["agentspeak/optimizer.py::InferenceScopedState.merge", "agentspeak/optimizer.py::InferenceScopedState.deref", "agentspeak/optimizer.py::nodes_equal"]}
{"id": "C64", "title": "Declared effects of actions are taken into account", "statement": "The effects found for a parameter are exactly those declared for it. What the optimiser believes about a variable after applying a declared effect is true for every action that keeps to the declaration, and variables that are declared to be bound afterwards (EFFECT_DOBIND, EFFECT_REQUIRE_BOUND) are known to be bound.", "quantifier": "all declarations, all arities, all parameters, all values before and after", "why_tests_cant": "the effects are an over-approximation of all possible implementations of an action", "anchors": ["agentspeak/optimizer.py::Evilness", "agentspeak/optimizer.py::TermGroundingCb.apply_evilness", "agentspeak/optimizer.py::InferenceEvilnessConst"]}
{"id": "C65", "title": "Plans that are asked for arrive as they are", "statement": "If an agent asks another for a plan (askHow), the text with which the plan is sent (plan_to_str) is read by the receiver (tellHow) as the same plan: the same trigger, head, context and body, with the same variables in common.", "quantifier": "all plans that can be written in a file, all internal names of variables, all earlier requests", "why_tests_cant": "the text depends on the addresses of objects and on what was sent before; tests compare single texts", "anchors": ["agentspeak/runtime.py::plan_to_str", "agentspeak/runtime.py::Agent._ask_how", "agentspeak/runtime.py::Agent._tell_how", "agentspeak/runtime.py::TermQuery.__str__", "agentspeak/__init__.py::Var.asl_repr"]}
{"id": "C66", "title": "Functions of the standard library compute what they are named after", "statement": "Both libraries can be imported, and their functions compute what they are named after: `.length` counts items or characters, `.nth` is the item with an index, `.min`/`.max` an item such that none is smaller/larger, `.sort` the same items in ascending order (equal ones in their order), `.tail` all but the first one, `.floor`/`.ceil`/`.round` the next or nearest integer; the type predicates classify every value. Called as an action, a function binds the last parameter to its result and nothing else.", "quantifier": "all lists (also linked ones), numbers, strings and values; all states with ground arguments", "why_tests_cant": "tests try single lists; the order of values with annotations, halves and linked lists are easily forgotten", "anchors": ["agentspeak/stdlib.py::actions", "agentspeak/ext_stdlib.py::actions", "agentspeak/__init__.py::Actions.add_function", "agentspeak/__init__.py::Actions.add_predicate"]}
{"id": "C67", "title": "Actions that are declared to bind a parameter bind it", "statement": "If the optimiser's table says that a standard action binds a parameter (EFFECT_DOBIND), then after every answer of the action a variable given there has a value.", "quantifier": "all standard actions, all arguments, all states of the agents, all answers", "why_tests_cant": "the declarations are used by no test; a wrong one only shows when the optimiser removes a test of a variable", "anchors": ["agentspeak/optimizer.py::Evilness.default_function_like", "agentspeak/optimizer.py::InferenceCallback.register_action", "agentspeak/stdlib.py::actions"]}
{"id": "C68", "title": "Messages point at what they are about", "statement": "Every message with a source location can be printed. It names the file, the line and the column, repeats the line, and marks it with ^ exactly below the location and with ~ below the further locations. For tokens and illegal characters the marked characters are those of the token; the line and the column are those in the file.", "quantifier": "all levels, all locations and further locations, all lines and files", "why_tests_cant": "no test looks at the text of a message; tabs, overlapping locations and unused levels are not exercised", "anchors": ["agentspeak/__init__.py::Log._format_message", "agentspeak/__init__.py::SourceLocation", "agentspeak/lexer.py::main", "agentspeak/lexer.py::repl"]}
{"id": "C69", "title": "Commands at the prompt do not depend on the division into lines", "statement": "If the text typed at the prompt of an agent is a sequence of commands, perhaps followed by the beginning of another one, then exactly these commands are executed, in this order, and the beginning is kept for the next line, however the text is divided into lines; the commands are those of a file with the same lines.", "quantifier": "all sequences of lines, all commands, all ways to divide a text into lines", "why_tests_cant": "the prompt is interactive and is not tested; the number of ways to divide a text is exponential", "anchors": ["agentspeak/runtime.py::repl", "agentspeak/parser.py::parse_plan_body", "agentspeak/lexer.py::tokenize"]}
{"id": "C70", "title": "Errors at the prompt are confined to the command", "statement": "A line with an illegal character or a syntax error, and a command that cannot be built, changes nothing of the agent; a command that fails does not keep later commands from being executed; no input ends the session.", "quantifier": "all lines, all commands, all agents and states", "why_tests_cant": "the prompt is interactive and is not tested; the state of the intentions after an exception is not visible", "anchors": ["agentspeak/runtime.py::repl", "agentspeak/runtime.py::Agent.run", "agentspeak/runtime.py::BuildQueryVisitor"]}
{"id": "C71", "title": ".sum adds up the values of its pattern", "statement": ".sum(P, Q, S) unifies S with the sum of the values that P has in the answers of Q, added up in order from 0; truth values count as 0 and 1; no bindings of the query remain.", "quantifier": "all patterns, queries, belief bases, rules and states", "why_tests_cant": "infinite domain; the action is not tested", "anchors": ["agentspeak/ext_stdlib.py::_sum"]}
{"id": "C72", "title": "Actions are given one copy of their arguments", "statement": "What a function, predicate or procedure is given are copies of its arguments, converted to the declared types: bound variables are replaced by their values, unbound ones by new variables, and the same variable is replaced by the same one in all arguments. The result of a function is unified with the last argument; apart from this nothing is changed.", "quantifier": "all functions, predicates and procedures, all declared types, all arguments and states", "why_tests_cant": "infinite domain; sharing between arguments is not visible in any function of the standard library", "anchors": ["agentspeak/__init__.py::_zip_specs", "agentspeak/__init__.py::Actions.add_function", "agentspeak/__init__.py::Actions.add_predicate", "agentspeak/__init__.py::Actions.add_procedure"]}
{"id": "C73", "title": "A program has one outcome", "statement": "Queries, steps of agents, runs of agents and environments and the construction of agents are functions of the state and of the values that clock and random generator will give: no other choice is made, and a bound on recursion or on the number of steps that is not exceeded has no influence on the outcome.", "quantifier": "all programs, states, and bounds", "why_tests_cant": "every test is a single run with a single bound", "anchors": ["agentspeak/runtime.py::Agent.step", "agentspeak/runtime.py::Agent.run", "agentspeak/runtime.py::Environment.run", "agentspeak/runtime.py::Environment.run_agent", "agentspeak/runtime.py::Environment.build_agents"]}
{"id": "C74", "title": "Output is a log of what the agents print", "statement": ".print and .csv always succeed and write one line: the name of the agent and the texts of the arguments, separated by blanks or commas, with values for bound variables and the same name for the same unbound variable; they change nothing else. Whatever happens later, lines once written stay, and new lines carry names of agents.", "quantifier": "all arguments, programs and runs", "why_tests_cant": "infinite domain; tests look at the output of single runs", "anchors": ["agentspeak/stdlib.py::_print", "agentspeak/ext_stdlib.py::_csv"]}
{"id": "C75", "title": ".concat joins lists and texts", "statement": ".concat unifies its last argument with the concatenation of the values of the others: the list of all items in order if they are all lists, the joined texts otherwise. Nothing else is changed.", "quantifier": "all numbers of arguments, all values and bindings", "why_tests_cant": "infinite domain: any number of lists and texts, with variables and expressions inside", "anchors": ["agentspeak/stdlib.py::_concat"]}
{"id": "C76", "title": ".my_name, .ground, .fail and .unbind_all do what they are named after", "statement": ".my_name unifies its argument with the name of the agent as an atom; .ground succeeds exactly if following the bindings no unbound variable is found in its argument, and changes nothing; .fail fails and changes nothing; .unbind_all leaves no variable of the intention bound.", "quantifier": "all arguments, bindings and states", "why_tests_cant": "infinite domain: nested terms and chains of bindings of any size", "anchors": ["agentspeak/stdlib.py::_my_name", "agentspeak/stdlib.py::_ground", "agentspeak/stdlib.py::_fail", "agentspeak/stdlib.py::_unbind_all", "agentspeak/__init__.py::is_ground"]}
{"id": "C77", "title": "Variables keep their values", "statement": "A variable that has a value when a statement of a plan body is entered has the same value while the statement is executed and afterwards: backtracking in loops and conditions undoes only what they bound themselves. So what the head and the context of a plan bind keeps its value until the plan ends. At the prompt, a name stands for the same variable in all commands of a session, and different names stand for different variables.", "quantifier": "all programs, all statements with nested loops, all interleavings with other intentions and agents, all sessions", "why_tests_cant": "infinite domain: plan bodies of any depth and runs of any length, interleaved in any way", "anchors": ["agentspeak/runtime.py::push_query", "agentspeak/runtime.py::next_or_fail", "agentspeak/runtime.py::pop_query", "agentspeak/runtime.py::push_choicepoint", "agentspeak/runtime.py::pop_choicepoint", "agentspeak/runtime.py::repl", "agentspeak/__init__.py::reroll"]}
{"id": "C78", "title": "Statements follow the answers of their queries", "statement": "In a running plan, if executes its first branch exactly if the query has an answer, and with the bindings of this answer; for executes its body once for every answer of its query, asking for the next answer in the state in which the body was left; while executes the query anew in every round and ends when it has no answer; a plan goes on after a query with the bindings of its first answer and fails at it only if there is none. In particular a loop over a predicate has one round for every matching belief if nobody changes the beliefs about it meanwhile.", "quantifier": "all programs, all statements, all interleavings with other intentions and agents", "why_tests_cant": "infinite domain: programs and runs of any length, interleaved in any way", "anchors": ["agentspeak/runtime.py::push_query", "agentspeak/runtime.py::next_or_fail", "agentspeak/runtime.py::pop_query", "agentspeak/runtime.py::BuildInstructionsVisitor", "agentspeak/runtime.py::Agent.step"]}
{"id": "C79", "title": "Agents typed at the prompt of the parser", "statement": "At the prompt of the parser it makes no difference how a text is divided into lines: all clauses of a valid text are printed, each once and in order, as they are in the agent of a file with this text; clauses are printed when everything that has been typed is complete, and until then all tokens are kept. A line with an error is dropped with everything that was pending, and nothing of it is printed.", "quantifier": "all texts, all divisions into lines, all sets of files that can be included", "why_tests_cant": "infinite domain: texts and divisions; needs the relation between the parser on a prefix of the tokens and on all of them", "anchors": ["agentspeak/parser.py::repl", "agentspeak/parser.py::parse_agent", "agentspeak/parser.py::parse", "agentspeak/lexer.py::TokenStream"]}
{"id": "C80", "title": "Answers of queries with negation", "statement": "Every answer of a query with negation, also through rules with negation, satisfies the query: whatever values the remaining variables have, the positive parts follow from the beliefs and rules, and what is negated does not. Conversely, a query that is true has an answer. A plan is only chosen with bindings that make its context true, negated parts included.", "quantifier": "all belief bases and rules with two strata, all queries whose negated parts are about the lower stratum, all bindings at the start, all consumers", "why_tests_cant": "infinite domain: programs, queries and assignments; that something does not follow is a statement about all derivations", "anchors": ["agentspeak/runtime.py::NotQuery.execute", "agentspeak/runtime.py::TermQuery.execute", "agentspeak/runtime.py::AndQuery.execute", "agentspeak/runtime.py::Agent.call"]}
{"id": "C81", "title": "The control flow graph shows exactly how plans run", "statement": "The graph written by .control_flow has one part per plan of the agent. Writing it comes to an end although the instructions refer to each other in cycles, and each part has exactly the references between the instructions that can be reached from the plan's body, each once; the order in which Python's set gives its items does not matter. Whenever an intention that runs the plan executes an instruction later, it moves along an edge of the graph, one labelled failure exactly if the instruction fails.", "quantifier": "all reachable states, agents and plans, all iteration orders of sets, all later runs", "why_tests_cant": "infinite domain: programs, iteration orders, runs", "anchors": ["agentspeak/stdlib.py::_control_flow", "agentspeak/runtime.py::Instruction", "agentspeak/runtime.py::Agent.step"]}
{"id": "C82", "title": "The variables shown at the prompt", "statement": "After a command, the prompt shows every variable of the session exactly once: with the value at the end of its chain of references if it is in the scope, else in the list of unbound ones; both lists are in strictly increasing order of the names, and Python never compares two variables to sort them.", "quantifier": "all sessions (commands that succeed, fail or raise), all scopes", "why_tests_cant": "infinite domain: sessions", "anchors": ["agentspeak/runtime.py::dump_variables", "agentspeak/runtime.py::repl"]}
{"id": "C83", "title": "Queries with safe negation find all answers", "statement": "If the variables of every negated query are bound by the queries before it (and the bodies of rules bind the variables of their heads, unless the predicate is only looked up with ground arguments), then every assignment that makes the query true, negated parts included, is covered by one of its answers, and the variables of literals before are ground in every answer; a negated query whose variables are ground is true exactly if it does not follow; a plan whose context is safe is passed over only if no assignment fits its head and makes its context true.", "quantifier": "all queries, rules and beliefs with safe negation, all consumers that exhaust the query, all bindings before", "why_tests_cant": "infinite domain: belief bases, rules, queries", "anchors": ["agentspeak/runtime.py::NotQuery.execute", "agentspeak/runtime.py::TermQuery.execute", "agentspeak/runtime.py::Agent.call"]}
{"id": "C84", "title": "Unifications taken apart by the optimiser mean the same", "statement": "The conjunction that the optimiser (symbolic_unify) puts in place of a unification l = r is true for exactly the same values of the variables of the program; a unification marked always_true succeeds; replacing a conjunction or disjunction with a constant side, or a formula that is a conjunction by several formulas, does not change what the program does.", "quantifier": "all terms on both sides, all values of the variables, all states of the optimiser", "why_tests_cant": "infinite domain: pairs of terms and values; the pass is not reached by any program at this commit", "anchors": ["agentspeak/optimizer.py::TermGroundingCb.symbolic_unify", "agentspeak/optimizer.py::TermGroundingCb.constify_literal", "agentspeak/optimizer.py::TermGroundingCb.symbolic_belief_query", "agentspeak/optimizer.py::TermGroundingCb.symbolic_binary_boolean_op", "agentspeak/optimizer.py::TermGroundingCb.expand_and_into_list"]}
{"id": "C85", "title": "Included files are found from the file that includes them", "statement": "The path of an included file leads from the directory of the including file to where the given name leads; normalised paths lead to the same place, and two paths have the same normalised path exactly if they lead to the same place from everywhere; an include is reported as recursive only if it leads to a file that is being read, and always then if the name has no dots or empty components and the path of the including file is normalised.", "quantifier": "all paths, names and current directories (without symbolic links)", "why_tests_cant": "infinite domain: paths with dots, double slashes and absolute parts", "anchors": ["agentspeak/parser.py::parse_agent"]}
{"id": "C86", "title": "Answers come in program order", "statement": "The answers of a query come in the order of the program: those from beliefs before those from rules, the rules one after the other, for each answer of the left side of & all answers of the right side, and the left side of | before the right side; for a given consumer the sequence is unique.  The rules an agent uses for a predicate are those of its program in program order, whatever has happened since it was built.", "quantifier": "all queries, knowledge bases and states, all consumers (what happens between two answers), all later states of the system", "why_tests_cant": "queries, programs and consumers are infinitely many; generators are resumed in states changed by their consumer", "anchors": ["agentspeak/runtime.py::TermQuery.execute", "agentspeak/runtime.py::AndQuery.execute", "agentspeak/runtime.py::OrQuery.execute", "agentspeak/runtime.py::NotQuery.execute", "agentspeak/runtime.py::Agent.add_rule", "agentspeak/runtime.py::Environment.build_agent"]}
{"id": "C87", "title": "The event of .wait is the one in its text", "statement": "A text is accepted by .wait exactly if it starts with an event, whose literal has no operators after folding constants, and a full stop; the event waited for then has the trigger, the kind of goal and the literal that are written there.", "quantifier": "all token sequences", "why_tests_cant": "infinite domain of texts", "anchors": ["agentspeak/stdlib.py::_wait", "agentspeak/runtime.py::BuildEventVisitor", "agentspeak/parser.py::parse_event"]}
{"id": "C88", "title": "Running a program from the command line", "statement": "`python -m agentspeak FILE...` runs the programs given on the command line, or the standard input if there are none.  The exit status is 0 only if the program is valid and nothing was raised; then there is one agent, named after the source, built from it, and run until all its intentions wait for events.  Every valid program whose events and queries can be built is built and run.", "quantifier": "all contents of files and of the standard input (as tokens), all arguments, all clocks", "why_tests_cant": "programs and argument lists are infinitely many; the claim is about the composition of parser, builder and scheduler", "anchors": ["agentspeak/runtime.py::main", "agentspeak/runtime.py::Environment._make_name", "agentspeak/runtime.py::Environment.build_agent", "agentspeak/runtime.py::Environment.run_agent", "agentspeak/__main__.py"]}
{"id": "C89", "title": "Negation to any depth", "statement": "Let negated queries be safe (their variables are bound by what comes before, also in the rules), without actions and operators hidden in terms, and annotations ground.  Negations may be nested, and the rules for what is negated may have negations again.  Then every answer of a query satisfies it, and an exhausted query has an answer for every assignment that satisfies it, in every set of derived facts that is supported by the rules (contains exactly the heads of rules whose body is true).  Stratified rules have such a set.  If a query comes to an end, all such sets agree about it.  A plan is chosen with bindings that make its context true, and passed over only if no assignment makes it applicable.", "quantifier": "all belief bases and rules with safe negation, all safe queries, all consumers that leave the bindings as they found them", "why_tests_cant": "knowledge bases, levels of negation and depths of recursion are unbounded; the claim compares the interpreter with a declarative semantics", "anchors": ["agentspeak/runtime.py::NotQuery.execute", "agentspeak/runtime.py::TermQuery.execute", "agentspeak/runtime.py::AndQuery.execute", "agentspeak/runtime.py::Agent.call"]}
{"id": "C90", "title": "Escapes in string literals", "statement": "parse_string reads the text between the quotes of a string literal byte by byte: \\xhh, \\uhhhh and \\Uhhhhhhhh (digits in either case), one to three octal digits, \\N{name}, the escapes with one letter and a backslash before a line end have the meaning of Python's unicode_escape; any other escape, and every other byte, stands for itself. Every other text raises UnicodeDecodeError.", "quantifier": "all texts between quotes", "why_tests_cant": "infinitely many literals; tests try a few escapes", "anchors": ["agentspeak/__init__.py::parse_string"]}
{"id": "C91", "title": "Plans have variables of their own", "statement": "Building a plan makes new variables for all variables of its event, context and body. In every later state, two different plans (of one agent or of several) have no variables in common, and variables made later, for copies of rules or frozen terms, are not variables of a plan.", "quantifier": "all programs, all reachable states", "why_tests_cant": "a variable shared by two plans shows only if both are used in one intention; programs and runs are infinitely many", "anchors": ["agentspeak/runtime.py::Environment.build_agent_from_ast", "agentspeak/runtime.py::BuildTermVisitor", "agentspeak/runtime.py::BuildInstructionsVisitor"]}
{"id": "C92", "title": ".dump lists what an agent has", "statement": "The action .dump prints one line for every belief, rule, plan and intention of the agent, in this order, and nothing else; it does not raise an exception.", "quantifier": "all agents, in all states", "why_tests_cant": "agents, and the queries in their rules and contexts, are infinitely many; the exception needs a negation of, for example, a conjunction", "anchors": ["agentspeak/runtime.py::Agent.dump", "agentspeak/runtime.py::NotQuery.__str__", "agentspeak/stdlib.py::_dump"]}
