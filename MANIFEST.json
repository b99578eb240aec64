{"claims": [
  {"property": "C01", "status": "proved", "theorems": ["Verif.C01_unify_mgu", "Verif.C01_unify_complete"], "note": "mgu for wildcard-free terms and scopes; expressions allowed (Tame: no comparison expressions, or no annotations anywhere). Completeness (returns True whenever a solution exists) for expression-free terms and acyclic scopes."},
  {"property": "C02", "status": "proved", "theorems": ["Verif.C02_unify_false"], "note": "Same side conditions as C01."},
  {"property": "C03", "status": "proved", "theorems": ["Verif.C03_unify_ground"], "note": "All ground expression-free terms; Term.val is the independent structural value."},
  {"property": "C04", "status": "proved", "theorems": ["Verif.C04_unify_trail"], "note": "All terms, scopes, stacks and outcomes, including exceptions."},
  {"property": "C05", "status": "proved", "theorems": ["Verif.C05_reroll_undoes"], "note": "All activities: bindings, unifications, nested choicepoints, nested blocks."},
  {"property": "C06", "status": "proved", "theorems": ["Verif.C06_unify_symm", "Verif.C06_no_wild", "Verif.C06_returns", "Verif.C06_wildcard"], "note": "For all terms and scopes with no variable bound to a wildcard, also with cyclic bindings: same answer, same bindings up to the direction between variables, same assignments. Without wildcards, one call returns iff the other does; C06_wildcard shows that this needs the absence of wildcards."},
  {"property": "C07", "status": "proved", "theorems": ["Verif.C07_match_ground"], "note": "Scopes: wildcard-free, expression-free, acyclic bindings."},
  {"property": "C08", "status": "partial", "theorems": ["Verif.C08_unify_diverges", "Verif.C08_unify_terminates_partial"], "note": "Full statement is false of the code (no occurs check): C08_unify_diverges. Partial: terminates if one side is ground or a solution exists."},
  {"property": "C09", "status": "proved", "theorems": ["Verif.C09_grounded_closed", "Verif.C09_grounded_value", "Verif.C09_grounded_total"], "note": ""},
  {"property": "C10", "status": "proved", "theorems": ["Verif.C10_freeze_copy", "Verif.C10_freeze_ground", "Verif.C10_freeze_isolated", "Verif.C10_freeze_total"], "note": ""},
  {"property": "C11", "status": "proved", "theorems": ["Verif.C11_annotated_sound", "Verif.C11_annotated_ground"], "note": "Annotations of annotations are not considered (left annotations carry none). Wildcards allowed if the other side is ground."},
  {"property": "C12", "status": "partial", "theorems": ["Verif.C12_greedy_incomplete", "Verif.C12_annotated_complete_partial"], "note": "Full statement is false of the code (greedy matching): C12_greedy_incomplete. Partial: at most one left annotation, or ground annotations (C11_annotated_ground)."},
  {"property": "C13", "status": "partial", "theorems": ["Verif.C13_backtracking_restores", "Verif.C13_backtracking_undoes_consumer", "Verif.C13_backtracking_trailed", "Verif.C13_actions_restore", "Verif.C13_actions_undo_consumer", "Verif.C13_actions_trailed", "Verif.C13_literal_eq_variable_unbinds_all", "Verif.C13_true_keeps_consumer_bindings", "Verif.C13_action_keeps_binding", "Verif.C13_failed_alternative_binds", "Verif.C13_unbind_all"], "note": "Proved for all queries without 'literal = variable' and .unbind_all: without actions (C13_backtracking_restores, _undoes_consumer, _trailed) and with all modelled actions (C13_actions_restore, C13_actions_undo_consumer for queries that 'settle', C13_actions_trailed for all). False of the code in general: literal = variable, consumers of queries without choicepoint, actions that bind their result (a failed alternative changes the answers of the next one), .unbind_all."},
  {"property": "C14", "status": "proved", "theorems": ["Verif.C14_query_sound"], "note": "Queries without negation and actions; terms free of comparison expressions or free of annotations."},
  {"property": "C15", "status": "partial", "theorems": ["Verif.C15_query_complete_partial", "Verif.C15_annotations_incomplete"], "note": "Full statement is false of the code for variables in annotations: C15_annotations_incomplete. Proved for ground annotations."},
  {"property": "C16", "status": "proved", "theorems": ["Verif.C16_negation_as_failure", "Verif.C16_negation_actions", "Verif.C16_negation_sound"], "note": "C16_negation_actions: also with actions (any but .unbind_all)."},
  {"property": "C17", "status": "proved", "theorems": ["Verif.C17_belief_query_enumerates", "Verif.C17_match_meaning"], "note": ""},
  {"property": "C18", "status": "partial", "theorems": ["Verif.C18_add_partial", "Verif.C18_add_simple", "Verif.C18_add_twice", "Verif.C18_add_unbound", "Verif.C18_query_partial", "Verif.C18_bool_not_added"], "note": "Adding beliefs: exact new set up to Python ==, idempotence, unbound variables raise and change nothing, stored beliefs are found by queries. False in one respect (C18_bool_not_added): p(true) is not added if p(1) is present, and cannot be queried."},
  {"property": "C19", "status": "partial", "theorems": ["Verif.C19_remove_one", "Verif.C19_remove_none", "Verif.C19_remove_none_call", "Verif.C19_match_logic", "Verif.C19_nomatch_partial", "Verif.C19_remove_ground", "Verif.C19_greedy"], "note": "Removal removes exactly the first matching belief; otherwise nothing changes and no event is generated. Matching is related to the declarative semantics; it is incomplete for several annotations with variables (C19_greedy)."},
  {"property": "C20", "status": "partial", "theorems": ["Verif.C20_replace_partial", "Verif.C20_at_most_one", "Verif.C20_constant_kept"], "note": "Holds for b whose arguments are distinct variables, wildcards or expressions, without annotations; in general at most one belief is removed. Constants are kept in the pattern, so -+p(1) does not replace p(0) (C20_constant_kept)."},
  {"property": "C21", "status": "partial", "theorems": ["Verif.C21_history_partial", "Verif.C21_remove_total", "Verif.C21_ground", "Verif.C21_bool_lost", "Verif.C21_annotated_removed"], "note": "Histories of unannotated literals built from numbers, strings, structures and lists. False for true/false arguments (C21_bool_lost) and annotated beliefs (C21_annotated_removed). Groundness holds in general."},
  {"property": "C22", "status": "partial", "theorems": ["Verif.C22_abolish_partial", "Verif.C22_unannotated_partial", "Verif.C22_annotated_kept"], "note": "Exact characterisation by unifies_annotated(belief, pattern), no bindings; for unannotated beliefs exactly the instances of the pattern are removed. False for annotated beliefs (C22_annotated_kept): arguments of unifies_annotated are swapped."},
  {"property": "C23", "status": "proved", "theorems": ["Verif.C23_first_applicable", "Verif.C23_only_first_applicable", "Verif.C23_with_actions", "Verif.C23_event_is_copy", "Verif.C23_applicable_sound", "Verif.C23_inapplicable_sound", "Verif.C23_program_order", "Verif.C23_new_plan_last"], "note": "C23_with_actions: arbitrary contexts, states threaded through the tries. The others: contexts and rules without actions, applicability in the state of the event; operationally (head unifies, context has an answer) and, under the conditions of C14/C15, logically. [] \u2209 intentions excludes the IndexError of C34."},
  {"property": "C24", "status": "proved", "theorems": ["Verif.C24_no_applicable_plan", "Verif.C24_test_goal"], "note": "Contexts and rules without actions. An Intention object is created and dropped, but no intention is added to a stack."},
  {"property": "C25", "status": "proved", "theorems": ["Verif.C25_subgoal", "Verif.C25_result_is_copy", "Verif.C25_while_running", "Verif.C25_call_by_value"], "note": "The caller's intention (except its generators' world) is constant while covered; on completion its bindings change by one unify of the calling term with a fresh frozen copy of the callee's head."},
  {"property": "C26", "status": "proved", "theorems": ["Verif.C26_idle_iff", "Verif.C26_runs_first_ready"], "note": "Idle iff every stack is empty or suspended; otherwise the first ready intention executes one instruction or is popped; other program counters are unchanged."},
  {"property": "C27", "status": "proved", "theorems": ["Verif.C27_wait", "Verif.C27_wait_sets_deadline"], "note": "Over any sequence of steps of any agents, with sleeping in between, a suspended intention is unchanged unless a clock reading strictly past its deadline was taken or a matching event was delivered."},
  {"property": "C28", "status": "partial", "theorems": ["Verif.C28_run_agent_partial", "Verif.C28_run_partial", "Verif.C28_sleep_nonneg_partial", "Verif.C28_sleep_race", "Verif.C28_run_agent_deadline_zero"], "note": "False of the code: C28_sleep_race (negative sleep), C28_run_agent_deadline_zero. Proved: run returns only when every intention waits for an event without deadline; the same for run_agent if clock readings are positive; sleep durations are non-negative if the clock does not pass the deadline between the readings."},
  {"property": "C29", "status": "proved", "theorems": ["Verif.C29_compile", "Verif.C29_compile_old", "Verif.C29_deterministic", "Verif.C29_plan", "Verif.C29_run", "Verif.C29_history", "Verif.C29_source", "Verif.C29_source_run"], "note": "Compiled bodies have exactly the traces of the structured source (complete, failing, unfinished), for all bodies; every plan in every reachable state is such a program; every intention's history in any run of the system is a trace of its plan's source. The renaming of variables is also stated for the traces, instruction by instruction (C29_source, C29_source_run)."},
  {"property": "C30", "status": "proved", "theorems": ["Verif.C30_no_underflow", "Verif.C30_balanced", "Verif.C30_below"], "note": "In all reachable states no pop can underflow; a complete run of any statement leaves the query and choicepoint stacks as they were, and nothing below is touched meanwhile."},
  {"property": "C31", "status": "partial", "theorems": ["Verif.C31_exception_partial", "Verif.C31_failed_plan_completes"], "note": "False of the code: C31_failed_plan_completes. Proved for instructions that raise: the program counter stays."},
  {"property": "C32", "status": "proved", "theorems": ["Verif.C32_reachable", "Verif.C32_during", "Verif.C32_send", "Verif.C32_unknown_receiver", "Verif.C32_unknown_force", "Verif.C32_call", "Verif.C32_tell", "Verif.C32_achieve", "Verif.C32_untell"], "note": "C32_send: a successful send calls the signed fresh copy on exactly the named agents, in order; unknown receivers and forces raise with the state unchanged. C32_call: what each call does to beliefs and events, for any receiver. C32_tell/achieve/untell: the state after the whole send, for receivers whose rules and plan contexts contain no actions (actions there may do anything afterwards)."},
  {"property": "C33", "status": "proved", "theorems": ["Verif.C33_broadcast", "Verif.C33_tell"], "note": "C33_broadcast for all environments; C33_tell adds the state afterwards when rules and plan contexts contain no actions."},
  {"property": "C34", "status": "partial", "theorems": ["Verif.C34_unachieve_partial", "Verif.C34_usable_partial", "Verif.C34_stuck"], "note": "exactly the matching top intentions are dropped, for goals without expressions where one side is closed; usable afterwards only if no stack is empty; C34_stuck: an unachieve can leave an agent that raises on every sub-goal"},
  {"property": "C35", "status": "proved", "theorems": ["Verif.C35_untellHow"], "note": "all plan libraries and labels; other agents not sharing plan lists are unaffected"},
  {"property": "C36", "status": "partial", "theorems": ["Verif.C36_answer_partial", "Verif.C36_last_only", "Verif.C36_other_plan", "Verif.C36_no_plan_raises"], "note": "the answer is the last plan per key whose name occurs in the text; negations: other plans are sent, only the last is sent, IndexError when there is none"},
  {"property": "C37", "status": "proved", "theorems": ["Verif.C37_reachable", "Verif.C37_build", "Verif.C37_builds", "Verif.C37_stays"], "note": "All reachable states and all later states, also after raising steps and builds."},
  {"property": "C38", "status": "partial", "theorems": ["Verif.C38_shared", "Verif.C38_separate_partial", "Verif.C38_during_partial", "Verif.C38_change_partial", "Verif.C38_abolish_partial"], "note": "False of the code for agents made by build_agents (C38_shared: copy.copy of the dict of belief sets). True of agents made by build_agent."},
  {"property": "C39", "status": "proved", "theorems": ["Verif.C39_lookup", "Verif.C39_add_exact", "Verif.C39_add_variadic", "Verif.C39_add_taken", "Verif.C39_specs"], "note": "All histories of creations and registrations: exact arity, then any arity, then parent, then KeyError; a successful add changes no lookup of another name (an add for any number of arguments changes the arities of its functor that were not registered themselves). Actions declared with argument specifications are found under the number of arguments of the term."},
  {"property": "C40", "status": "partial", "theorems": ["Verif.C40_partial", "Verif.C40_reduces", "Verif.C40_evaluate", "Verif.C40_structure", "Verif.C40_idempotent", "Verif.C40_errors", "Verif.C40_structure_differs", "Verif.C40_linked_raises", "Verif.C40_zero_division", "Verif.C40_query", "Verif.C40_query_holds", "Verif.C40_answers_partial", "Verif.C40_answers_fewer", "Verif.C40_answers_negation_partial", "Verif.C40_answers_deep_partial"], "note": "If no error is logged, folding only replaces constant operations by their values (all visitors), keeps the variables, and is idempotent; grounded terms and values of expressions are the same under every scope. Folded queries: the folded tree builds the query with constant operations replaced by values (C40_query), true under the same assignments (C40_query_holds); the answers of each are covered by those of the other (C40_answers_partial), but there can be fewer (C40_answers_fewer: true | true). False for evaluate on structures (C40_structure_differs). Folded queries with negation (two strata) are true under the same assignments: C80_folded. Answers of folded queries with safe negation: C40_answers_negation_partial (two strata), C40_answers_deep_partial (to any depth). Missing: infinite numbers; answers of folded queries with actions or variables in annotations."},
  {"property": "C41", "status": "partial", "theorems": ["Verif.C41_partial", "Verif.C41_source", "Verif.print_readAs", "Verif.readAs_unique", "Verif.C41_injective", "Verif.C41_infinity"], "note": "Round trip for every term parsed anywhere in a file, at character level (lexer and parser), unless it contains an infinite number; for those it is false (C41_infinity). Reading and printing of floats is a parameter with Python's guarantee float(repr(x)) == x."},
  {"property": "C42", "status": "proved", "theorems": ["Verif.C42_round_trip", "Verif.C42_next", "Verif.C42_token", "Verif.C42_source_not_ascii"], "note": "For all strings of code points (lone surrogates included): parse_string(asl_repr(s)) == s; the printed form is one string token, in any context and as a line. Also shown: string literals with non-ASCII letters in the source are not read back as written."},
  {"property": "C43", "status": "proved", "theorems": ["Verif.C43_lossless", "Verif.C43_slices", "Verif.C43_kinds", "Verif.C43_file"], "note": "For every line: scanning terminates and divides the whole line (tabs replaced) into tokens, white space, comments and illegal characters; tokens are non-empty slices in order, of the first kind in table order with a match. Regular expressions are modelled by a backtracking matcher, proved sound and complete. Unicode character classes are parameters."},
  {"property": "C44", "status": "proved", "theorems": ["Verif.C44_tokens", "Verif.C44_sound", "Verif.C44_complete", "Verif.C44_unambiguous", "Verif.C44_binary", "Verif.C44_unary", "Verif.C44_sign_right"], "note": "Grammar by precedence levels (Verif.Spec.Grammar). The parser accepts exactly its phrases with its trees (sound, complete, unambiguous), for all token lists as the lexer yields them (C44_tokens). C44_binary, C44_unary and C44_sign_right spell out the precedence table. Source locations are not modelled."},
  {"property": "C45", "status": "proved", "theorems": ["Verif.C45_error", "Verif.C45_limit", "Verif.C45_throw", "Verif.C45_warning"], "note": "The first error that raises is exactly the m-th (m >= 1); if the program carries on, every later error raises too. A limit of 0 behaves like 1."},
  {"property": "C46", "status": "partial", "theorems": ["Verif.C46_member", "Verif.C46_member_pattern", "Verif.C46_member_total", "Verif.C46_range", "Verif.C46_range_total", "Verif.C46_substring", "Verif.C46_substring_total", "Verif.C46_member_open_tail_raises"], "note": "Every answer of .member/.range/.substring, in order, with bindings restored, plus totality; false for lists whose tail is a bound variable (C46_member_open_tail_raises)."},
  {"property": "C47", "status": "partial", "theorems": ["Verif.C47_findall_partial", "Verif.C47_findall_total", "Verif.C47_count", "Verif.C47_count_total", "Verif.C47_findall_shares_memo", "Verif.C47_findall_rule_unbinds_all"], "note": ".count in full and .findall for patterns that are ground in every answer, in both directions (an outcome is as specified, and the specified outcome is reached), for rules (also with actions) without literal = variable and .unbind_all; false otherwise (two witnesses)."},
  {"property": "C48", "status": "proved", "theorems": ["Verif.C48_items", "Verif.C48_compare", "Verif.C48_improper"], "note": "ListOf: tuple, or head and tail where the tail is a list itself. Comparison with every term on either side of every operator, exceptions included. Hashes are not modelled."},
  {"property": "C49", "status": "partial", "theorems": ["Verif.C49_equivalence", "Verif.C49_strict_order", "Verif.C49_le_partial", "Verif.C49_annotations_ignored", "Verif.C49_improper_raises"], "note": "== is an equivalence and < a compatible strict order (all ground terms without improper lists). a<=b iff a<b or a==b is false with annotations; proved without them."},
  {"property": "C50", "status": "proved", "theorems": ["Verif.C50_rules_hygienic"], "note": ""},
  {"property": "C51", "status": "partial", "theorems": ["Verif.C51_for_partial", "Verif.C51_size_change_raises", "Verif.C51_for_false", "Verif.C51_bindings_leak", "Verif.C51_for_queries_partial", "Verif.C51_for_negation_partial"], "note": "False as stated: C51_for_false (for (p(X)) {-p(X)} raises after one round), C51_size_change_raises (this happens whenever the number of beliefs about the predicate changes), C51_bindings_leak (bindings of the body leak into later rounds for unguarded queries). C51_for_partial: for one predicate without rules, one round per belief matching at loop entry, if the body leaves the beliefs about that predicate alone. C51_for_queries_partial: for any query without negation and actions (with rules, conjunctions, disjunctions), the rounds are the answers the query had at loop entry (each makes it true, whatever makes it true is consistent with one of them), if the body leaves the beliefs and rules of the predicates alone that the query depends on. C51_for_negation_partial: the same with safe negation to any depth (C89). Missing: queries with actions, variables in annotations."},
  {"property": "C52", "status": "partial", "theorems": ["Verif.C52_round_partial", "Verif.C52_run_rounds", "Verif.C52_run_steps", "Verif.C52_run_agent_steps", "Verif.C52_exception_stops_run"], "note": "False if a step raises: C52_exception_stops_run. Proved for rounds without exceptions; runs consist of steps and sleeping (C52_run_steps, C52_run_agent_steps)."},
  {"property": "C53", "status": "partial", "theorems": ["Verif.C53_first_ready_partial", "Verif.C53_starvation"], "note": "False of the code: C53_starvation. Proved for the first runnable intention."},
  {"property": "C54", "status": "partial", "theorems": ["Verif.C54_functor_partial", "Verif.C54_line_partial", "Verif.C54_digit_fails", "Verif.C54_unicode_fails"], "note": "False in general: leading digits and non-ASCII letters are kept (two witnesses). Proved when the first alphanumeric character is an ASCII letter and all alphanumeric characters are ASCII: one functor token, no keyword."},
  {"property": "C55", "status": "proved", "theorems": ["Verif.C55_sound", "Verif.C55_complete", "Verif.C55_exact", "Verif.C55_unique", "Verif.C55_stable", "Verif.C55_order"], "note": "Grammar Script/ValidAgent against parseFile, both directions; result unique, stable under revalidation, clauses in textual order. Warnings and source locations are not modelled."},
  {"property": "C56", "status": "partial", "theorems": ["Verif.C56_false", "Verif.C56_partial", "Verif.C56_terms", "Verif.C56_tokens"], "note": "False of the code: C56_false (AttributeError, UnicodeDecodeError). C56_partial: apart from logged errors only AttributeError, OverflowError, UnicodeDecodeError (and infinite-number arithmetic, not modelled) can escape; C56_terms for the term parser; C56_tokens: hypothesis holds for the lexer's tokens."},
  {"property": "C57", "status": "partial", "theorems": ["Verif.C57_false", "Verif.C57_partial", "Verif.C57_names", "Verif.C57_terms", "Verif.C57_clauses", "Verif.C57_validate"], "note": "False of the code: C57_false (self-include as ./a.asl). C57_partial: ends if finitely many files are found under normalised names only; C57_names: ends, in any file system with finitely many files, if the names of included files have no dots or empty components and the path of the main file is normalised; C57_terms, C57_clauses: linear depth; C57_validate."},
  {"property": "C58", "status": "proved", "theorems": ["Verif.C58_agent", "Verif.C58_plan", "Verif.C58_source"], "note": "AgentOf/BuiltPlan are stated with a naming of variables (injective on names, _ is the wildcard), independent of the builder's table; C58_source goes from the tokens of a file to the program"},
  {"property": "C59", "status": "partial", "theorems": ["Verif.C59_false", "Verif.C59_exact", "Verif.C59_partial"], "note": "False of the code: =.. in queries and variables as annotations of events (C59_false); C59_exact shows that these are the only exceptions"},
  {"property": "C60", "status": "partial", "theorems": ["Verif.C60_false", "Verif.C60_actions", "Verif.C60_partial", "Verif.C60_told", "Verif.C60_sound"], "note": "False of the code: told plans are neither folded nor validated and logged errors are not thrown (C60_false), and actions of the agent that are not standard become beliefs (C60_actions). C60_partial: the same plan, for the same actions, for plans that folding leaves alone, without operators in the event, without =.. and with plain annotations. C60_told, C60_sound: exactly what is told"},
  {"property": "C61", "status": "partial", "theorems": ["Verif.C61_partial", "Verif.C61_same", "Verif.C61_injective", "Verif.C61_tidy", "Verif.C61_branch", "Verif.C61_power"], "note": "False in two cases: an empty else branch is lost (C61_branch: the result is the agent without it, C61_tidy), and a negative number before ** is printed without parentheses and read as something else (C61_power); for infinite numbers see C41_infinity. Proved for everything else: the text of an accepted agent whose numbers are finite and printable is accepted as that agent without its empty else branches (C61_partial), and as that agent if there are none (C61_same)."},
  {"property": "C62", "status": "partial", "theorems": ["Verif.C62_same", "Verif.C62_plans", "Verif.C62_tails", "Verif.C62_partial", "Verif.C62_markers", "Verif.C62_false", "Verif.C62_names"], "note": "False of the code: CallbackVisitor.visit_plan reads ast_plan.annotations, which AstPlan does not have, so that every file with a plan raises AttributeError (C62_plans, C62_false); so does every list with a tail in a rule (C62_tails), and the arguments of marker actions are checked. Proved: whenever an agent is built with the optimiser it is the same agent (C62_same), and files without plans, lists with tails and markers are built as without the optimiser (C62_partial)."},
  {"property": "C63", "status": "partial", "theorems": ["Verif.C63_partial", "Verif.C63_keeps", "Verif.C63_false"], "note": "False of the code in four ways (C63_false): nodes_equal ignores missing arguments, a reference to an unbound variable counts as bound, references are kept although their target has changed, True equals 1. Proved for states whose known values are constants and literals, which may contain variables (C63_partial); what is known in both states is kept (C63_keeps)."},
  {"property": "C64", "status": "partial", "theorems": ["Verif.C64_find", "Verif.C64_registered", "Verif.C64_indices", "Verif.C64_sound", "Verif.C64_partial", "Verif.C64_false", "Verif.C64_query", "Verif.C64_query_param", "Verif.C64_query_scope", "Verif.C64_usual"], "note": "False of the code for EFFECT_REQUIRE_BOUND, which has the same number as EFFECT_BIND (C64_false). Proved: the effects found are those declared (C64_find), which effects are registered for a name and an arity (C64_registered), which indices are accepted (C64_indices), soundness for variables without reference to others (C64_sound), EFFECT_DOBIND (C64_partial)."},
  {"property": "C65", "status": "partial", "theorems": ["Verif.C65_partial", "Verif.C65_arrives", "Verif.C65_head", "Verif.C65_twice", "Verif.C65_context", "Verif.C65_constant", "Verif.C65_body", "Verif.C65_string", "Verif.C65_negation", "Verif.C65_action", "Verif.C65_truth"], "note": "Proved: exactly which plan arrives (C65_arrives, for plans from source whose context has a readable text), that it is the plan itself if the context has no variables and the variables of the head are the first of its arguments (C65_partial), and that the head arrives unchanged only then (C65_head). The property is false in general: see the witnesses. Missing: contexts with constants at both sides of =, and annotations printed in another order."},
  {"property": "C66", "status": "partial", "theorems": ["Verif.C66_loads", "Verif.C66_length", "Verif.C66_nth", "Verif.C66_min", "Verif.C66_max", "Verif.C66_sort_partial", "Verif.C66_sort_annotated", "Verif.C66_types", "Verif.C66_round", "Verif.C66_tail", "Verif.C66_function", "Verif.C66_raises", "Verif.C66_predicate", "Verif.C66_stamp"], "note": "All functions of the statement, and .date/.time; .sort for items without annotations (C66_sort_partial), with annotations the order can be wrong (C66_sort_annotated). Numbers are exact."},
  {"property": "C67", "status": "partial", "theorems": ["Verif.C67_declares", "Verif.C67_names", "Verif.C67_partial", "Verif.C67_item", "Verif.C67_send"], "note": "Proved for all standard actions, with ground arguments for .nth/.min/.max and .send not about plans; false otherwise (C67_item, C67_send)."},
  {"property": "C68", "status": "partial", "theorems": ["Verif.C68_marks", "Verif.C68_message_partial", "Verif.C68_plain", "Verif.C68_critical", "Verif.C68_false", "Verif.C68_spelled", "Verif.C68_column", "Verif.C68_main", "Verif.C68_repl_partial", "Verif.C68_tab_false", "Verif.C68_repl_false", "Verif.C68_level", "Verif.C68_prefix", "Verif.C68_colour"], "note": "Marks, text, order and columns of messages. False of the code: CRITICAL messages raise (C68_false), columns after a tab (C68_tab_false), line numbers at the prompt of the lexer after an error (C68_repl_false)."},
  {"property": "C69", "status": "partial", "theorems": ["Verif.C69_partial", "Verif.C69_file_partial", "Verif.C69_false"], "note": "The commands that are executed are those of the tokens, however they are divided into lines. The tokens are those of a file with the same lines if no line leaves a comment open (C69_file_partial); false otherwise (C69_false)."},
  {"property": "C70", "status": "partial", "theorems": ["Verif.C70_illegal_partial", "Verif.C70_syntax", "Verif.C70_rejected", "Verif.C70_string_false", "Verif.C70_list_false", "Verif.C70_false"], "note": "Rejected lines and commands change nothing of the agent. False of the code: some inputs end the session (C70_string_false, C70_list_false), and an error in a plan for a subgoal blocks later commands (C70_false)."},
  {"property": "C71", "status": "partial", "theorems": ["Verif.C71_sum_partial", "Verif.C71_total_partial", "Verif.C71_false"], "note": "In both directions for patterns that can be evaluated before the query; false for patterns with operators (C71_false). Rules must not contain literal = variable or .unbind_all, see C47."},
  {"property": "C72", "status": "proved", "theorems": ["Verif.C72_function", "Verif.C72_predicate", "Verif.C72_procedure"], "note": "Functions, predicates and procedures with any declared types that the model has (None, int, float, asl_str, tuple); Python functions are parameters."},
  {"property": "C73", "status": "proved", "theorems": ["Verif.C73_query", "Verif.C73_answers", "Verif.C73_step", "Verif.C73_run", "Verif.C73_env", "Verif.C73_agent", "Verif.C73_build"], "note": "For the model, in which sets are lists in order of insertion; clock and random generator are parameters."},
  {"property": "C74", "status": "proved", "theorems": ["Verif.C74_print", "Verif.C74_csv", "Verif.C74_step", "Verif.C74_call", "Verif.C74_run", "Verif.C74_kept", "Verif.C74_print_total", "Verif.C74_csv_total"], "note": "C74_print, C74_csv: the line that is written, and that nothing else changes. C74_step, C74_call, C74_run: steps, calls and runs only add lines with names of agents. C74_kept: also building agents keeps what was written."},
  {"property": "C75", "status": "partial", "theorems": ["Verif.C75_concat_partial", "Verif.C75_concat_total_partial", "Verif.C75_linked"], "note": "For ordinary lists and texts. False of the code for lists written with a tail (C75_linked): they are joined as texts."},
  {"property": "C76", "status": "proved", "theorems": ["Verif.C76_my_name", "Verif.C76_my_name_total", "Verif.C76_ground", "Verif.C76_ground_total", "Verif.C76_fail", "Verif.C76_unbind_all"], "note": "Each action in both directions: what an answer means, and (_total) that there is one if the arguments have values."},
  {"property": "C77", "status": "partial", "theorems": ["Verif.C77_statement_partial", "Verif.C77_statements_partial", "Verif.C77_plan_partial", "Verif.C77_prompt", "Verif.C77_literal_eq_variable"], "note": "Full statement except for queries that contain .unbind_all or 'literal = variable' (in the statement or in rules), for which it is false: C77_literal_eq_variable. The prompt part is without restriction."},
  {"property": "C78", "status": "partial", "theorems": ["Verif.C78_query", "Verif.C78_query_fails", "Verif.C78_if", "Verif.C78_for", "Verif.C78_while", "Verif.C78_for_beliefs_partial", "Verif.C78_for_queries_partial", "Verif.C78_for_negation_partial"], "note": "C78_query, C78_query_fails, C78_if, C78_for, C78_while hold in full, for executions of the statement in which no instruction raises. C78_for_beliefs_partial: the queries of the body and the rules must not contain .unbind_all or literal = variable (C51_bindings_leak, C77_literal_eq_variable show why something is needed). C78_for_queries_partial: the same for any query without negation and actions, where nobody changes the beliefs and rules of the predicates it depends on; the side conditions of C14 and C15 in addition. C78_for_negation_partial: with safe negation to any depth (C89)."},
  {"property": "C79", "status": "partial", "theorems": ["Verif.C79_partial", "Verif.C79_all_partial", "Verif.C79_printed", "Verif.C79_kept", "Verif.C79_ends", "Verif.C79_directive_false", "Verif.C79_session_false"], "note": "Proved: for valid texts without directives other than include, whatever the division into lines, what has been printed are clauses from the beginning, as in the agent of a file, and the rest is kept (C79_partial); all of a file (C79_all_partial); what is printed is the agent of a file with the tokens pending (C79_printed); what is kept (C79_kept); exceptions that end a session (C79_ends). Missing, since it is false: texts with directives (C79_directive_false, C79_session_false); that errors never end a session."},
  {"property": "C80", "status": "partial", "theorems": ["Verif.C80_sound_partial", "Verif.C80_meaning", "Verif.C80_positive", "Verif.C80_folded", "Verif.C80_context", "Verif.C80_order", "Verif.C80_nested_false", "Verif.C80_circular"], "note": "Sound for two strata (negated queries without negation, about a lower stratum whose rules have no negation, ground annotations), also for contexts of plans and after folding. Completeness is false in general (C80_order: not p(X) & r(X)); nested negation is not sound (C80_nested_false); rules recursive through negation do not terminate (C80_circular)."},
  {"property": "C81", "status": "proved", "theorems": ["Verif.C81_graph", "Verif.C81_order", "Verif.C81_runs"], "note": "For every reachable state the loop ends within as many rounds as there are instructions (any choice of pop); the edges are exactly the references of connected instructions, without repetitions; later moves of intentions in the plan are edges, success or failure by the answer. Texts of nodes are left out (nodes are instruction numbers)."},
  {"property": "C82", "status": "proved", "theorems": ["Verif.C82_lines", "Verif.C82_prompt"], "note": "For all tables of names without repetitions, and these are all tables that occur in sessions, however the commands end. The texts of values are left out."},
  {"property": "C83", "status": "partial", "theorems": ["Verif.C83_complete_partial", "Verif.C83_binds", "Verif.C83_not", "Verif.C83_context"], "note": "Two strata: negated queries are about predicates whose rules have no negation (ground annotations, no actions); more strata and nested negation are C89. Rules bind the variables of their heads, or are only called with ground arguments. Missing: operations hidden inside of terms in negated queries; actions."},
  {"property": "C84", "status": "partial", "theorems": ["Verif.C84_split_partial", "Verif.C84_connectives", "Verif.C84_conjuncts", "Verif.C84_always", "Verif.C84_marked", "Verif.C84_marked_all", "Verif.C84_bool_false", "Verif.C84_annotations_false", "Verif.C84_key_error_false", "Verif.C84_linked_false", "Verif.C84_not_false", "Verif.C84_evaluated_false", "Verif.C84_capture_false", "Verif.C84_formulas_false", "Verif.C84_annotations"], "note": "Proved without annotations inside of terms, without booleans, and for names that the program does not use; fails for these and in further cases (witnesses). always_true is proved for a single unification with an unbound variable. The pass is not reached at this commit (C62)."},
  {"property": "C85", "status": "proved", "theorems": ["Verif.C85_normal", "Verif.C85_include", "Verif.C85_guard"], "note": "Directories have parents and there are no symbolic links. The guard is exact only for names without dots and a normalised path (C85_guard, second part); otherwise C57_false."},
  {"property": "C86", "status": "proved", "theorems": ["Verif.C86_order", "Verif.C86_answers", "Verif.C86_unique", "Verif.C86_program", "Verif.C86_programs"], "note": "Both directions: the generator-based execution has exactly the runs of the big-step semantics; unique for a deterministic consumer; rules of agents are those of the program forever."},
  {"property": "C87", "status": "proved", "theorems": ["Verif.C87_sound", "Verif.C87_complete", "Verif.C87_ignored"], "note": "What comes after the first full stop is ignored, against the intention (C87_ignored)."},
  {"property": "C88", "status": "partial", "theorems": ["Verif.C88_status_partial", "Verif.C88_invalid", "Verif.C88_runs", "Verif.C88_first_only", "Verif.C88_name", "Verif.C88_all_false", "Verif.C88_then_prompt", "Verif.C88_prompt_status", "Verif.C88_prompt_left", "Verif.C88_prompt_invalid", "Verif.C88_no_files"], "note": "False for several arguments: all but the first are ignored (C88_all_false).  Proved: what status 0 means (C88_status_partial), that no other input has it (C88_invalid), that valid programs are run (C88_runs), the name of the agent (C88_name).  Tokens are given; illegal characters are left out. The prompt after the program: it is reached only with a valid program that has been run (C88_prompt_status, C88_then_prompt)."},
  {"property": "C89", "status": "proved", "theorems": ["Verif.C89_sound", "Verif.C89_complete", "Verif.C89_binds", "Verif.C89_not", "Verif.C89_unique", "Verif.C89_model", "Verif.C89_positive", "Verif.C89_chosen", "Verif.C89_context", "Verif.C89_folded"], "note": "For rules and queries with safe negation as in the statement (DeepStrata, DeepOK, Safe). C89_sound and C89_complete for every supported set of derived facts; C89_model: stratified rules have one; C89_unique: exhausted queries do not depend on it; C89_positive: without negation the meaning is the one of C14/C15. C89_folded: folding does not change the meaning. Loops over such queries: C51_for_negation_partial."},
  {"property": "C90", "status": "proved", "theorems": ["Verif.C90_reads", "Verif.C90_error", "Verif.C90_quotes", "Verif.C90_append"], "note": "For all texts: parse_string gives the meaning of the text according to a grammar of the escapes (hexadecimal, octal, named, one letter, line end, unknown) over its UTF-8 bytes, and a UnicodeDecodeError if it has none; quotes are required; literals can be joined if the second one starts with no octal digit. Table of character names: parameter."},
  {"property": "C91", "status": "proved", "theorems": ["Verif.C91_build", "Verif.C91_apart", "Verif.C91_new", "Verif.C91_run"], "note": "For all reachable states of the model; the variables of a body are those of the statements it was compiled from."},
  {"property": "C92", "status": "partial", "theorems": ["Verif.C92_all_partial", "Verif.C92_stop", "Verif.C92_iff", "Verif.C92_listed", "Verif.C92_order", "Verif.C92_count", "Verif.C92_texts", "Verif.C92_false"], "note": "False: the negation of a conjunction (or anything but a term or action) in a rule or context ends the listing with an AttributeError (C92_false).  Proved: that this is the only reason (C92_iff), which lines are printed before (C92_stop), and that otherwise there is one line for every belief, rule, plan and intention (C92_all_partial, C92_listed, C92_count), in this order (C92_order).  The order of the keys of beliefs and rules is a parameter; the headings are left out."}
]}
