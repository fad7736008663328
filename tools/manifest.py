#!/usr/bin/env python3
"""Writes MANIFEST.json.  One call to c() per property."""
import json, os
HERE = os.path.dirname(os.path.abspath(__file__))
claims = []
def c(prop, status, theorems, note):
    claims.append(dict(property=prop, status=status, theorems=theorems.split(), note=note))

I = "Antlr.IntervalProps."
def q(ns, names): return "".join(" " + ns + n for n in names.split())

c("C01", "partial", q(I, "C01_contains_only_added C01_contains_iff_added_partial C01_containsNew_iff_added_partial C01_add_one_history C01_add_set_copies C01_false_contains C01_false_lost"),
  "The statement is false for the code: the merge loop of add_interval skips intervals (two witnesses). Soundness holds for all histories, exactness for histories in which each range bridges at most one gap (includes all add_one histories and copying a set).")
c("C02", "partial", q(I, "C02_canonical_partial C02_add_one_canonical C02_length_counts C02_eq_of_same_members C02_false"),
  "False in general (same bug as C01, witness); invariant proved for gentle histories; length and equality proved for all sorted/canonical sets.")
c("C03", "proved", q(I, "C03_substract C03_substract_canonical"), "For all sorted disjoint sets.")
c("C04", "proved", q(I, "C04_complement C04_complement_canonical C04_complement_twice"), "")
c("C05", "proved", q(I, "C05_remove_one C05_remove_one_read_only C05_remove_one_sound"), "")
c("C06", "proved", q(I, "C06_contains C06_get_min C06_to_token_string"), "Both versions of the std binary search.")

N = "Antlr.InputProps."
c("C07", "proved", q(N, "C07_la_forward C07_la_backward C07_la_zero C07_consume"), "")
c("C08", "proved", q(N, "C08_la_forward C08_la_backward C08_consume C08_read_all"), "UTF-8 layout via Char.utf8Size; str slicing/boundary functions of std are modelled by their documentation.")
c("C09", "proved", q(N, "C09_units C09_str C09_str_empty C09_str_concat"), "")
c("C10", "proved", q(N, "C10_seek_restores"), "")
T = "Antlr.TokenProps."
c("C11", "partial", q(N, "C11_iter_next_partial C11_false_panics_at_end C11_false_panics_at_end_units") + " " + q(T, "C11_false_token_stream"),
  "False for the code: the wrapper consumes before it tests for EOF, so it panics at the end of every stream. Proved: every symbol before the end is yielded in order.")
c("C12", "proved", q(T, "C12_tokens_of_source C12_token_iter"), "Token source = finite token list followed by EOF for ever.")
c("C13", "partial", q(T, "C13_lookahead_keeps_index C13_lt_forward_partial C13_consume C13_false_beyond_eof C13_false_look_behind"),
  "Beyond EOF the unbuffered stream answers None / type 0 instead of EOF (proved for every state standing at EOF). All other parts hold for all reachable states.")
c("C14", "proved", q(T, "C14_backtracking"), "All well-nested histories (any nesting, outer markers allowed).")
c("C15", "proved", q(T, "C15_interval_text"), "")
M = "Antlr.CommonProps."
c("C16", "partial", q(M, "C16_on_channel_partial C16_false"),
  "False at index 0: the constructor does not advance to the first on-channel token. Holds in every other reachable state, and everywhere if the first token is on channel.")
c("C17", "proved", q(M, "C17_delivers_all C17_consume C17_lookahead_is_future"), "The exception of C16 (first token delivered even if off channel) is explicit in the statement.")
c("C18", "partial", q(M, "C18_look_behind_partial C18_false_first C18_false_panic"),
  "False when fewer than k on-channel tokens precede: answers token 0 or panics (witnesses). Exact whenever k on-channel tokens precede.")
c("C19", "proved", q(M, "C19_seek_recorded C19_position_determines"), "")

S = "Antlr.SemProps."
c("C34", "proved", q(S, "C34_evaluate C34_and C34_or C34_units"), "For every iteration order of the hash sets; assumes sempred answers true for the rule index -1 of NONE (the generated default).")
c("C35", "partial", q(S, "C35_sound C35_complete_partial C35_false_raw C35_false_built"),
  "Soundness proved for every expression. Completeness is false for raw nested values (inverted comparison in eval_precedence, witnesses); proved for predicates built by and/or from precedence tests.")
R = "Antlr.TransitionProps."
c("C41", "partial", q(R, "C41_matches_partial C41_wildcard_within C41_false_wildcard C41_epsilon C41_epsilon_iff C41_rule_panics C41_label"),
  "False for the wildcard at both ends of the vocabulary (strict comparisons). Exact for all other edges and symbols; asking a rule edge panics.")
V = "Antlr.VocabularyProps."
c("C57", "proved", q(V, "C57_literal C57_symbolic C57_display C57_eof C57_max C57_from_token_names"), "char::is_uppercase is a parameter; tables respect the size limit of Rust vectors.")
D = "Antlr.DecodeProps."
c("C58", "partial", q(D, "C58_encodable C58_decode_partial C58_decode_u16 C58_false"), "False for the values 0xFFFE and 0xFFFF (decoded to -2 and -1); exact for all others and for all values read as u16.")
F = "Antlr.TokenFactoryProps."
c("C61", "proved", q(F, "C61_fields C61_override C61_slice C61_empty C61_past_end C61_eof_text C61_to_owned C61_display_one_line"), "Common/Owning token factories on str streams.")

c("C29","proved", q("Antlr.StackProps.", "C29_merge_full C29_merge_local C29_canonical C29_merge_comm C29_merge_assoc C29_has_empty_path"), "both modes; full-context merges are also commutative, associative and canonical")
c("C30","proved", q("Antlr.StackProps.", "C30_merge_wf C30_illformed_panics"), "both modes")
c("C31","proved", q("Antlr.StackProps.", "C31_cache_transparent C31_cache_same_result C31_cache_same_local"), "caches reachable by merges of one mode; mixed modes are C63. The very same context in both modes, without full context for the contexts that arise there.")
c("C32","proved", q("Antlr.StackProps.", "C32_from_rule_context C32_well_formed"), "")
c("C33","proved", q("Antlr.ConfigSetProps.", "C33_collects C33_no_duplicates_nothing_lost C33_ordered C33_frozen C33_collects_shared_cache_partial"), "with caches of one mode; the shared-cache variant is partial because of C63")
c("C36","proved", q("Antlr.PredictionModeProps.", "C36_subsets C36_sll_stop C36_sll_stop_predicates C36_single_viable C36_subsets_ok C36_exact_ambiguity C36_get_alts"), "")
c("C63","partial", q("Antlr.StackProps.", "C63_false_shared_cache C63_shared_cache_partial"), "false of the code: witness of a lost stack; what holds is the local-context reading")
c("C64","proved", q("Antlr.StackProps.", "C64_shared_context"), "")
c("C37","proved",q("Antlr.DFAProps.","C37_state_numbers C37_state_kept C37_edges C37_precedence C37_no_panic")+" Antlr.ConfigSetProps.C37_equal_sets",
  "for every history of the updates the parser simulator makes and every hash function that respects equality")
c("C54","proved",q("Antlr.TreeProps.","C54_walk_complete C54_same_events C54_leaves_in_order C54_get_children"),"")
c("C55","partial",q("Antlr.TreeProps.","C55_text C55_escape C55_shape_partial C55_false_shape"),
  "text proved; the LISP form determines the tree only if no node text contains spaces or parentheses, false otherwise")
c("C56","proved",q("Antlr.TreeProps.","C56_visit C56_all_leaves C56_stops C56_slot_empty"),"")
c("C65","proved",q("Antlr.TreeProps.","C65_tokens"),"")
c("C49","proved",q("Antlr.ParserProps.","C49_leaves C49_no_token_lost C49_channel C49_visPos C49_listeners C49_no_tree C49_conjured_silent"),
  "Tokens made up by inline recovery are leaves too; they are not announced to listeners (C49_conjured_silent).")
c("C50","partial",q("Antlr.ParserProps.","C50_call C50_start_stop_partial C50_stop_eof C50_false_stop_eof_recursive"),
  "Everything holds except that a left-recursive rule that matched EOF does not stop with EOF (C50_false_stop_eof_recursive).")
c("C51","proved",q("Antlr.ParserProps.","C51_balanced C51_precpred C51_precpred_outside C51_recursive_call"),"")
c("C52","partial",q("Antlr.ParserProps.","C52_dispatch C52_balanced_partial C52_walk C52_everyone C52_remove_partial C52_add_remove C52_false_no_alternative C52_false_operator_loop C52_false_shared_address"),
  "The code violates balance when a rule fails before its alternative is chosen and when an operator loop fails between operands; listeners with equal addresses are confused on removal.")
c("C53","proved",q("Antlr.ParserProps.","C53_count C53_told C53_listener C53_position"),"")
c("C42","partial", q("Antlr.LL1Props.","C42_terminates C42_only_reachable C42_requests_exact C42_exact_partial C42_in_context C42_in_context_terminates C42_false_wide C42_false_left_recursion"),
  "Termination and soundness for every well-formed ATN. Completeness without left recursion for the requests made, and for the set itself with narrow labels; both missing parts are shown false by witnesses (interval-set data loss; left recursion, which the ANTLR tool rewrites or rejects).")
c("C43","partial", q("Antlr.LL1Props.","C43_only_possible C43_expected_partial C43_false"),
  "Exact when the joined next-token sets are exact and join without bridging two gaps at once; a witness shows joining loses tokens otherwise.")
E = "Antlr.ErrorProps."
c("C44","partial",q(E,"C44_silent_in_recovery C44_report_starts_episode C44_one_report_per_episode C44_accepted_between_reports C44_match_reenables C44_false"),
  "Proved with 'accepted' = matched, or deleted because the token after it is expected. With matched tokens only it is false: C44_false gives two reports without a match.")
c("C45","proved",q(E,"C45_recover C45_recover_stuck C45_consume_until_terminates C45_progress C45_recovery_set_sound C45_recovery_set_exact_partial"),
  "Over every token stream that is an indexed view (CommonTokenStream is one: indexed_cts). Completeness of the recovery set is partial (interval-set data loss).")
c("C46","proved",q(E,"C46_deletes C46_inserts C46_raises C46_match_token_ok C46_match_token C46_deletion_helps C46_insertion_helps"),"")
c("C47","proved",q(E,"C47_recovering C47_expected C47_skippable C47_entry_deletes C47_entry_raises C47_loop_back C47_elsewhere"),"")
c("C48","partial",q(E,"C48_match_token_bails C48_rule_end_bails C48_unwinds C48_straight_body C48_false_recorded"),
  "The exception is not recorded: set_exception does nothing (C48_false_recorded).")
c("C66","partial",q(E,"C66_matched_is_ordinary C66_false_bail"),
  "Proved for the default strategy; false for the bail strategy, whose recovery flag is never cleared.")
X="Antlr.LexProps."
c("C20","partial",q(X,"C20_tiles C20_text C20_false_more_at_eof"),
  "Proved for every environment, input and number of calls, except that the EOF-typed token is not empty when the input ends while MORE is collecting (witness).")
c("C21","proved",q(X,"C21_line_column C21_position"),"Every token and the lexer itself between calls, for every kind of input.")
c("C22","proved",q(X,"C22_reaches_eof C22_eof_stays C22_failures_progress"),
  "Under the property's proviso that every match consumes; C69 shows when matches return and consume.")
c("C23","proved",q(X,"C23_stack C23_push_pop C23_match_uses_mode"),"")
c("C24","partial",q(X,"C24_one_token C20_tiles C24_false_override"),
  "Skip and more proved; a token set by an action is dropped and its text with it (witness).")
c("C25","partial",q("Antlr.LexPathProps.","C25_longest_match_partial C25_eager_partial C25_illegal_mode C25_type_of_rule")+" Antlr.LexTotalProps.C25_match_found_partial Antlr.LexOrder.C25_preferred_partial",
  "For every automaton without non-greedy decisions (Greedy), every input and every cache that earlier matches can have left; with non-greedy decisions the token is a match, no longer or earlier match that does without them is missed (C25_eager_partial), and it is the one preferred by the order of choices (C25_preferred_partial). Missing: hash collisions of the DFA cache, which identify different states. That the match returns is C69.")
c("C27","partial",q(X,"C27_in_order_at_positions C27_offsets")+q("Antlr.LexPathProps.","C27_path_actions_partial C27_false_offset")+" Antlr.LexOrder.C27_preferred_actions_partial",
  "Execution of an action list proved, and that the list is, up to offsets, that of the preferred way on which the chosen rule matches the token. False for offsets: an edge cached within the same match brings an old offset (witness, empty cache).")
c("C28","partial",q(X,"C28_restores C28_position C28_false_eof_panics"),
  "Restored whenever evaluation returns; at the end of input the speculative evaluation panics.")
c("C67","proved",q(X,"C67_reports"),"")
c("C26","partial",q("Antlr.LexCacheProps.","C26_type_and_end_partial C26_actions_partial C26_tokens_partial C26_false_executors C26_false_offsets"),
  "False for the code: states are identified by a hash that leaves out actions, and offsets of custom actions are baked into cached edges (two witnesses). Proved for every history of matches of any lexers sharing the cache: type and end agree when the hash tells configurations apart up to executors; actions agree up to offsets, and whole token sequences agree when custom actions ignore the position, when it tells executors apart as well. The DFA must have room below the error state number.")
c("C62", "proved", q("Antlr.DiagProps.", "C62_report C62_dispatch C62_no_panic C62_message_alts C62_message_text C62_message_decision C62_conflicting_alts"),
  "All events, all sets of listeners. The alternatives in a message are those given (readable from the text); get_conflicting_alts, which takes them from the configurations when none are given, is public but called by no one.")
c("C59","partial",q("Antlr.DeserialProps.","C59_round_trip_partial C59_label_FFFF_witness C59_complement_witness"),
  "Round trip through a serializer written from the format (not from the reader) for every well-formed automaton. Missing, because false: numbers 0xFFFE/0xFFFF outside sets (the label U+FFFF comes back as EOF) and edges for a set and its complement with the same target (the second is dropped); witnesses.")
c("C60","proved",q("Antlr.DeserialProps.","C60_returns"),"For the ATNs read back from well-formed automata: exactly one silent edge per place to return to, marked as the code's precedence filter needs it.")
c("C68","proved",q("Antlr.DeserialProps.","C68_accepted"),"All data.")
Y="Antlr.PredictionProps."
c("C38","proved",q(Y,"C38_input_restored C38_unbuffered C38_offending"),
  "Both token streams, success and error, whenever the call returns. On an error the mark taken on the stream is not released (C38_unbuffered); the position is.")
c("C39","partial",q(Y,"C39_cache_partial C39_local_partial C39_known_partial C39_again_partial C39_knows C39_stable C39_false C39_false_meaning C39_false_fallback"),
  "Every automaton (predicates and precedence included), common token streams, all histories of the cache in one prediction mode. Two caches with any histories: the same answer with the same reports, unless the prediction looks at the context (then with both, for the same reason) or no alternative is viable (then with both). Asked again, whatever comes between, a prediction agrees from the second time on, and with the first time too unless that looked at the context. Both exceptions are false for the code, with witnesses: the merge cache of the SLL phase is used again by the full-context phase (C63), which it misleads only when the DFA had to be computed (C39_false: the first answer is wrong, the second right); DFA states that differ only in reaches_into_outer_context are taken for the same, so on wrong input the alternative to fall back on depends on the cache (C39_false_fallback).")
c("C40","partial",q(Y,"C40_local_partial C40_full_partial C40_again_partial C40_valid_local C40_valid_again C40_begins C40_range C40_fallback_least C40_false C40_false_error"),
  "Automata without predicates (Plain), common token streams, all call stacks, inputs and histories of the cache. Without a look at the context the answer is right about all contexts together; after one, the answer matches in the current context; once the conflict is cached, the answer is exactly right in the current context (only, or first of those that go on alike; error only if none matches). On inputs valid in the current context both kinds of answer match in it. False as stated: the SLL phase answers for other callers (C40_false), reports an error for a rule ending in EOF that is called elsewhere (C40_false_error), and the first look at the context is misled by the merge cache (C39_false).")
c("C69","proved",q("Antlr.LexTotalProps.","C69_match_returns C69_lexing_returns C69_false_loop C69_false_empty")+" Antlr.XmlProps.C69_xml",
  "For hashes that tell configuration sets apart and DFAs with room below the error state number. Both conditions on the automaton are necessary (witnesses); predicates together with EOF edges are excluded because evaluating a predicate at the end panics (C28).")
c("C70","proved",q("Antlr.PredictionProps.","C70_returns C70_returns_pred C70_answers C70_false_loop"),
  "C70_returns_pred: with predicates and left recursion (Tame), for DFAs filled by predictions that returned, for predicates whose answers depend on nothing the prediction changes; C70_returns: without predicates (Plain), also for DFAs left by interrupted predictions. The stack of the machine is not modelled: 'returns' means with enough of it. OneStop and Unmixed are how the grammar tool builds automata (one stop state per rule, rule calls from states of their own), which is not checked here; their necessity is not proved.")
c("C71","proved",q("Antlr.GenProps.","C71_tree C71_bail C71_runtime C71_dfas calc_run calc_wrong"),
  "generated code as a syntax tree of the templates' constructs; C71_tree for any predictor that answers in range, C71_runtime for ParserATNSimulator on CommonTokenStream; tests/gen/visitorcalcparser.rs as example")
c("C72","partial",q("Antlr.GenProps.","C72_ll1 C72_ll1_iff C72_predict_partial C72_learned_new C72_sync csv_bail csv_default"),
  "complete for parsers whose choices test the next token (C72_ll1: total, C72_ll1_iff: accepts exactly the sentences; csv_bail, csv_default: tests/gen/csvparser.rs for all inputs); with adaptive_predict (C72_predict_partial) for parses that return and whose predictions needed no context. Missing: predictions with context (C40 is false), left-recursive rules, predicates")
c("C73","proved",q("Antlr.PredictionProps.","C73_range C73_cached"),
  "for all ATNs, with predicates and precedence, and all histories of the DFA; decisions with fewer than 2^64 alternatives")
c("C74","proved",q("Antlr.Conc.","C74_serial C74_rest C74_thread"),
  "for all schedules and panics; locks as parking_lot documents them; callbacks take locks in order and do not change the token stream of the prediction they run in")
c("C75","partial",q("Antlr.Conc.","C75_progress C75_finite C75_ends C75_false_nested"),
  "false without an order of locks: a callback that starts a prediction of the same decision waits for itself (C75_false_nested); otherwise for all schedules and panics; loops are bounded in the model")
c("C76","partial",q("Antlr.Conc.","C76_range C76_alone C76_local_partial C76_tokens_partial"),
  "the range of answers and their being answers of a parser alone in full; what they mean is partial like C40 and C26 (contexts; hash collisions and actions)")
c("C77","partial",q("Antlr.GenProps.","C77_returns_partial C77_session_partial C77_parser_partial C77_predicts_partial C77_predicts_new_partial C77_tame_partial C77_tame_new_partial C77_csv C77_ref C77_calc C77_labels C77_slr C77_basic C77_false_twice C77_false_eof_loop C77_eof_not_prompt")+q("","Antlr.StaleProps.C77_false_leftrec Antlr.WeakProps.C77_false_freed"),
  "for parsers that satisfy Prompt (checked by computation), any histories, both strategies, no panics; with adaptive_predict (C77_predicts_partial) on automata without predicates, with C77_tame_partial also with predicates and, for the bail strategy, left-recursive rules (C77_calc, C77_labels, C77_slr: visitorcalcparser.rs, labelsparser.rs, simplelrparser.rs), as long as no DFA has B states, for any B for which state numbers fit into usize; C77_csv, C77_ref and C77_basic: tests/gen/csvparser.rs, referencetoatnparser.rs and visitorbasicparser.rs on all inputs; false for loops over EOF (C77_false_eof_loop), for left-recursive rules with the default strategy (C77_false_leftrec: a panic), for any call after a left-recursive rule was called from outside (C77_false_twice: a panic), and without trees (C77_false_freed: a panic; the other theorems suppose that contexts are kept). Missing: conditions under which left-recursive rules return with the default strategy")
c("C78","partial",q("Antlr.EndProps.","C78_source C78_ref C78_basic C78_labels C78_slr C78_csv_partial C78_calc_partial C78_false_blank"),
  "C78_source: every lexer under the conditions of C69; C78_ref, C78_basic: ReferenceToATN and VisitorBasic, every text, both strategies; C78_labels, C78_slr: Labels and SimpleLR, every text, bail strategy; C78_csv_partial, C78_calc_partial: CSV and VisitorCalc (bail), texts that do not begin with a hidden token; false for texts that do (C78_false_blank). Missing: what C77 misses")
c("C79","partial",q("Antlr.LexLazy.","C79_lazy_ends_partial C79_lazy_found_partial")+" "+q("Antlr.XmlProps.","C79_xml_partial C79_xml_found_partial C79_xml_token_partial C79_xml_skip_partial C79_xml_run_partial C79_xml_document_partial C79_xml_pieces"),
  "every automaton with a rule of this form (lazyCheck), every text and every cache left by matches; missing: caches whose hash collides (C26). C79_xml_partial, C79_xml_found_partial: COMMENT, CDATA and DTD of tests/gen/xmllexer.rs, both directions. C79_xml_token_partial, C79_xml_skip_partial: the next token is the comment or CDATA section, a declaration is skipped. C79_xml_run_partial: character data up to & or < is one token, SEA_WS or TEXT. C79_xml_document_partial: a text of such pieces gives exactly the tokens of its character data, comments and CDATA sections and EOF (tags and references are not covered). C79_xml_pieces: a text is made of such pieces in one way only.")
c("C80","partial",q("Antlr.PrintProps.","C80_lexer_prints C80_lexer_read C80_lexer_follows C80_parser_plain C80_parser_prints_partial C80_parser_follows C80_parser_labels C80_parser_read C80_parser_panics C80_precedence_label"),
  "lexers in full; parsers of grammars without predicates and precedences (C80_parser_plain), others as long as no arrow meets an accepting state with predicates (C80_parser_prints_partial); texts of parser DFAs outside left-recursive rules can be read back if display names can be told apart before '->' (C80_parser_read). False otherwise: to_string panics (C80_parser_panics, with a grammar in an example), and in left-recursive rules precedences are printed as token types (C80_precedence_label)")
c("C81","partial",q("Antlr.XmlProps.","C81_xml_open_partial"),
  "every text, position, mode stack and cache left by matches; missing: caches whose hash collides (C26)")
c("C82","partial",q("Antlr.XmlProps.","C82_xml_close_partial"),
  "every text, position, mode stack and cache left by matches; missing: caches whose hash collides (C26)")
c("C83","partial",q("Antlr.XmlProps.","C83_xml_string_partial"),
  "every value, text, position, mode stack and cache left by matches; missing: caches whose hash collides (C26)")
claims.sort(key=lambda x: x["property"])
json.dump({"claims": claims}, open(os.path.join(HERE, "..", "MANIFEST.json"), "w"), indent=1, ensure_ascii=False)
print(len(claims), "claims")
