{
 "claims": [
  {
   "property": "C01",
   "status": "partial",
   "theorems": [
    "Antlr.IntervalProps.C01_contains_only_added",
    "Antlr.IntervalProps.C01_contains_iff_added_partial",
    "Antlr.IntervalProps.C01_containsNew_iff_added_partial",
    "Antlr.IntervalProps.C01_add_one_history",
    "Antlr.IntervalProps.C01_add_set_copies",
    "Antlr.IntervalProps.C01_false_contains",
    "Antlr.IntervalProps.C01_false_lost"
   ],
   "note": "The statement is false for the code: the merge loop of add_interval skips intervals (two witnesses). Soundness holds for all histories, exactness for histories in which each range bridges at most one gap (includes all add_one histories and copying a set)."
  },
  {
   "property": "C02",
   "status": "partial",
   "theorems": [
    "Antlr.IntervalProps.C02_canonical_partial",
    "Antlr.IntervalProps.C02_add_one_canonical",
    "Antlr.IntervalProps.C02_length_counts",
    "Antlr.IntervalProps.C02_eq_of_same_members",
    "Antlr.IntervalProps.C02_false"
   ],
   "note": "False in general (same bug as C01, witness); invariant proved for gentle histories; length and equality proved for all sorted/canonical sets."
  },
  {
   "property": "C03",
   "status": "proved",
   "theorems": [
    "Antlr.IntervalProps.C03_substract",
    "Antlr.IntervalProps.C03_substract_canonical"
   ],
   "note": "For all sorted disjoint sets."
  },
  {
   "property": "C04",
   "status": "proved",
   "theorems": [
    "Antlr.IntervalProps.C04_complement",
    "Antlr.IntervalProps.C04_complement_canonical",
    "Antlr.IntervalProps.C04_complement_twice"
   ],
   "note": ""
  },
  {
   "property": "C05",
   "status": "proved",
   "theorems": [
    "Antlr.IntervalProps.C05_remove_one",
    "Antlr.IntervalProps.C05_remove_one_read_only",
    "Antlr.IntervalProps.C05_remove_one_sound"
   ],
   "note": ""
  },
  {
   "property": "C06",
   "status": "proved",
   "theorems": [
    "Antlr.IntervalProps.C06_contains",
    "Antlr.IntervalProps.C06_get_min",
    "Antlr.IntervalProps.C06_to_token_string"
   ],
   "note": "Both versions of the std binary search."
  },
  {
   "property": "C07",
   "status": "proved",
   "theorems": [
    "Antlr.InputProps.C07_la_forward",
    "Antlr.InputProps.C07_la_backward",
    "Antlr.InputProps.C07_la_zero",
    "Antlr.InputProps.C07_consume"
   ],
   "note": ""
  },
  {
   "property": "C08",
   "status": "proved",
   "theorems": [
    "Antlr.InputProps.C08_la_forward",
    "Antlr.InputProps.C08_la_backward",
    "Antlr.InputProps.C08_consume",
    "Antlr.InputProps.C08_read_all"
   ],
   "note": "UTF-8 layout via Char.utf8Size; str slicing/boundary functions of std are modelled by their documentation."
  },
  {
   "property": "C09",
   "status": "proved",
   "theorems": [
    "Antlr.InputProps.C09_units",
    "Antlr.InputProps.C09_str",
    "Antlr.InputProps.C09_str_empty",
    "Antlr.InputProps.C09_str_concat"
   ],
   "note": ""
  },
  {
   "property": "C10",
   "status": "proved",
   "theorems": [
    "Antlr.InputProps.C10_seek_restores"
   ],
   "note": ""
  },
  {
   "property": "C11",
   "status": "partial",
   "theorems": [
    "Antlr.InputProps.C11_iter_next_partial",
    "Antlr.InputProps.C11_false_panics_at_end",
    "Antlr.InputProps.C11_false_panics_at_end_units",
    "Antlr.TokenProps.C11_false_token_stream"
   ],
   "note": "False for the code: the wrapper consumes before it tests for EOF, so it panics at the end of every stream. Proved: every symbol before the end is yielded in order."
  },
  {
   "property": "C12",
   "status": "proved",
   "theorems": [
    "Antlr.TokenProps.C12_tokens_of_source",
    "Antlr.TokenProps.C12_token_iter"
   ],
   "note": "Token source = finite token list followed by EOF for ever."
  },
  {
   "property": "C13",
   "status": "partial",
   "theorems": [
    "Antlr.TokenProps.C13_lookahead_keeps_index",
    "Antlr.TokenProps.C13_lt_forward_partial",
    "Antlr.TokenProps.C13_consume",
    "Antlr.TokenProps.C13_false_beyond_eof",
    "Antlr.TokenProps.C13_false_look_behind"
   ],
   "note": "Beyond EOF the unbuffered stream answers None / type 0 instead of EOF (proved for every state standing at EOF). All other parts hold for all reachable states."
  },
  {
   "property": "C14",
   "status": "proved",
   "theorems": [
    "Antlr.TokenProps.C14_backtracking"
   ],
   "note": "All well-nested histories (any nesting, outer markers allowed)."
  },
  {
   "property": "C15",
   "status": "proved",
   "theorems": [
    "Antlr.TokenProps.C15_interval_text"
   ],
   "note": ""
  },
  {
   "property": "C16",
   "status": "partial",
   "theorems": [
    "Antlr.CommonProps.C16_on_channel_partial",
    "Antlr.CommonProps.C16_false"
   ],
   "note": "False at index 0: the constructor does not advance to the first on-channel token. Holds in every other reachable state, and everywhere if the first token is on channel."
  },
  {
   "property": "C17",
   "status": "proved",
   "theorems": [
    "Antlr.CommonProps.C17_delivers_all",
    "Antlr.CommonProps.C17_consume",
    "Antlr.CommonProps.C17_lookahead_is_future"
   ],
   "note": "The exception of C16 (first token delivered even if off channel) is explicit in the statement."
  },
  {
   "property": "C18",
   "status": "partial",
   "theorems": [
    "Antlr.CommonProps.C18_look_behind_partial",
    "Antlr.CommonProps.C18_false_first",
    "Antlr.CommonProps.C18_false_panic"
   ],
   "note": "False when fewer than k on-channel tokens precede: answers token 0 or panics (witnesses). Exact whenever k on-channel tokens precede."
  },
  {
   "property": "C19",
   "status": "proved",
   "theorems": [
    "Antlr.CommonProps.C19_seek_recorded",
    "Antlr.CommonProps.C19_position_determines"
   ],
   "note": ""
  },
  {
   "property": "C20",
   "status": "partial",
   "theorems": [
    "Antlr.LexProps.C20_tiles",
    "Antlr.LexProps.C20_text",
    "Antlr.LexProps.C20_false_more_at_eof"
   ],
   "note": "Proved for every environment, input and number of calls, except that the EOF-typed token is not empty when the input ends while MORE is collecting (witness)."
  },
  {
   "property": "C21",
   "status": "proved",
   "theorems": [
    "Antlr.LexProps.C21_line_column",
    "Antlr.LexProps.C21_position"
   ],
   "note": "Every token and the lexer itself between calls, for every kind of input."
  },
  {
   "property": "C22",
   "status": "proved",
   "theorems": [
    "Antlr.LexProps.C22_reaches_eof",
    "Antlr.LexProps.C22_eof_stays",
    "Antlr.LexProps.C22_failures_progress"
   ],
   "note": "Under the property's proviso that every match consumes; C69 shows when matches return and consume."
  },
  {
   "property": "C23",
   "status": "proved",
   "theorems": [
    "Antlr.LexProps.C23_stack",
    "Antlr.LexProps.C23_push_pop",
    "Antlr.LexProps.C23_match_uses_mode"
   ],
   "note": ""
  },
  {
   "property": "C24",
   "status": "partial",
   "theorems": [
    "Antlr.LexProps.C24_one_token",
    "Antlr.LexProps.C20_tiles",
    "Antlr.LexProps.C24_false_override"
   ],
   "note": "Skip and more proved; a token set by an action is dropped and its text with it (witness)."
  },
  {
   "property": "C25",
   "status": "partial",
   "theorems": [
    "Antlr.LexPathProps.C25_longest_match_partial",
    "Antlr.LexPathProps.C25_eager_partial",
    "Antlr.LexPathProps.C25_illegal_mode",
    "Antlr.LexPathProps.C25_type_of_rule",
    "Antlr.LexTotalProps.C25_match_found_partial",
    "Antlr.LexOrder.C25_preferred_partial"
   ],
   "note": "For every automaton without non-greedy decisions (Greedy), every input and every cache that earlier matches can have left; with non-greedy decisions the token is a match, no longer or earlier match that does without them is missed (C25_eager_partial), and it is the one preferred by the order of choices (C25_preferred_partial). Missing: hash collisions of the DFA cache, which identify different states. That the match returns is C69."
  },
  {
   "property": "C26",
   "status": "partial",
   "theorems": [
    "Antlr.LexCacheProps.C26_type_and_end_partial",
    "Antlr.LexCacheProps.C26_actions_partial",
    "Antlr.LexCacheProps.C26_tokens_partial",
    "Antlr.LexCacheProps.C26_false_executors",
    "Antlr.LexCacheProps.C26_false_offsets"
   ],
   "note": "False for the code: states are identified by a hash that leaves out actions, and offsets of custom actions are baked into cached edges (two witnesses). Proved for every history of matches of any lexers sharing the cache: type and end agree when the hash tells configurations apart up to executors; actions agree up to offsets, and whole token sequences agree when custom actions ignore the position, when it tells executors apart as well. The DFA must have room below the error state number."
  },
  {
   "property": "C27",
   "status": "partial",
   "theorems": [
    "Antlr.LexProps.C27_in_order_at_positions",
    "Antlr.LexProps.C27_offsets",
    "Antlr.LexPathProps.C27_path_actions_partial",
    "Antlr.LexPathProps.C27_false_offset",
    "Antlr.LexOrder.C27_preferred_actions_partial"
   ],
   "note": "Execution of an action list proved, and that the list is, up to offsets, that of the preferred way on which the chosen rule matches the token. False for offsets: an edge cached within the same match brings an old offset (witness, empty cache)."
  },
  {
   "property": "C28",
   "status": "partial",
   "theorems": [
    "Antlr.LexProps.C28_restores",
    "Antlr.LexProps.C28_position",
    "Antlr.LexProps.C28_false_eof_panics"
   ],
   "note": "Restored whenever evaluation returns; at the end of input the speculative evaluation panics."
  },
  {
   "property": "C29",
   "status": "proved",
   "theorems": [
    "Antlr.StackProps.C29_merge_full",
    "Antlr.StackProps.C29_merge_local",
    "Antlr.StackProps.C29_canonical",
    "Antlr.StackProps.C29_merge_comm",
    "Antlr.StackProps.C29_merge_assoc",
    "Antlr.StackProps.C29_has_empty_path"
   ],
   "note": "both modes; full-context merges are also commutative, associative and canonical"
  },
  {
   "property": "C30",
   "status": "proved",
   "theorems": [
    "Antlr.StackProps.C30_merge_wf",
    "Antlr.StackProps.C30_illformed_panics"
   ],
   "note": "both modes"
  },
  {
   "property": "C31",
   "status": "proved",
   "theorems": [
    "Antlr.StackProps.C31_cache_transparent",
    "Antlr.StackProps.C31_cache_same_result",
    "Antlr.StackProps.C31_cache_same_local"
   ],
   "note": "caches reachable by merges of one mode; mixed modes are C63. The very same context in both modes, without full context for the contexts that arise there."
  },
  {
   "property": "C32",
   "status": "proved",
   "theorems": [
    "Antlr.StackProps.C32_from_rule_context",
    "Antlr.StackProps.C32_well_formed"
   ],
   "note": ""
  },
  {
   "property": "C33",
   "status": "proved",
   "theorems": [
    "Antlr.ConfigSetProps.C33_collects",
    "Antlr.ConfigSetProps.C33_no_duplicates_nothing_lost",
    "Antlr.ConfigSetProps.C33_ordered",
    "Antlr.ConfigSetProps.C33_frozen",
    "Antlr.ConfigSetProps.C33_collects_shared_cache_partial"
   ],
   "note": "with caches of one mode; the shared-cache variant is partial because of C63"
  },
  {
   "property": "C34",
   "status": "proved",
   "theorems": [
    "Antlr.SemProps.C34_evaluate",
    "Antlr.SemProps.C34_and",
    "Antlr.SemProps.C34_or",
    "Antlr.SemProps.C34_units"
   ],
   "note": "For every iteration order of the hash sets; assumes sempred answers true for the rule index -1 of NONE (the generated default)."
  },
  {
   "property": "C35",
   "status": "partial",
   "theorems": [
    "Antlr.SemProps.C35_sound",
    "Antlr.SemProps.C35_complete_partial",
    "Antlr.SemProps.C35_false_raw",
    "Antlr.SemProps.C35_false_built"
   ],
   "note": "Soundness proved for every expression. Completeness is false for raw nested values (inverted comparison in eval_precedence, witnesses); proved for predicates built by and/or from precedence tests."
  },
  {
   "property": "C36",
   "status": "proved",
   "theorems": [
    "Antlr.PredictionModeProps.C36_subsets",
    "Antlr.PredictionModeProps.C36_sll_stop",
    "Antlr.PredictionModeProps.C36_sll_stop_predicates",
    "Antlr.PredictionModeProps.C36_single_viable",
    "Antlr.PredictionModeProps.C36_subsets_ok",
    "Antlr.PredictionModeProps.C36_exact_ambiguity",
    "Antlr.PredictionModeProps.C36_get_alts"
   ],
   "note": ""
  },
  {
   "property": "C37",
   "status": "proved",
   "theorems": [
    "Antlr.DFAProps.C37_state_numbers",
    "Antlr.DFAProps.C37_state_kept",
    "Antlr.DFAProps.C37_edges",
    "Antlr.DFAProps.C37_precedence",
    "Antlr.DFAProps.C37_no_panic",
    "Antlr.ConfigSetProps.C37_equal_sets"
   ],
   "note": "for every history of the updates the parser simulator makes and every hash function that respects equality"
  },
  {
   "property": "C38",
   "status": "proved",
   "theorems": [
    "Antlr.PredictionProps.C38_input_restored",
    "Antlr.PredictionProps.C38_unbuffered",
    "Antlr.PredictionProps.C38_offending"
   ],
   "note": "Both token streams, success and error, whenever the call returns. On an error the mark taken on the stream is not released (C38_unbuffered); the position is."
  },
  {
   "property": "C39",
   "status": "partial",
   "theorems": [
    "Antlr.PredictionProps.C39_cache_partial",
    "Antlr.PredictionProps.C39_local_partial",
    "Antlr.PredictionProps.C39_known_partial",
    "Antlr.PredictionProps.C39_again_partial",
    "Antlr.PredictionProps.C39_knows",
    "Antlr.PredictionProps.C39_stable",
    "Antlr.PredictionProps.C39_false",
    "Antlr.PredictionProps.C39_false_meaning",
    "Antlr.PredictionProps.C39_false_fallback"
   ],
   "note": "Every automaton (predicates and precedence included), common token streams, all histories of the cache in one prediction mode. Two caches with any histories: the same answer with the same reports, unless the prediction looks at the context (then with both, for the same reason) or no alternative is viable (then with both). Asked again, whatever comes between, a prediction agrees from the second time on, and with the first time too unless that looked at the context. Both exceptions are false for the code, with witnesses: the merge cache of the SLL phase is used again by the full-context phase (C63), which it misleads only when the DFA had to be computed (C39_false: the first answer is wrong, the second right); DFA states that differ only in reaches_into_outer_context are taken for the same, so on wrong input the alternative to fall back on depends on the cache (C39_false_fallback)."
  },
  {
   "property": "C40",
   "status": "partial",
   "theorems": [
    "Antlr.PredictionProps.C40_local_partial",
    "Antlr.PredictionProps.C40_full_partial",
    "Antlr.PredictionProps.C40_again_partial",
    "Antlr.PredictionProps.C40_valid_local",
    "Antlr.PredictionProps.C40_valid_again",
    "Antlr.PredictionProps.C40_begins",
    "Antlr.PredictionProps.C40_range",
    "Antlr.PredictionProps.C40_fallback_least",
    "Antlr.PredictionProps.C40_false",
    "Antlr.PredictionProps.C40_false_error"
   ],
   "note": "Automata without predicates (Plain), common token streams, all call stacks, inputs and histories of the cache. Without a look at the context the answer is right about all contexts together; after one, the answer matches in the current context; once the conflict is cached, the answer is exactly right in the current context (only, or first of those that go on alike; error only if none matches). On inputs valid in the current context both kinds of answer match in it. False as stated: the SLL phase answers for other callers (C40_false), reports an error for a rule ending in EOF that is called elsewhere (C40_false_error), and the first look at the context is misled by the merge cache (C39_false)."
  },
  {
   "property": "C41",
   "status": "partial",
   "theorems": [
    "Antlr.TransitionProps.C41_matches_partial",
    "Antlr.TransitionProps.C41_wildcard_within",
    "Antlr.TransitionProps.C41_false_wildcard",
    "Antlr.TransitionProps.C41_epsilon",
    "Antlr.TransitionProps.C41_epsilon_iff",
    "Antlr.TransitionProps.C41_rule_panics",
    "Antlr.TransitionProps.C41_label"
   ],
   "note": "False for the wildcard at both ends of the vocabulary (strict comparisons). Exact for all other edges and symbols; asking a rule edge panics."
  },
  {
   "property": "C42",
   "status": "partial",
   "theorems": [
    "Antlr.LL1Props.C42_terminates",
    "Antlr.LL1Props.C42_only_reachable",
    "Antlr.LL1Props.C42_requests_exact",
    "Antlr.LL1Props.C42_exact_partial",
    "Antlr.LL1Props.C42_in_context",
    "Antlr.LL1Props.C42_in_context_terminates",
    "Antlr.LL1Props.C42_false_wide",
    "Antlr.LL1Props.C42_false_left_recursion"
   ],
   "note": "Termination and soundness for every well-formed ATN. Completeness without left recursion for the requests made, and for the set itself with narrow labels; both missing parts are shown false by witnesses (interval-set data loss; left recursion, which the ANTLR tool rewrites or rejects)."
  },
  {
   "property": "C43",
   "status": "partial",
   "theorems": [
    "Antlr.LL1Props.C43_only_possible",
    "Antlr.LL1Props.C43_expected_partial",
    "Antlr.LL1Props.C43_false"
   ],
   "note": "Exact when the joined next-token sets are exact and join without bridging two gaps at once; a witness shows joining loses tokens otherwise."
  },
  {
   "property": "C44",
   "status": "partial",
   "theorems": [
    "Antlr.ErrorProps.C44_silent_in_recovery",
    "Antlr.ErrorProps.C44_report_starts_episode",
    "Antlr.ErrorProps.C44_one_report_per_episode",
    "Antlr.ErrorProps.C44_accepted_between_reports",
    "Antlr.ErrorProps.C44_match_reenables",
    "Antlr.ErrorProps.C44_false"
   ],
   "note": "Proved with 'accepted' = matched, or deleted because the token after it is expected. With matched tokens only it is false: C44_false gives two reports without a match."
  },
  {
   "property": "C45",
   "status": "proved",
   "theorems": [
    "Antlr.ErrorProps.C45_recover",
    "Antlr.ErrorProps.C45_recover_stuck",
    "Antlr.ErrorProps.C45_consume_until_terminates",
    "Antlr.ErrorProps.C45_progress",
    "Antlr.ErrorProps.C45_recovery_set_sound",
    "Antlr.ErrorProps.C45_recovery_set_exact_partial"
   ],
   "note": "Over every token stream that is an indexed view (CommonTokenStream is one: indexed_cts). Completeness of the recovery set is partial (interval-set data loss)."
  },
  {
   "property": "C46",
   "status": "proved",
   "theorems": [
    "Antlr.ErrorProps.C46_deletes",
    "Antlr.ErrorProps.C46_inserts",
    "Antlr.ErrorProps.C46_raises",
    "Antlr.ErrorProps.C46_match_token_ok",
    "Antlr.ErrorProps.C46_match_token",
    "Antlr.ErrorProps.C46_deletion_helps",
    "Antlr.ErrorProps.C46_insertion_helps"
   ],
   "note": ""
  },
  {
   "property": "C47",
   "status": "proved",
   "theorems": [
    "Antlr.ErrorProps.C47_recovering",
    "Antlr.ErrorProps.C47_expected",
    "Antlr.ErrorProps.C47_skippable",
    "Antlr.ErrorProps.C47_entry_deletes",
    "Antlr.ErrorProps.C47_entry_raises",
    "Antlr.ErrorProps.C47_loop_back",
    "Antlr.ErrorProps.C47_elsewhere"
   ],
   "note": ""
  },
  {
   "property": "C48",
   "status": "partial",
   "theorems": [
    "Antlr.ErrorProps.C48_match_token_bails",
    "Antlr.ErrorProps.C48_rule_end_bails",
    "Antlr.ErrorProps.C48_unwinds",
    "Antlr.ErrorProps.C48_straight_body",
    "Antlr.ErrorProps.C48_false_recorded"
   ],
   "note": "The exception is not recorded: set_exception does nothing (C48_false_recorded)."
  },
  {
   "property": "C49",
   "status": "proved",
   "theorems": [
    "Antlr.ParserProps.C49_leaves",
    "Antlr.ParserProps.C49_no_token_lost",
    "Antlr.ParserProps.C49_channel",
    "Antlr.ParserProps.C49_visPos",
    "Antlr.ParserProps.C49_listeners",
    "Antlr.ParserProps.C49_no_tree",
    "Antlr.ParserProps.C49_conjured_silent"
   ],
   "note": "Tokens made up by inline recovery are leaves too; they are not announced to listeners (C49_conjured_silent)."
  },
  {
   "property": "C50",
   "status": "partial",
   "theorems": [
    "Antlr.ParserProps.C50_call",
    "Antlr.ParserProps.C50_start_stop_partial",
    "Antlr.ParserProps.C50_stop_eof",
    "Antlr.ParserProps.C50_false_stop_eof_recursive"
   ],
   "note": "Everything holds except that a left-recursive rule that matched EOF does not stop with EOF (C50_false_stop_eof_recursive)."
  },
  {
   "property": "C51",
   "status": "proved",
   "theorems": [
    "Antlr.ParserProps.C51_balanced",
    "Antlr.ParserProps.C51_precpred",
    "Antlr.ParserProps.C51_precpred_outside",
    "Antlr.ParserProps.C51_recursive_call"
   ],
   "note": ""
  },
  {
   "property": "C52",
   "status": "partial",
   "theorems": [
    "Antlr.ParserProps.C52_dispatch",
    "Antlr.ParserProps.C52_balanced_partial",
    "Antlr.ParserProps.C52_walk",
    "Antlr.ParserProps.C52_everyone",
    "Antlr.ParserProps.C52_remove_partial",
    "Antlr.ParserProps.C52_add_remove",
    "Antlr.ParserProps.C52_false_no_alternative",
    "Antlr.ParserProps.C52_false_operator_loop",
    "Antlr.ParserProps.C52_false_shared_address"
   ],
   "note": "The code violates balance when a rule fails before its alternative is chosen and when an operator loop fails between operands; listeners with equal addresses are confused on removal."
  },
  {
   "property": "C53",
   "status": "proved",
   "theorems": [
    "Antlr.ParserProps.C53_count",
    "Antlr.ParserProps.C53_told",
    "Antlr.ParserProps.C53_listener",
    "Antlr.ParserProps.C53_position"
   ],
   "note": ""
  },
  {
   "property": "C54",
   "status": "proved",
   "theorems": [
    "Antlr.TreeProps.C54_walk_complete",
    "Antlr.TreeProps.C54_same_events",
    "Antlr.TreeProps.C54_leaves_in_order",
    "Antlr.TreeProps.C54_get_children"
   ],
   "note": ""
  },
  {
   "property": "C55",
   "status": "partial",
   "theorems": [
    "Antlr.TreeProps.C55_text",
    "Antlr.TreeProps.C55_escape",
    "Antlr.TreeProps.C55_shape_partial",
    "Antlr.TreeProps.C55_false_shape"
   ],
   "note": "text proved; the LISP form determines the tree only if no node text contains spaces or parentheses, false otherwise"
  },
  {
   "property": "C56",
   "status": "proved",
   "theorems": [
    "Antlr.TreeProps.C56_visit",
    "Antlr.TreeProps.C56_all_leaves",
    "Antlr.TreeProps.C56_stops",
    "Antlr.TreeProps.C56_slot_empty"
   ],
   "note": ""
  },
  {
   "property": "C57",
   "status": "proved",
   "theorems": [
    "Antlr.VocabularyProps.C57_literal",
    "Antlr.VocabularyProps.C57_symbolic",
    "Antlr.VocabularyProps.C57_display",
    "Antlr.VocabularyProps.C57_eof",
    "Antlr.VocabularyProps.C57_max",
    "Antlr.VocabularyProps.C57_from_token_names"
   ],
   "note": "char::is_uppercase is a parameter; tables respect the size limit of Rust vectors."
  },
  {
   "property": "C58",
   "status": "partial",
   "theorems": [
    "Antlr.DecodeProps.C58_encodable",
    "Antlr.DecodeProps.C58_decode_partial",
    "Antlr.DecodeProps.C58_decode_u16",
    "Antlr.DecodeProps.C58_false"
   ],
   "note": "False for the values 0xFFFE and 0xFFFF (decoded to -2 and -1); exact for all others and for all values read as u16."
  },
  {
   "property": "C59",
   "status": "partial",
   "theorems": [
    "Antlr.DeserialProps.C59_round_trip_partial",
    "Antlr.DeserialProps.C59_label_FFFF_witness",
    "Antlr.DeserialProps.C59_complement_witness"
   ],
   "note": "Round trip through a serializer written from the format (not from the reader) for every well-formed automaton. Missing, because false: numbers 0xFFFE/0xFFFF outside sets (the label U+FFFF comes back as EOF) and edges for a set and its complement with the same target (the second is dropped); witnesses."
  },
  {
   "property": "C60",
   "status": "proved",
   "theorems": [
    "Antlr.DeserialProps.C60_returns"
   ],
   "note": "For the ATNs read back from well-formed automata: exactly one silent edge per place to return to, marked as the code's precedence filter needs it."
  },
  {
   "property": "C61",
   "status": "proved",
   "theorems": [
    "Antlr.TokenFactoryProps.C61_fields",
    "Antlr.TokenFactoryProps.C61_override",
    "Antlr.TokenFactoryProps.C61_slice",
    "Antlr.TokenFactoryProps.C61_empty",
    "Antlr.TokenFactoryProps.C61_past_end",
    "Antlr.TokenFactoryProps.C61_eof_text",
    "Antlr.TokenFactoryProps.C61_to_owned",
    "Antlr.TokenFactoryProps.C61_display_one_line"
   ],
   "note": "Common/Owning token factories on str streams."
  },
  {
   "property": "C62",
   "status": "proved",
   "theorems": [
    "Antlr.DiagProps.C62_report",
    "Antlr.DiagProps.C62_dispatch",
    "Antlr.DiagProps.C62_no_panic",
    "Antlr.DiagProps.C62_message_alts",
    "Antlr.DiagProps.C62_message_text",
    "Antlr.DiagProps.C62_message_decision",
    "Antlr.DiagProps.C62_conflicting_alts"
   ],
   "note": "All events, all sets of listeners. The alternatives in a message are those given (readable from the text); get_conflicting_alts, which takes them from the configurations when none are given, is public but called by no one."
  },
  {
   "property": "C63",
   "status": "partial",
   "theorems": [
    "Antlr.StackProps.C63_false_shared_cache",
    "Antlr.StackProps.C63_shared_cache_partial"
   ],
   "note": "false of the code: witness of a lost stack; what holds is the local-context reading"
  },
  {
   "property": "C64",
   "status": "proved",
   "theorems": [
    "Antlr.StackProps.C64_shared_context"
   ],
   "note": ""
  },
  {
   "property": "C65",
   "status": "proved",
   "theorems": [
    "Antlr.TreeProps.C65_tokens"
   ],
   "note": ""
  },
  {
   "property": "C66",
   "status": "partial",
   "theorems": [
    "Antlr.ErrorProps.C66_matched_is_ordinary",
    "Antlr.ErrorProps.C66_false_bail"
   ],
   "note": "Proved for the default strategy; false for the bail strategy, whose recovery flag is never cleared."
  },
  {
   "property": "C67",
   "status": "proved",
   "theorems": [
    "Antlr.LexProps.C67_reports"
   ],
   "note": ""
  },
  {
   "property": "C68",
   "status": "proved",
   "theorems": [
    "Antlr.DeserialProps.C68_accepted"
   ],
   "note": "All data."
  },
  {
   "property": "C69",
   "status": "proved",
   "theorems": [
    "Antlr.LexTotalProps.C69_match_returns",
    "Antlr.LexTotalProps.C69_lexing_returns",
    "Antlr.LexTotalProps.C69_false_loop",
    "Antlr.LexTotalProps.C69_false_empty",
    "Antlr.XmlProps.C69_xml"
   ],
   "note": "For hashes that tell configuration sets apart and DFAs with room below the error state number. Both conditions on the automaton are necessary (witnesses); predicates together with EOF edges are excluded because evaluating a predicate at the end panics (C28)."
  },
  {
   "property": "C70",
   "status": "proved",
   "theorems": [
    "Antlr.PredictionProps.C70_returns",
    "Antlr.PredictionProps.C70_returns_pred",
    "Antlr.PredictionProps.C70_answers",
    "Antlr.PredictionProps.C70_false_loop"
   ],
   "note": "C70_returns_pred: with predicates and left recursion (Tame), for DFAs filled by predictions that returned, for predicates whose answers depend on nothing the prediction changes; C70_returns: without predicates (Plain), also for DFAs left by interrupted predictions. The stack of the machine is not modelled: 'returns' means with enough of it. OneStop and Unmixed are how the grammar tool builds automata (one stop state per rule, rule calls from states of their own), which is not checked here; their necessity is not proved."
  },
  {
   "property": "C71",
   "status": "proved",
   "theorems": [
    "Antlr.GenProps.C71_tree",
    "Antlr.GenProps.C71_bail",
    "Antlr.GenProps.C71_runtime",
    "Antlr.GenProps.C71_dfas",
    "Antlr.GenProps.calc_run",
    "Antlr.GenProps.calc_wrong"
   ],
   "note": "generated code as a syntax tree of the templates' constructs; C71_tree for any predictor that answers in range, C71_runtime for ParserATNSimulator on CommonTokenStream; tests/gen/visitorcalcparser.rs as example"
  },
  {
   "property": "C72",
   "status": "partial",
   "theorems": [
    "Antlr.GenProps.C72_ll1",
    "Antlr.GenProps.C72_ll1_iff",
    "Antlr.GenProps.C72_predict_partial",
    "Antlr.GenProps.C72_learned_new",
    "Antlr.GenProps.C72_sync",
    "Antlr.GenProps.csv_bail",
    "Antlr.GenProps.csv_default"
   ],
   "note": "complete for parsers whose choices test the next token (C72_ll1: total, C72_ll1_iff: accepts exactly the sentences; csv_bail, csv_default: tests/gen/csvparser.rs for all inputs); with adaptive_predict (C72_predict_partial) for parses that return and whose predictions needed no context. Missing: predictions with context (C40 is false), left-recursive rules, predicates"
  },
  {
   "property": "C73",
   "status": "proved",
   "theorems": [
    "Antlr.PredictionProps.C73_range",
    "Antlr.PredictionProps.C73_cached"
   ],
   "note": "for all ATNs, with predicates and precedence, and all histories of the DFA; decisions with fewer than 2^64 alternatives"
  },
  {
   "property": "C74",
   "status": "proved",
   "theorems": [
    "Antlr.Conc.C74_serial",
    "Antlr.Conc.C74_rest",
    "Antlr.Conc.C74_thread"
   ],
   "note": "for all schedules and panics; locks as parking_lot documents them; callbacks take locks in order and do not change the token stream of the prediction they run in"
  },
  {
   "property": "C75",
   "status": "partial",
   "theorems": [
    "Antlr.Conc.C75_progress",
    "Antlr.Conc.C75_finite",
    "Antlr.Conc.C75_ends",
    "Antlr.Conc.C75_false_nested"
   ],
   "note": "false without an order of locks: a callback that starts a prediction of the same decision waits for itself (C75_false_nested); otherwise for all schedules and panics; loops are bounded in the model"
  },
  {
   "property": "C76",
   "status": "partial",
   "theorems": [
    "Antlr.Conc.C76_range",
    "Antlr.Conc.C76_alone",
    "Antlr.Conc.C76_local_partial",
    "Antlr.Conc.C76_tokens_partial"
   ],
   "note": "the range of answers and their being answers of a parser alone in full; what they mean is partial like C40 and C26 (contexts; hash collisions and actions)"
  },
  {
   "property": "C77",
   "status": "partial",
   "theorems": [
    "Antlr.GenProps.C77_returns_partial",
    "Antlr.GenProps.C77_session_partial",
    "Antlr.GenProps.C77_parser_partial",
    "Antlr.GenProps.C77_predicts_partial",
    "Antlr.GenProps.C77_predicts_new_partial",
    "Antlr.GenProps.C77_tame_partial",
    "Antlr.GenProps.C77_tame_new_partial",
    "Antlr.GenProps.C77_csv",
    "Antlr.GenProps.C77_ref",
    "Antlr.GenProps.C77_calc",
    "Antlr.GenProps.C77_labels",
    "Antlr.GenProps.C77_slr",
    "Antlr.GenProps.C77_basic",
    "Antlr.GenProps.C77_false_twice",
    "Antlr.GenProps.C77_false_eof_loop",
    "Antlr.GenProps.C77_eof_not_prompt",
    "Antlr.StaleProps.C77_false_leftrec",
    "Antlr.WeakProps.C77_false_freed"
   ],
   "note": "for parsers that satisfy Prompt (checked by computation), any histories, both strategies, no panics; with adaptive_predict (C77_predicts_partial) on automata without predicates, with C77_tame_partial also with predicates and, for the bail strategy, left-recursive rules (C77_calc, C77_labels, C77_slr: visitorcalcparser.rs, labelsparser.rs, simplelrparser.rs), as long as no DFA has B states, for any B for which state numbers fit into usize; C77_csv, C77_ref and C77_basic: tests/gen/csvparser.rs, referencetoatnparser.rs and visitorbasicparser.rs on all inputs; false for loops over EOF (C77_false_eof_loop), for left-recursive rules with the default strategy (C77_false_leftrec: a panic), for any call after a left-recursive rule was called from outside (C77_false_twice: a panic), and without trees (C77_false_freed: a panic; the other theorems suppose that contexts are kept). Missing: conditions under which left-recursive rules return with the default strategy"
  },
  {
   "property": "C78",
   "status": "partial",
   "theorems": [
    "Antlr.EndProps.C78_source",
    "Antlr.EndProps.C78_ref",
    "Antlr.EndProps.C78_basic",
    "Antlr.EndProps.C78_labels",
    "Antlr.EndProps.C78_slr",
    "Antlr.EndProps.C78_csv_partial",
    "Antlr.EndProps.C78_calc_partial",
    "Antlr.EndProps.C78_false_blank"
   ],
   "note": "C78_source: every lexer under the conditions of C69; C78_ref, C78_basic: ReferenceToATN and VisitorBasic, every text, both strategies; C78_labels, C78_slr: Labels and SimpleLR, every text, bail strategy; C78_csv_partial, C78_calc_partial: CSV and VisitorCalc (bail), texts that do not begin with a hidden token; false for texts that do (C78_false_blank). Missing: what C77 misses"
  },
  {
   "property": "C79",
   "status": "partial",
   "theorems": [
    "Antlr.LexLazy.C79_lazy_ends_partial",
    "Antlr.LexLazy.C79_lazy_found_partial",
    "Antlr.XmlProps.C79_xml_partial",
    "Antlr.XmlProps.C79_xml_found_partial",
    "Antlr.XmlProps.C79_xml_token_partial",
    "Antlr.XmlProps.C79_xml_skip_partial",
    "Antlr.XmlProps.C79_xml_run_partial",
    "Antlr.XmlProps.C79_xml_document_partial",
    "Antlr.XmlProps.C79_xml_pieces"
   ],
   "note": "every automaton with a rule of this form (lazyCheck), every text and every cache left by matches; missing: caches whose hash collides (C26). C79_xml_partial, C79_xml_found_partial: COMMENT, CDATA and DTD of tests/gen/xmllexer.rs, both directions. C79_xml_token_partial, C79_xml_skip_partial: the next token is the comment or CDATA section, a declaration is skipped. C79_xml_run_partial: character data up to & or < is one token, SEA_WS or TEXT. C79_xml_document_partial: a text of such pieces gives exactly the tokens of its character data, comments and CDATA sections and EOF (tags and references are not covered). C79_xml_pieces: a text is made of such pieces in one way only."
  },
  {
   "property": "C80",
   "status": "partial",
   "theorems": [
    "Antlr.PrintProps.C80_lexer_prints",
    "Antlr.PrintProps.C80_lexer_read",
    "Antlr.PrintProps.C80_lexer_follows",
    "Antlr.PrintProps.C80_parser_plain",
    "Antlr.PrintProps.C80_parser_prints_partial",
    "Antlr.PrintProps.C80_parser_follows",
    "Antlr.PrintProps.C80_parser_labels",
    "Antlr.PrintProps.C80_parser_read",
    "Antlr.PrintProps.C80_parser_panics",
    "Antlr.PrintProps.C80_precedence_label"
   ],
   "note": "lexers in full; parsers of grammars without predicates and precedences (C80_parser_plain), others as long as no arrow meets an accepting state with predicates (C80_parser_prints_partial); texts of parser DFAs outside left-recursive rules can be read back if display names can be told apart before '->' (C80_parser_read). False otherwise: to_string panics (C80_parser_panics, with a grammar in an example), and in left-recursive rules precedences are printed as token types (C80_precedence_label)"
  },
  {
   "property": "C81",
   "status": "partial",
   "theorems": [
    "Antlr.XmlProps.C81_xml_open_partial"
   ],
   "note": "every text, position, mode stack and cache left by matches; missing: caches whose hash collides (C26)"
  },
  {
   "property": "C82",
   "status": "partial",
   "theorems": [
    "Antlr.XmlProps.C82_xml_close_partial"
   ],
   "note": "every text, position, mode stack and cache left by matches; missing: caches whose hash collides (C26)"
  },
  {
   "property": "C83",
   "status": "partial",
   "theorems": [
    "Antlr.XmlProps.C83_xml_string_partial"
   ],
   "note": "every value, text, position, mode stack and cache left by matches; missing: caches whose hash collides (C26)"
  }
 ]
}