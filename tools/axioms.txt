'Antlr.CommonProps.C16_false' depends on axioms: [propext]
'Antlr.CommonProps.C16_on_channel_partial' depends on axioms: [propext, Classical.choice, Quot.sound]
'Antlr.CommonProps.C17_consume' depends on axioms: [propext, Classical.choice, Quot.sound]
'Antlr.CommonProps.C17_delivers_all' depends on axioms: [propext, Classical.choice, Quot.sound]
'Antlr.CommonProps.C17_lookahead_is_future' depends on axioms: [propext, Classical.choice, Quot.sound]
'Antlr.CommonProps.C18_false_first' depends on axioms: [propext]
'Antlr.CommonProps.C18_false_panic' depends on axioms: [propext]
'Antlr.CommonProps.C18_look_behind_partial' depends on axioms: [propext, Classical.choice, Quot.sound]
'Antlr.CommonProps.C19_position_determines' depends on axioms: [propext, Classical.choice, Quot.sound]
'Antlr.CommonProps.C19_seek_recorded' depends on axioms: [propext, Classical.choice, Quot.sound]
'Antlr.Conc.C74_rest' depends on axioms: [propext, Classical.choice, Quot.sound]
'Antlr.Conc.C74_serial' depends on axioms: [propext, Classical.choice, Quot.sound]
'Antlr.Conc.C74_thread' depends on axioms: [propext, Classical.choice, Quot.sound]
'Antlr.Conc.C75_ends' depends on axioms: [propext, Classical.choice, Quot.sound]
'Antlr.Conc.C75_false_nested' depends on axioms: [propext, Classical.choice, Quot.sound]
'Antlr.Conc.C75_finite' depends on axioms: [propext]
'Antlr.Conc.C75_progress' depends on axioms: [propext, Classical.choice, Quot.sound]
'Antlr.Conc.C76_alone' depends on axioms: [propext, Classical.choice, Quot.sound]
'Antlr.Conc.C76_local_partial' depends on axioms: [propext, Classical.choice, Quot.sound]
'Antlr.Conc.C76_range' depends on axioms: [propext, Classical.choice, Quot.sound]
'Antlr.Conc.C76_tokens_partial' depends on axioms: [propext, Classical.choice, Quot.sound]
'Antlr.ConfigSetProps.C33_collects' depends on axioms: [propext, Classical.choice, Quot.sound]
'Antlr.ConfigSetProps.C33_collects_shared_cache_partial' depends on axioms: [propext, Classical.choice, Quot.sound]
'Antlr.ConfigSetProps.C33_frozen' depends on axioms: [propext, Classical.choice, Quot.sound]
'Antlr.ConfigSetProps.C33_no_duplicates_nothing_lost' depends on axioms: [propext, Quot.sound]
'Antlr.ConfigSetProps.C33_ordered' depends on axioms: [propext, Classical.choice, Quot.sound]
'Antlr.ConfigSetProps.C37_equal_sets' depends on axioms: [propext, Classical.choice, Quot.sound]
'Antlr.DFAProps.C37_edges' depends on axioms: [propext, Classical.choice, Quot.sound]
'Antlr.DFAProps.C37_no_panic' depends on axioms: [propext, Classical.choice, Quot.sound]
'Antlr.DFAProps.C37_precedence' depends on axioms: [propext, Classical.choice, Quot.sound]
'Antlr.DFAProps.C37_state_kept' depends on axioms: [propext, Classical.choice, Quot.sound]
'Antlr.DFAProps.C37_state_numbers' depends on axioms: [propext, Classical.choice, Quot.sound]
'Antlr.DecodeProps.C58_decode_partial' depends on axioms: [propext, Quot.sound]
'Antlr.DecodeProps.C58_decode_u16' depends on axioms: [propext, Quot.sound]
'Antlr.DecodeProps.C58_encodable' depends on axioms: [propext, Classical.choice, Quot.sound]
'Antlr.DecodeProps.C58_false' does not depend on any axioms
'Antlr.DeserialProps.C59_complement_witness' depends on axioms: [propext, Quot.sound]
'Antlr.DeserialProps.C59_label_FFFF_witness' depends on axioms: [propext, Quot.sound]
'Antlr.DeserialProps.C59_round_trip_partial' depends on axioms: [propext, Classical.choice, Quot.sound]
'Antlr.DeserialProps.C60_returns' depends on axioms: [propext, Classical.choice, Quot.sound]
'Antlr.DeserialProps.C68_accepted' depends on axioms: [propext, Classical.choice, Quot.sound]
'Antlr.DiagProps.C62_conflicting_alts' depends on axioms: [propext, Quot.sound]
'Antlr.DiagProps.C62_dispatch' depends on axioms: [propext, Classical.choice, Quot.sound]
'Antlr.DiagProps.C62_message_alts' depends on axioms: [propext, Classical.choice, Quot.sound]
'Antlr.DiagProps.C62_message_decision' depends on axioms: [propext, Classical.choice, Quot.sound]
'Antlr.DiagProps.C62_message_text' depends on axioms: [propext, Classical.choice, Quot.sound]
'Antlr.DiagProps.C62_no_panic' depends on axioms: [propext, Classical.choice, Quot.sound]
'Antlr.DiagProps.C62_report' depends on axioms: [propext, Classical.choice, Quot.sound]
'Antlr.EndProps.C78_basic' depends on axioms: [propext, Classical.choice, Quot.sound]
'Antlr.EndProps.C78_calc_partial' depends on axioms: [propext, Classical.choice, Quot.sound]
'Antlr.EndProps.C78_csv_partial' depends on axioms: [propext, Classical.choice, Quot.sound]
'Antlr.EndProps.C78_false_blank' depends on axioms: [propext, Classical.choice, Quot.sound]
'Antlr.EndProps.C78_labels' depends on axioms: [propext, Classical.choice, Quot.sound]
'Antlr.EndProps.C78_ref' depends on axioms: [propext, Classical.choice, Quot.sound]
'Antlr.EndProps.C78_slr' depends on axioms: [propext, Classical.choice, Quot.sound]
'Antlr.EndProps.C78_source' depends on axioms: [propext, Classical.choice, Quot.sound]
'Antlr.ErrorProps.C44_accepted_between_reports' depends on axioms: [propext, Classical.choice, Quot.sound]
'Antlr.ErrorProps.C44_false' depends on axioms: [propext, Classical.choice, Quot.sound]
'Antlr.ErrorProps.C44_match_reenables' depends on axioms: [propext, Classical.choice, Quot.sound]
'Antlr.ErrorProps.C44_one_report_per_episode' depends on axioms: [propext, Classical.choice, Quot.sound]
'Antlr.ErrorProps.C44_report_starts_episode' depends on axioms: [propext, Classical.choice, Quot.sound]
'Antlr.ErrorProps.C44_silent_in_recovery' depends on axioms: [propext, Classical.choice, Quot.sound]
'Antlr.ErrorProps.C45_consume_until_terminates' depends on axioms: [propext, Quot.sound]
'Antlr.ErrorProps.C45_progress' depends on axioms: [propext, Classical.choice, Quot.sound]
'Antlr.ErrorProps.C45_recover' depends on axioms: [propext, Classical.choice, Quot.sound]
'Antlr.ErrorProps.C45_recover_stuck' depends on axioms: [propext, Classical.choice, Quot.sound]
'Antlr.ErrorProps.C45_recovery_set_exact_partial' depends on axioms: [propext, Classical.choice, Quot.sound]
'Antlr.ErrorProps.C45_recovery_set_sound' depends on axioms: [propext, Classical.choice, Quot.sound]
'Antlr.ErrorProps.C46_deletes' depends on axioms: [propext, Classical.choice, Quot.sound]
'Antlr.ErrorProps.C46_deletion_helps' depends on axioms: [propext, Classical.choice, Quot.sound]
'Antlr.ErrorProps.C46_insertion_helps' depends on axioms: [propext, Classical.choice, Quot.sound]
'Antlr.ErrorProps.C46_inserts' depends on axioms: [propext, Classical.choice, Quot.sound]
'Antlr.ErrorProps.C46_match_token' depends on axioms: [propext, Classical.choice, Quot.sound]
'Antlr.ErrorProps.C46_match_token_ok' depends on axioms: [propext, Classical.choice, Quot.sound]
'Antlr.ErrorProps.C46_raises' depends on axioms: [propext, Classical.choice, Quot.sound]
'Antlr.ErrorProps.C47_elsewhere' depends on axioms: [propext, Classical.choice, Quot.sound]
'Antlr.ErrorProps.C47_entry_deletes' depends on axioms: [propext, Classical.choice, Quot.sound]
'Antlr.ErrorProps.C47_entry_raises' depends on axioms: [propext, Classical.choice, Quot.sound]
'Antlr.ErrorProps.C47_expected' depends on axioms: [propext, Classical.choice, Quot.sound]
'Antlr.ErrorProps.C47_loop_back' depends on axioms: [propext, Classical.choice, Quot.sound]
'Antlr.ErrorProps.C47_recovering' depends on axioms: [propext, Classical.choice, Quot.sound]
'Antlr.ErrorProps.C47_skippable' depends on axioms: [propext, Classical.choice, Quot.sound]
'Antlr.ErrorProps.C48_false_recorded' depends on axioms: [propext, Quot.sound]
'Antlr.ErrorProps.C48_match_token_bails' depends on axioms: [propext, Classical.choice, Quot.sound]
'Antlr.ErrorProps.C48_rule_end_bails' depends on axioms: [propext, Classical.choice, Quot.sound]
'Antlr.ErrorProps.C48_straight_body' depends on axioms: [propext, Classical.choice, Quot.sound]
'Antlr.ErrorProps.C48_unwinds' depends on axioms: [propext, Classical.choice, Quot.sound]
'Antlr.ErrorProps.C66_false_bail' depends on axioms: [propext, Classical.choice, Quot.sound]
'Antlr.ErrorProps.C66_matched_is_ordinary' depends on axioms: [propext, Classical.choice, Quot.sound]
'Antlr.GenProps.C71_bail' depends on axioms: [propext, Classical.choice, Quot.sound]
'Antlr.GenProps.C71_dfas' depends on axioms: [propext, Classical.choice, Quot.sound]
'Antlr.GenProps.C71_runtime' depends on axioms: [propext, Classical.choice, Quot.sound]
'Antlr.GenProps.C71_tree' depends on axioms: [propext, Classical.choice, Quot.sound]
'Antlr.GenProps.C72_learned_new' depends on axioms: [propext, Classical.choice, Quot.sound]
'Antlr.GenProps.C72_ll1' depends on axioms: [propext, Classical.choice, Quot.sound]
'Antlr.GenProps.C72_ll1_iff' depends on axioms: [propext, Classical.choice, Quot.sound]
'Antlr.GenProps.C72_predict_partial' depends on axioms: [propext, Classical.choice, Quot.sound]
'Antlr.GenProps.C72_sync' depends on axioms: [propext, Classical.choice, Quot.sound]
'Antlr.GenProps.C77_basic' depends on axioms: [propext, Classical.choice, Quot.sound]
'Antlr.GenProps.C77_calc' depends on axioms: [propext, Classical.choice, Quot.sound]
'Antlr.GenProps.C77_csv' depends on axioms: [propext, Classical.choice, Quot.sound]
'Antlr.GenProps.C77_eof_not_prompt' depends on axioms: [propext, Classical.choice, Quot.sound]
'Antlr.GenProps.C77_false_eof_loop' depends on axioms: [propext, Classical.choice, Quot.sound]
'Antlr.GenProps.C77_false_twice' depends on axioms: [propext, Classical.choice, Quot.sound]
'Antlr.GenProps.C77_labels' depends on axioms: [propext, Classical.choice, Quot.sound]
'Antlr.GenProps.C77_parser_partial' depends on axioms: [propext, Classical.choice, Quot.sound]
'Antlr.GenProps.C77_predicts_new_partial' depends on axioms: [propext, Classical.choice, Quot.sound]
'Antlr.GenProps.C77_predicts_partial' depends on axioms: [propext, Classical.choice, Quot.sound]
'Antlr.GenProps.C77_ref' depends on axioms: [propext, Classical.choice, Quot.sound]
'Antlr.GenProps.C77_returns_partial' depends on axioms: [propext, Classical.choice, Quot.sound]
'Antlr.GenProps.C77_session_partial' depends on axioms: [propext, Classical.choice, Quot.sound]
'Antlr.GenProps.C77_slr' depends on axioms: [propext, Classical.choice, Quot.sound]
'Antlr.GenProps.C77_tame_new_partial' depends on axioms: [propext, Classical.choice, Quot.sound]
'Antlr.GenProps.C77_tame_partial' depends on axioms: [propext, Classical.choice, Quot.sound]
'Antlr.GenProps.calc_run' depends on axioms: [propext, Classical.choice, Quot.sound]
'Antlr.GenProps.calc_wrong' depends on axioms: [propext, Classical.choice, Quot.sound]
'Antlr.GenProps.csv_bail' depends on axioms: [propext, Classical.choice, Quot.sound]
'Antlr.GenProps.csv_default' depends on axioms: [propext, Classical.choice, Quot.sound]
'Antlr.InputProps.C07_consume' depends on axioms: [propext, Quot.sound]
'Antlr.InputProps.C07_la_backward' depends on axioms: [propext, Quot.sound]
'Antlr.InputProps.C07_la_forward' depends on axioms: [propext, Quot.sound]
'Antlr.InputProps.C07_la_zero' depends on axioms: [propext]
'Antlr.InputProps.C08_consume' depends on axioms: [propext, Classical.choice, Quot.sound]
'Antlr.InputProps.C08_la_backward' depends on axioms: [propext, Classical.choice, Quot.sound]
'Antlr.InputProps.C08_la_forward' depends on axioms: [propext, Classical.choice, Quot.sound]
'Antlr.InputProps.C08_read_all' depends on axioms: [propext, Classical.choice, Quot.sound]
'Antlr.InputProps.C09_str' depends on axioms: [propext, Classical.choice, Quot.sound]
'Antlr.InputProps.C09_str_concat' depends on axioms: [propext, Classical.choice, Quot.sound]
'Antlr.InputProps.C09_str_empty' depends on axioms: [propext, Classical.choice, Quot.sound]
'Antlr.InputProps.C09_units' depends on axioms: [propext, Classical.choice, Quot.sound]
'Antlr.InputProps.C10_seek_restores' depends on axioms: [propext, Quot.sound]
'Antlr.InputProps.C11_false_panics_at_end' depends on axioms: [propext, Classical.choice, Quot.sound]
'Antlr.InputProps.C11_false_panics_at_end_units' depends on axioms: [propext, Quot.sound]
'Antlr.InputProps.C11_iter_next_partial' depends on axioms: [propext, Classical.choice, Quot.sound]
'Antlr.IntervalProps.C01_add_one_history' depends on axioms: [propext, Classical.choice, Quot.sound]
'Antlr.IntervalProps.C01_add_set_copies' depends on axioms: [propext, Classical.choice, Quot.sound]
'Antlr.IntervalProps.C01_containsNew_iff_added_partial' depends on axioms: [propext, Classical.choice, Quot.sound]
'Antlr.IntervalProps.C01_contains_iff_added_partial' depends on axioms: [propext, Classical.choice, Quot.sound]
'Antlr.IntervalProps.C01_contains_only_added' depends on axioms: [propext, Classical.choice, Quot.sound]
'Antlr.IntervalProps.C01_false_contains' depends on axioms: [propext, Quot.sound]
'Antlr.IntervalProps.C01_false_lost' depends on axioms: [propext, Quot.sound]
'Antlr.IntervalProps.C02_add_one_canonical' depends on axioms: [propext, Classical.choice, Quot.sound]
'Antlr.IntervalProps.C02_canonical_partial' depends on axioms: [propext, Classical.choice, Quot.sound]
'Antlr.IntervalProps.C02_eq_of_same_members' depends on axioms: [propext, Classical.choice, Quot.sound]
'Antlr.IntervalProps.C02_false' depends on axioms: [propext, Quot.sound]
'Antlr.IntervalProps.C02_length_counts' depends on axioms: [propext, Classical.choice, Quot.sound]
'Antlr.IntervalProps.C03_substract' depends on axioms: [propext, Classical.choice, Quot.sound]
'Antlr.IntervalProps.C03_substract_canonical' depends on axioms: [propext, Classical.choice, Quot.sound]
'Antlr.IntervalProps.C04_complement' depends on axioms: [propext, Classical.choice, Quot.sound]
'Antlr.IntervalProps.C04_complement_canonical' depends on axioms: [propext, Classical.choice, Quot.sound]
'Antlr.IntervalProps.C04_complement_twice' depends on axioms: [propext, Classical.choice, Quot.sound]
'Antlr.IntervalProps.C05_remove_one' depends on axioms: [propext, Classical.choice, Quot.sound]
'Antlr.IntervalProps.C05_remove_one_read_only' depends on axioms: [propext, Quot.sound]
'Antlr.IntervalProps.C05_remove_one_sound' depends on axioms: [propext, Classical.choice, Quot.sound]
'Antlr.IntervalProps.C06_contains' depends on axioms: [propext, Classical.choice, Quot.sound]
'Antlr.IntervalProps.C06_get_min' depends on axioms: [propext, Classical.choice, Quot.sound]
'Antlr.IntervalProps.C06_to_token_string' depends on axioms: [propext, Classical.choice, Quot.sound]
'Antlr.LL1Props.C42_exact_partial' depends on axioms: [propext, Classical.choice, Quot.sound]
'Antlr.LL1Props.C42_false_left_recursion' depends on axioms: [propext, Classical.choice, Quot.sound]
'Antlr.LL1Props.C42_false_wide' depends on axioms: [propext, Classical.choice, Quot.sound]
'Antlr.LL1Props.C42_in_context' depends on axioms: [propext, Classical.choice, Quot.sound]
'Antlr.LL1Props.C42_in_context_terminates' depends on axioms: [propext, Classical.choice, Quot.sound]
'Antlr.LL1Props.C42_only_reachable' depends on axioms: [propext, Classical.choice, Quot.sound]
'Antlr.LL1Props.C42_requests_exact' depends on axioms: [propext, Classical.choice, Quot.sound]
'Antlr.LL1Props.C42_terminates' depends on axioms: [propext, Classical.choice, Quot.sound]
'Antlr.LL1Props.C43_expected_partial' depends on axioms: [propext, Classical.choice, Quot.sound]
'Antlr.LL1Props.C43_false' depends on axioms: [propext, Classical.choice, Quot.sound]
'Antlr.LL1Props.C43_only_possible' depends on axioms: [propext, Classical.choice, Quot.sound]
'Antlr.LexCacheProps.C26_actions_partial' depends on axioms: [propext, Classical.choice, Quot.sound]
'Antlr.LexCacheProps.C26_false_executors' depends on axioms: [propext, Classical.choice, Quot.sound]
'Antlr.LexCacheProps.C26_false_offsets' depends on axioms: [propext, Classical.choice, Quot.sound]
'Antlr.LexCacheProps.C26_tokens_partial' depends on axioms: [propext, Classical.choice, Quot.sound]
'Antlr.LexCacheProps.C26_type_and_end_partial' depends on axioms: [propext, Classical.choice, Quot.sound]
'Antlr.LexLazy.C79_lazy_ends_partial' depends on axioms: [propext, Classical.choice, Quot.sound]
'Antlr.LexLazy.C79_lazy_found_partial' depends on axioms: [propext, Classical.choice, Quot.sound]
'Antlr.LexOrder.C25_preferred_partial' depends on axioms: [propext, Classical.choice, Quot.sound]
'Antlr.LexOrder.C27_preferred_actions_partial' depends on axioms: [propext, Classical.choice, Quot.sound]
'Antlr.LexPathProps.C25_eager_partial' depends on axioms: [propext, Classical.choice, Quot.sound]
'Antlr.LexPathProps.C25_illegal_mode' depends on axioms: [propext, Classical.choice, Quot.sound]
'Antlr.LexPathProps.C25_longest_match_partial' depends on axioms: [propext, Classical.choice, Quot.sound]
'Antlr.LexPathProps.C25_type_of_rule' depends on axioms: [propext, Quot.sound]
'Antlr.LexPathProps.C27_false_offset' depends on axioms: [propext, Classical.choice, Quot.sound]
'Antlr.LexPathProps.C27_path_actions_partial' depends on axioms: [propext, Classical.choice, Quot.sound]
'Antlr.LexProps.C20_false_more_at_eof' depends on axioms: [propext, Classical.choice, Quot.sound]
'Antlr.LexProps.C20_text' depends on axioms: [propext, Classical.choice, Quot.sound]
'Antlr.LexProps.C20_tiles' depends on axioms: [propext, Classical.choice, Quot.sound]
'Antlr.LexProps.C21_line_column' depends on axioms: [propext, Classical.choice, Quot.sound]
'Antlr.LexProps.C21_position' depends on axioms: [propext, Classical.choice, Quot.sound]
'Antlr.LexProps.C22_eof_stays' depends on axioms: [propext, Classical.choice, Quot.sound]
'Antlr.LexProps.C22_failures_progress' depends on axioms: [propext, Classical.choice, Quot.sound]
'Antlr.LexProps.C22_reaches_eof' depends on axioms: [propext, Classical.choice, Quot.sound]
'Antlr.LexProps.C23_match_uses_mode' depends on axioms: [propext, Classical.choice, Quot.sound]
'Antlr.LexProps.C23_push_pop' depends on axioms: [propext]
'Antlr.LexProps.C23_stack' depends on axioms: [propext]
'Antlr.LexProps.C24_false_override' depends on axioms: [propext, Classical.choice, Quot.sound]
'Antlr.LexProps.C24_one_token' depends on axioms: [propext, Classical.choice, Quot.sound]
'Antlr.LexProps.C27_in_order_at_positions' depends on axioms: [propext, Classical.choice, Quot.sound]
'Antlr.LexProps.C27_offsets' depends on axioms: [propext]
'Antlr.LexProps.C28_false_eof_panics' depends on axioms: [propext, Classical.choice, Quot.sound]
'Antlr.LexProps.C28_position' depends on axioms: [propext, Quot.sound]
'Antlr.LexProps.C28_restores' depends on axioms: [propext, Quot.sound]
'Antlr.LexProps.C67_reports' depends on axioms: [propext, Classical.choice, Quot.sound]
'Antlr.LexTotalProps.C25_match_found_partial' depends on axioms: [propext, Classical.choice, Quot.sound]
'Antlr.LexTotalProps.C69_false_empty' depends on axioms: [propext, Classical.choice, Quot.sound]
'Antlr.LexTotalProps.C69_false_loop' depends on axioms: [propext, Classical.choice, Quot.sound]
'Antlr.LexTotalProps.C69_lexing_returns' depends on axioms: [propext, Classical.choice, Quot.sound]
'Antlr.LexTotalProps.C69_match_returns' depends on axioms: [propext, Classical.choice, Quot.sound]
'Antlr.ParserProps.C49_channel' depends on axioms: [propext, Classical.choice, Quot.sound]
'Antlr.ParserProps.C49_conjured_silent' depends on axioms: [propext, Classical.choice, Quot.sound]
'Antlr.ParserProps.C49_leaves' depends on axioms: [propext, Classical.choice, Quot.sound]
'Antlr.ParserProps.C49_listeners' depends on axioms: [propext, Classical.choice, Quot.sound]
'Antlr.ParserProps.C49_no_token_lost' depends on axioms: [propext, Classical.choice, Quot.sound]
'Antlr.ParserProps.C49_no_tree' depends on axioms: [propext, Classical.choice, Quot.sound]
'Antlr.ParserProps.C49_visPos' depends on axioms: [propext, Quot.sound]
'Antlr.ParserProps.C50_call' depends on axioms: [propext, Classical.choice, Quot.sound]
'Antlr.ParserProps.C50_false_stop_eof_recursive' depends on axioms: [propext, Classical.choice, Quot.sound]
'Antlr.ParserProps.C50_start_stop_partial' depends on axioms: [propext, Classical.choice, Quot.sound]
'Antlr.ParserProps.C50_stop_eof' depends on axioms: [propext, Classical.choice, Quot.sound]
'Antlr.ParserProps.C51_balanced' depends on axioms: [propext, Classical.choice, Quot.sound]
'Antlr.ParserProps.C51_precpred' depends on axioms: [propext, Classical.choice, Quot.sound]
'Antlr.ParserProps.C51_precpred_outside' depends on axioms: [propext, Classical.choice, Quot.sound]
'Antlr.ParserProps.C51_recursive_call' depends on axioms: [propext, Classical.choice, Quot.sound]
'Antlr.ParserProps.C52_add_remove' depends on axioms: [propext, Quot.sound]
'Antlr.ParserProps.C52_balanced_partial' depends on axioms: [propext, Classical.choice, Quot.sound]
'Antlr.ParserProps.C52_dispatch' depends on axioms: [propext, Classical.choice, Quot.sound]
'Antlr.ParserProps.C52_everyone' depends on axioms: [propext, Classical.choice, Quot.sound]
'Antlr.ParserProps.C52_false_no_alternative' depends on axioms: [propext, Classical.choice, Quot.sound]
'Antlr.ParserProps.C52_false_operator_loop' depends on axioms: [propext, Classical.choice, Quot.sound]
'Antlr.ParserProps.C52_false_shared_address' depends on axioms: [propext]
'Antlr.ParserProps.C52_remove_partial' depends on axioms: [propext, Classical.choice, Quot.sound]
'Antlr.ParserProps.C52_walk' depends on axioms: [propext, Classical.choice, Quot.sound]
'Antlr.ParserProps.C53_count' depends on axioms: [propext, Classical.choice, Quot.sound]
'Antlr.ParserProps.C53_listener' depends on axioms: [propext, Classical.choice, Quot.sound]
'Antlr.ParserProps.C53_position' depends on axioms: [propext, Quot.sound]
'Antlr.ParserProps.C53_told' depends on axioms: [propext, Classical.choice, Quot.sound]
'Antlr.PredictionModeProps.C36_exact_ambiguity' depends on axioms: [propext, Quot.sound]
'Antlr.PredictionModeProps.C36_get_alts' depends on axioms: [propext, Quot.sound]
'Antlr.PredictionModeProps.C36_single_viable' depends on axioms: [propext, Classical.choice, Quot.sound]
'Antlr.PredictionModeProps.C36_sll_stop' depends on axioms: [propext, Classical.choice, Quot.sound]
'Antlr.PredictionModeProps.C36_sll_stop_predicates' depends on axioms: [propext, Classical.choice, Quot.sound]
'Antlr.PredictionModeProps.C36_subsets' depends on axioms: [propext, Quot.sound]
'Antlr.PredictionModeProps.C36_subsets_ok' depends on axioms: [propext, Quot.sound]
'Antlr.PredictionProps.C38_input_restored' depends on axioms: [propext, Classical.choice, Quot.sound]
'Antlr.PredictionProps.C38_offending' depends on axioms: [propext, Classical.choice, Quot.sound]
'Antlr.PredictionProps.C38_unbuffered' depends on axioms: [propext, Classical.choice, Quot.sound]
'Antlr.PredictionProps.C39_again_partial' depends on axioms: [propext, Classical.choice, Quot.sound]
'Antlr.PredictionProps.C39_cache_partial' depends on axioms: [propext, Classical.choice, Quot.sound]
'Antlr.PredictionProps.C39_false' depends on axioms: [propext, Classical.choice, Quot.sound]
'Antlr.PredictionProps.C39_false_fallback' depends on axioms: [propext, Classical.choice, Quot.sound]
'Antlr.PredictionProps.C39_false_meaning' depends on axioms: [propext, Classical.choice, Quot.sound]
'Antlr.PredictionProps.C39_known_partial' depends on axioms: [propext, Classical.choice, Quot.sound]
'Antlr.PredictionProps.C39_knows' depends on axioms: [propext, Classical.choice, Quot.sound]
'Antlr.PredictionProps.C39_local_partial' depends on axioms: [propext, Classical.choice, Quot.sound]
'Antlr.PredictionProps.C39_stable' depends on axioms: [propext, Classical.choice, Quot.sound]
'Antlr.PredictionProps.C40_again_partial' depends on axioms: [propext, Classical.choice, Quot.sound]
'Antlr.PredictionProps.C40_begins' depends on axioms: [propext, Classical.choice, Quot.sound]
'Antlr.PredictionProps.C40_fallback_least' depends on axioms: [propext, Classical.choice, Quot.sound]
'Antlr.PredictionProps.C40_false' depends on axioms: [propext, Classical.choice, Quot.sound]
'Antlr.PredictionProps.C40_false_error' depends on axioms: [propext, Classical.choice, Quot.sound]
'Antlr.PredictionProps.C40_full_partial' depends on axioms: [propext, Classical.choice, Quot.sound]
'Antlr.PredictionProps.C40_local_partial' depends on axioms: [propext, Classical.choice, Quot.sound]
'Antlr.PredictionProps.C40_range' depends on axioms: [propext, Classical.choice, Quot.sound]
'Antlr.PredictionProps.C40_valid_again' depends on axioms: [propext, Classical.choice, Quot.sound]
'Antlr.PredictionProps.C40_valid_local' depends on axioms: [propext, Classical.choice, Quot.sound]
'Antlr.PredictionProps.C70_answers' depends on axioms: [propext, Classical.choice, Quot.sound]
'Antlr.PredictionProps.C70_false_loop' depends on axioms: [propext, Classical.choice, Quot.sound]
'Antlr.PredictionProps.C70_returns' depends on axioms: [propext, Classical.choice, Quot.sound]
'Antlr.PredictionProps.C70_returns_pred' depends on axioms: [propext, Classical.choice, Quot.sound]
'Antlr.PredictionProps.C73_cached' depends on axioms: [propext, Classical.choice, Quot.sound]
'Antlr.PredictionProps.C73_range' depends on axioms: [propext, Classical.choice, Quot.sound]
'Antlr.PrintProps.C80_lexer_follows' depends on axioms: [propext, Quot.sound]
'Antlr.PrintProps.C80_lexer_prints' depends on axioms: [propext, Classical.choice, Quot.sound]
'Antlr.PrintProps.C80_lexer_read' depends on axioms: [propext, Classical.choice, Quot.sound]
'Antlr.PrintProps.C80_parser_follows' depends on axioms: [propext, Quot.sound]
'Antlr.PrintProps.C80_parser_labels' depends on axioms: [propext, Classical.choice, Quot.sound]
'Antlr.PrintProps.C80_parser_panics' depends on axioms: [propext, Classical.choice, Quot.sound]
'Antlr.PrintProps.C80_parser_plain' depends on axioms: [propext, Classical.choice, Quot.sound]
'Antlr.PrintProps.C80_parser_prints_partial' depends on axioms: [propext, Classical.choice, Quot.sound]
'Antlr.PrintProps.C80_parser_read' depends on axioms: [propext, Classical.choice, Quot.sound]
'Antlr.PrintProps.C80_precedence_label' depends on axioms: [propext, Classical.choice, Quot.sound]
'Antlr.SemProps.C34_and' depends on axioms: [propext, Classical.choice, Quot.sound]
'Antlr.SemProps.C34_evaluate' depends on axioms: [propext, Quot.sound]
'Antlr.SemProps.C34_or' depends on axioms: [propext, Classical.choice, Quot.sound]
'Antlr.SemProps.C34_units' depends on axioms: [propext]
'Antlr.SemProps.C35_complete_partial' depends on axioms: [propext, Classical.choice, Quot.sound]
'Antlr.SemProps.C35_false_built' depends on axioms: [propext]
'Antlr.SemProps.C35_false_raw' depends on axioms: [propext]
'Antlr.SemProps.C35_sound' depends on axioms: [propext, Classical.choice, Quot.sound]
'Antlr.StackProps.C29_canonical' depends on axioms: [propext, Quot.sound]
'Antlr.StackProps.C29_has_empty_path' depends on axioms: [propext, Classical.choice, Quot.sound]
'Antlr.StackProps.C29_merge_assoc' depends on axioms: [propext, Classical.choice, Quot.sound]
'Antlr.StackProps.C29_merge_comm' depends on axioms: [propext, Classical.choice, Quot.sound]
'Antlr.StackProps.C29_merge_full' depends on axioms: [propext, Classical.choice, Quot.sound]
'Antlr.StackProps.C29_merge_local' depends on axioms: [propext, Classical.choice, Quot.sound]
'Antlr.StackProps.C30_illformed_panics' depends on axioms: [propext, Classical.choice, Quot.sound]
'Antlr.StackProps.C30_merge_wf' depends on axioms: [propext, Classical.choice, Quot.sound]
'Antlr.StackProps.C31_cache_same_local' depends on axioms: [propext, Classical.choice, Quot.sound]
'Antlr.StackProps.C31_cache_same_result' depends on axioms: [propext, Classical.choice, Quot.sound]
'Antlr.StackProps.C31_cache_transparent' depends on axioms: [propext, Classical.choice, Quot.sound]
'Antlr.StackProps.C32_from_rule_context' depends on axioms: [propext, Quot.sound]
'Antlr.StackProps.C32_well_formed' depends on axioms: [propext, Quot.sound]
'Antlr.StackProps.C63_false_shared_cache' depends on axioms: [propext, Classical.choice, Quot.sound]
'Antlr.StackProps.C63_shared_cache_partial' depends on axioms: [propext, Classical.choice, Quot.sound]
'Antlr.StackProps.C64_shared_context' depends on axioms: [propext, Quot.sound]
'Antlr.StaleProps.C77_false_leftrec' depends on axioms: [propext, Classical.choice, Quot.sound]
'Antlr.TokenFactoryProps.C61_display_one_line' depends on axioms: [propext, Classical.choice, Quot.sound]
'Antlr.TokenFactoryProps.C61_empty' depends on axioms: [propext, Classical.choice, Quot.sound]
'Antlr.TokenFactoryProps.C61_eof_text' depends on axioms: [propext]
'Antlr.TokenFactoryProps.C61_fields' depends on axioms: [propext, Classical.choice, Quot.sound]
'Antlr.TokenFactoryProps.C61_override' depends on axioms: [propext, Classical.choice, Quot.sound]
'Antlr.TokenFactoryProps.C61_past_end' depends on axioms: [propext, Classical.choice, Quot.sound]
'Antlr.TokenFactoryProps.C61_slice' depends on axioms: [propext, Classical.choice, Quot.sound]
'Antlr.TokenFactoryProps.C61_to_owned' does not depend on any axioms
'Antlr.TokenProps.C11_false_token_stream' depends on axioms: [propext, Classical.choice, Quot.sound]
'Antlr.TokenProps.C12_token_iter' depends on axioms: [propext, Classical.choice, Quot.sound]
'Antlr.TokenProps.C12_tokens_of_source' depends on axioms: [propext, Classical.choice, Quot.sound]
'Antlr.TokenProps.C13_consume' depends on axioms: [propext, Classical.choice, Quot.sound]
'Antlr.TokenProps.C13_false_beyond_eof' depends on axioms: [propext, Classical.choice, Quot.sound]
'Antlr.TokenProps.C13_false_look_behind' depends on axioms: [propext]
'Antlr.TokenProps.C13_lookahead_keeps_index' depends on axioms: [propext, Classical.choice, Quot.sound]
'Antlr.TokenProps.C13_lt_forward_partial' depends on axioms: [propext, Classical.choice, Quot.sound]
'Antlr.TokenProps.C14_backtracking' depends on axioms: [propext, Classical.choice, Quot.sound]
'Antlr.TokenProps.C15_interval_text' depends on axioms: [propext, Classical.choice, Quot.sound]
'Antlr.TransitionProps.C41_epsilon' depends on axioms: [propext, Quot.sound]
'Antlr.TransitionProps.C41_epsilon_iff' depends on axioms: [propext, Quot.sound]
'Antlr.TransitionProps.C41_false_wildcard' depends on axioms: [propext, Quot.sound]
'Antlr.TransitionProps.C41_label' depends on axioms: [propext, Classical.choice, Quot.sound]
'Antlr.TransitionProps.C41_matches_partial' depends on axioms: [propext, Classical.choice, Quot.sound]
'Antlr.TransitionProps.C41_rule_panics' depends on axioms: [propext, Quot.sound]
'Antlr.TransitionProps.C41_wildcard_within' depends on axioms: [propext, Classical.choice, Quot.sound]
'Antlr.TreeProps.C54_get_children' depends on axioms: [propext, Quot.sound]
'Antlr.TreeProps.C54_leaves_in_order' depends on axioms: [propext, Quot.sound]
'Antlr.TreeProps.C54_same_events' depends on axioms: [propext, Quot.sound]
'Antlr.TreeProps.C54_walk_complete' depends on axioms: [propext, Quot.sound]
'Antlr.TreeProps.C55_escape' depends on axioms: [propext, Quot.sound]
'Antlr.TreeProps.C55_false_shape' depends on axioms: [propext, Classical.choice, Quot.sound]
'Antlr.TreeProps.C55_shape_partial' depends on axioms: [propext, Classical.choice, Quot.sound]
'Antlr.TreeProps.C55_text' depends on axioms: [propext]
'Antlr.TreeProps.C56_all_leaves' depends on axioms: [propext]
'Antlr.TreeProps.C56_slot_empty' does not depend on any axioms
'Antlr.TreeProps.C56_stops' depends on axioms: [propext, Quot.sound]
'Antlr.TreeProps.C56_visit' depends on axioms: [propext]
'Antlr.TreeProps.C65_tokens' depends on axioms: [propext]
'Antlr.VocabularyProps.C57_display' depends on axioms: [propext, Quot.sound]
'Antlr.VocabularyProps.C57_eof' depends on axioms: [propext, Quot.sound]
'Antlr.VocabularyProps.C57_from_token_names' depends on axioms: [propext, Classical.choice, Quot.sound]
'Antlr.VocabularyProps.C57_literal' depends on axioms: [propext, Quot.sound]
'Antlr.VocabularyProps.C57_max' depends on axioms: [propext]
'Antlr.VocabularyProps.C57_symbolic' depends on axioms: [propext, Quot.sound]
'Antlr.WeakProps.C77_false_freed' depends on axioms: [propext, Classical.choice, Quot.sound]
'Antlr.XmlProps.C69_xml' depends on axioms: [propext, Classical.choice, Quot.sound]
'Antlr.XmlProps.C79_xml_document_partial' depends on axioms: [propext, Classical.choice, Quot.sound]
'Antlr.XmlProps.C79_xml_found_partial' depends on axioms: [propext, Classical.choice, Quot.sound]
'Antlr.XmlProps.C79_xml_partial' depends on axioms: [propext, Classical.choice, Quot.sound]
'Antlr.XmlProps.C79_xml_pieces' depends on axioms: [propext, Quot.sound]
'Antlr.XmlProps.C79_xml_run_partial' depends on axioms: [propext, Classical.choice, Quot.sound]
'Antlr.XmlProps.C79_xml_skip_partial' depends on axioms: [propext, Classical.choice, Quot.sound]
'Antlr.XmlProps.C79_xml_token_partial' depends on axioms: [propext, Classical.choice, Quot.sound]
'Antlr.XmlProps.C81_xml_open_partial' depends on axioms: [propext, Classical.choice, Quot.sound]
'Antlr.XmlProps.C82_xml_close_partial' depends on axioms: [propext, Classical.choice, Quot.sound]
'Antlr.XmlProps.C83_xml_string_partial' depends on axioms: [propext, Classical.choice, Quot.sound]
