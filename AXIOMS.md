# Axioms of each theorem

Generated by `tools/axioms.py` with `#print axioms`.

## none

* `C29_no_last_event`
* `C43_fast_ball_escapes`
* `C46_perception`

## propext

* `C03_variable_target_not_matched`
* `C05_merge_from_parents`
* `C05_merge_lossless`
* `C06_same_is_order_sensitive`
* `C29_last_event`
* `C33_disabled`
* `C34_empty_table`
* `C35_round_trip`
* `C35_only_calls`
* `C35_no_arguments`
* `C68_other_questions`
* `C83_words`

## propext, Quot.sound

* `C05_long_trails_forget`
* `C06_overlap_exact`
* `C06_overlap_symmetric`
* `C29_limited_window`
* `C33_babbling`
* `C33_every_babbleable_operator`
* `C33_most_draws_do_nothing`
* `C35_registered`
* `C41_line_ends`
* `C43_operators`
* `C43_left_occurs`
* `C43_bat_leaves_field`
* `C44_new_map_crash`
* `C44_circle_too_small`
* `C44_both_builds`
* `C44_large_map_has_no_pixels`
* `C46_move_crash`
* `C46_end_is_final`
* `C48_copy_keeps_attributes`
* `C49_name_is_produced_partial`
* `C49_crashes_on_fifteen`
* `C50_subterms_exact`
* `C50_complexity_counts`
* `C51_negation_is_ignored`
* `C51_other_arities_crash`
* `C63_selection_endless`
* `C79_exclusive`
* `C79_listing_hangs`
* `C109_limited`
* `C109_limited_twice`
* `C109_top_partial`

## propext, Classical.choice, Quot.sound

* `C01_comparison_decides_identity`
* `C01_comparison_equivalence`
* `C02_match_sound`
* `C02_match_instantiates`
* `C03_match_complete`
* `C03_match_iff_instance`
* `C04_bindings_functional`
* `C05_merge_keeps_both`
* `C06_same_exact`
* `C07_truth_functions_in_range`
* `C07_revision_in_range`
* `C07_revision_undefined_at_one`
* `C07_chains_in_range`
* `C07_fold_in_range`
* `C08_rev_comm`
* `C08_rev_assoc`
* `C08_rev_confidence_grows`
* `C08_rev_adds_evidence`
* `C08_rev_frequency_between`
* `C08_rev_without_evidence`
* `C08_fold_adds_evidence`
* `C09_confidence_not_invented`
* `C09_weak_rules`
* `C09_negation`
* `C09_goal_deduction_picks_stronger`
* `C10_no_conclusion_on_shared_evidence`
* `C10_conclusion_shares_evidence`
* `C10_single_premise_evidence`
* `C11_no_invented_vocabulary`
* `C11_no_invented_vocabulary_single`
* `C12_truth_in_range`
* `C12_truth_in_range_single`
* `C12_counted_evidence_in_range`
* `C12_no_conclusion_without_judgement`
* `C13_judgements_never_crash`
* `C13_single_premise_crash_exact`
* `C13_question_crashes_in_one_order`
* `C13_image_question_crashes`
* `C14_tables_bounded`
* `C14_one_concept_per_term`
* `C15_one_belief_per_statement`
* `C15_independent_evidence_is_pooled`
* `C15_dependent_evidence_is_ignored`
* `C15_needs_evidence_trail`
* `C16_limit_size`
* `C16_limit_keeps_best`
* `C16_limit_total`
* `C17_filed_under_all_subterms`
* `C17_added_belief_is_in_memory`
* `C18_filing_ranks`
* `C18_ranked_partial`
* `C18_revision_breaks_ranking`
* `C19_answers_improve`
* `C19_best_is_maximum`
* `C19_better_answer_is_reported`
* `C19_question_history`
* `C19_every_answer_matches`
* `C19_candidates`
* `C19_sampled_question_is_answered`
* `C19_system_answers_match`
* `C20_working_list_readable`
* `C20_unique_ids`
* `C20_bounded_complexity`
* `C20_no_duplicates`
* `C20_added_is_worked_on`
* `C20_too_complex_ignored`
* `C20_system_unique_ids`
* `C21_cleanup`
* `C21_cleanup_keeps_few`
* `C22_top_selection`
* `C22_highest_selection`
* `C22_random_selection`
* `C22_random_selection_valid`
* `C22_random_selection_empty`
* `C22_cycle_takes_best`
* `C22_credit`
* `C22_system_takes_best`
* `C23_capacity`
* `C23_nothing_invented`
* `C23_best_kept`
* `C23_nothing_dropped_below_capacity`
* `C23_executable_goals_count_twice`
* `C24_executable_goals_once`
* `C24_executable_goal_again`
* `C24_new_goal_is_stored`
* `C24_first_goal_once_partial`
* `C24_second_goal_stored_twice`
* `C25_goals_at_their_depth`
* `C25_goals_grouped_by_statement`
* `C26_event_satisfies_matching_goals`
* `C26_step_satisfies`
* `C26_step_without_events`
* `C26_earlier_event_ignored`
* `C27_sample_is_stored`
* `C27_sample_never_crashes`
* `C27_sample_distribution`
* `C27_nothing_only_without_weight`
* `C27_draw_zero`
* `C28_goal_and_rule`
* `C28_first_step`
* `C28_derived_goals_are_grounded`
* `C28_rules_considered`
* `C28_every_rule_is_used_for_some_draw`
* `C29_window_is_newest`
* `C29_window_after_step`
* `C30_counts_consistent`
* `C30_counts_never_decrease`
* `C30_truth_in_range`
* `C30_rules_have_a_condition`
* `C31_anticipations_exact_partial`
* `C31_in_time_adds_nothing`
* `C31_effect_missed`
* `C31_only_one_copy_disappointed`
* `C32_decision`
* `C32_executed_only_above_threshold`
* `C32_nothing_below_threshold`
* `C32_best_goal_for_state`
* `C34_largest_interval_that_fits`
* `C34_monotone`
* `C34_expected_not_later_than_observed`
* `C34_expected_too_early`
* `C36_rule_shape`
* `C36_only_observations_learned`
* `C36_every_observation_can_be_learned`
* `C37_reads_exactly_the_notation`
* `C37_depth_bound_is_irrelevant`
* `C37_unambiguous`
* `C37_lines_are_read`
* `C37_blanks_at_stars`
* `C37_printed_terms_read_back`
* `C37_printed_sentences_read_back`
* `C37_printed_compounds_are_rejected`
* `C38_accepts_partial`
* `C38_text_after_the_term_is_dropped`
* `C39_well_stamped`
* `C39_answers_well_stamped`
* `C39_new_input_is_independent`
* `C39_never_reused`
* `C39_rule_and_goal_confused`
* `C39_rule_counts_twice`
* `C40_event_goal`
* `C40_event`
* `C40_question`
* `C40_statement`
* `C40_rule`
* `C40_eternal_question_dropped`
* `C41_lists_tasks`
* `C41_counts_concepts`
* `C41_quit`
* `C41_comment`
* `C41_step`
* `C41_half_steps_are_whole_steps`
* `C41_cycles`
* `C41_bad_number_crashes`
* `C41_unknown_command`
* `C41_flush`
* `C41_babbling`
* `C41_register`
* `C41_negative_cycles`
* `C41_signed_cycles`
* `C41_register_library`
* `C41_register_unknown`
* `C41_step_order`
* `C41_ascii_lines`
* `C41_second_character_crashes`
* `C42_numbers`
* `C42_poll_in_order`
* `C42_nothing_missed`
* `C42_last_message_again`
* `C42_store_limited_by_lines`
* `C42_answers_unlimited`
* `C43_ball_stays_on_field`
* `C43_bounds`
* `C43_score`
* `C43_moves`
* `C43_every_arrival_counted`
* `C43_perception`
* `C43_only_falls`
* `C43_left_always_missed`
* `C44_new_map_blank`
* `C44_read`
* `C44_write`
* `C44_last_write_wins`
* `C44_extensional`
* `C44_crop`
* `C44_box`
* `C44_circle`
* `C44_line`
* `C44_line_is_a_dot`
* `C44_add`
* `C44_sub`
* `C44_div`
* `C44_add_sub`
* `C44_length`
* `C44_distance_zero`
* `C44_read_write_in_32_bits`
* `C44_maps_in_32_bits`
* `C44_drawing_in_32_bits`
* `C44_large_circle_crashes`
* `C44_large_circle_strays`
* `C45_operations`
* `C45_expressions`
* `C45_division_iff`
* `C45_division_wrong`
* `C45_sigmoid_exact`
* `C45_sigmoid_wrong`
* `C45_relu`
* `C45_dot`
* `C45_dot_crash`
* `C45_neuron`
* `C45_network`
* `C45_network_crash`
* `C45_weights_tracked`
* `C45_bias_derivative_wrong`
* `C46_move`
* `C46_winner`
* `C46_game`
* `C46_result`
* `C47_best_match`
* `C47_no_match`
* `C47_look`
* `C47_learn`
* `C47_look_maps`
* `C47_learn_maps`
* `C47_history`
* `C47_never_forgets`
* `C47_history_maps`
* `C47_similarity`
* `C47_similar_iff`
* `C47_two_thirds`
* `C47_similarity_maps`
* `C47_one_hot`
* `C47_image_code`
* `C47_value_crash`
* `C47_top_level`
* `C48_introduction_generalises`
* `C48_introduced_exactly_when_repeated`
* `C49_names_distinct`
* `C50_unique_subterms`
* `C51_relations`
* `C52_usefulness_range`
* `C52_usefulness_grows_with_use`
* `C52_usefulness_decays`
* `C52_use_raises`
* `C53_two_premise_conclusions_exact`
* `C54_single_premise_conclusions_exact`
* `C55_statements_order_independent`
* `C55_truth_order_independent_partial`
* `C55_abduction_truth_depends_on_order`
* `C56_memory_never_crashes`
* `C56_axioms_break_revision`
* `C57_lookup`
* `C59_partners`
* `C59_partners_complete`
* `C60_strong_rules`
* `C60_weak_rules`
* `C60_no_evidence`
* `C61_goal_system_never_crashes`
* `C61_boundaries`
* `C62_desired_goals_sampled_partial`
* `C62_goal_starves`
* `C62_satisfied_goals_still_sampled`
* `C64_storage_exact`
* `C64_new_rules`
* `C65_worker`
* `C65_factor_never_grows`
* `C65_cycle`
* `C65_system_histories`
* `C67_crashes_iff`
* `C67_characters_outside_ascii_crash`
* `C67_no_crash_partial`
* `C68_candidates`
* `C68_answers`
* `C68_not_available`
* `C68_never_answered`
* `C68_answer_withheld`
* `C68_server_never_answers`
* `C69_derivable`
* `C69_answers_derivable`
* `C69_nothing_told`
* `C70_ends`
* `C70_execute_and_inject`
* `C70_execute_other_arguments`
* `C70_relation`
* `C70_short_product_crashes`
* `C70_long_product_cut`
* `C70_only_reports`
* `C70_relation_is_told`
* `C72_partial`
* `C72_quit_is_ignored`
* `C72_crash_ends_service`
* `C73_server_refines_reasoner`
* `C73_beliefs_well_stamped`
* `C74_sums`
* `C74_scale`
* `C74_length`
* `C74_cosine`
* `C74_cosine_of_zero`
* `C75_convolution_partial`
* `C75_convolution_even`
* `C75_odd_kernel_cut`
* `C75_without_border`
* `C76_kernel`
* `C76_bounded`
* `C76_centre`
* `C76_symmetric`
* `C76_half_turn`
* `C77_recognised_partial`
* `C77_unsure_never_recognised`
* `C77_nothing_matches_anything`
* `C77_recognised_maps`
* `C63_never_crashes_partial`
* `C63_always_finishes`
* `C63_worker_survives`
* `C63_draw_kills_worker`
* `C63_names_exact`
* `C63_told_rule_kills_worker`
* `C63_told_rule_crashes`
* `C63_told_rule_without_operator`
* `C63_operator_named_thing`
* `C63_empty_compound_crashes`
* `C63_unprintable_action_crashes`
* `C71_declarative`
* `C71_procedural`
* `C71_memory`
* `C71_tasks`
* `C71_lookup`
* `C71_takes_best`
* `C71_answers_match`
* `C71_answers_improve`
* `C71_rules`
* `C71_rules_keep_evidence`
* `C71_goals`
* `C66_rule_tables_bounded`
* `C66_step_limits`
* `C66_anticipations_bounded`
* `C66_told_rule_cuts`
* `C66_told_rule_forgets`
* `C78_handed_over`
* `C78_oldest_first`
* `C78_idle`
* `C78_others_leave_it`
* `C78_crash_is_final`
* `C78_crash_is_noticed`
* `C58_system_never_crashes`
* `C58_worker_survives`
* `C58_work_is_done`
* `C58_cycle_succeeds`
* `C58_use_succeeds`
* `C58_declarative_use_never_crashes`
* `C58_typed_terms_are_sane`
* `C58_short_product_crashes`
* `C58_axiom_gives_no_number`
* `C58_empty_compound_gives_no_number`
* `C79_can_always_finish_partial`
* `C79_never_hangs_partial`
* `C80_alone`
* `C80_working_list`
* `C80_lookup_sound`
* `C80_lookup_complete`
* `C80_quiet`
* `C80_memory`
* `C80_never_crashes`
* `C80_consistent_partial`
* `C80_duplicate_by_race`
* `C80_two_beliefs_by_race`
* `C81_random_numbers`
* `C81_slopes`
* `C81_step`
* `C81_every_choice_possible`
* `C81_rates`
* `C81_error_shrinks_iff`
* `C81_training`
* `C81_samples_consistent`
* `C81_sentence_not_trained`
* `C81_samples_teach_sentences`
* `C81_samples_learnable`
* `C82_round_trip`
* `C82_trained`
* `C82_any_order`
* `C82_empty_crash`
* `C83_encoding_injective`
* `C83_choice`
* `C83_result_iff`
* `C83_taught_sentences`
* `C83_taught_but_ignored`
* `C83_words_only`
* `C83_crashes`
* `C83_crash_by_network`
* `C83_second_sentence_crashes`
* `C83_no_network`
* `C83_training_blocks_sentences`
* `C83_after_training`
* `C83_beliefs`
* `C83_known_are_words`
* `C83_assertion`
* `C84_everyday_session_partial`
* `C84_interactive`
* `C84_missing_file`
* `C84_files_joined`
* `C84_nothing_after_quit`
* `C84_end_of_input_repeats`
* `C84_command_line`
* `C85_everyday_files_partial`
* `C85_first_answer`
* `C85_no_answer`
* `C85_unmarked_questions`
* `C85_score`
* `C85_nothing_answered`
* `C86_always_crashes`
* `C86_crash_is_unwrap`
* `C87_never_crashes`
* `C87_coupling`
* `C87_clocks`
* `C87_first_ball`
* `C87_ratio`
* `C87_slow_worker_crash`
* `C88_never_crashes`
* `C88_counters`
* `C88_counters_add_up`
* `C88_goal_known`
* `C88_one_game_more`
* `C88_stale_move`
* `C89_cycle_counts_uses`
* `C89_copies_agree`
* `C89_told_statement_is_shared`
* `C89_use_of_pooled_belief_is_lost`
* `C90_full_list_takes_no_statement`
* `C90_list_by_expectation_takes_better_partial`
* `C91_f64`
* `C91_truth_functions_in_range`
* `C91_revision`
* `C91_chains_in_range`
* `C91_fold_in_range`
* `C91_no_invented_confidence`
* `C91_revision_commutes`
* `C91_confidence_one`
* `C91_confidence_lost`
* `C91_not_associative`
* `C92_exact`
* `C92_truth_functions_close`
* `C92_revision_close`
* `C92_comparison_close`
* `C92_goal_deduction_partial`
* `C92_goal_choice_flips`
* `C93_same_parser`
* `C93_depth_bound_is_irrelevant`
* `C93_without_parentheses_partial`
* `C93_always_ends`
* `C93_open_parentheses`
* `C93_nested_conjunctions`
* `C93_not_polynomial`
* `C94_memory_stays_sane`
* `C94_no_update_lost`
* `C94_gains_unique`
* `C94_as_if_before`
* `C94_counted_once`
* `C94_round_at_once`
* `C94_covers_histories`
* `C95_conclusions_from_two`
* `C95_conclusions_from_one`
* `C95_declarative_reasoning`
* `C95_procedural_reasoning`
* `C95_library_operators`
* `C95_whole_reasoner`
* `C95_answers`
* `C95_written_lines`
* `C95_any_names`
* `C95_syllogism_about_anything`
* `C95_learned_about_anything`
* `C96_every_task_once`
* `C96_thought_through`
* `C96_whole_reasoner`
* `C96_new_reasoner`
* `C96_only_the_first_51`
* `C96_crowded_out`
* `C96_dropped_before_its_turn`
* `C97_conclusions_per_message`
* `C97_tasks_kept`
* `C97_regular_trimming`
* `C97_tables`
* `C97_questions_are_kept`
* `C97_questions_without_limit`
* `C97_concepts_without_limit`
* `C97_whole_conclusions`
* `C97_whole_tables`
* `C97_whole_tasks_kept`
* `C97_waiting_work_without_limit`
* `C98_known_way_taken_partial`
* `C98_way_can_be_found`
* `C98_told_operator_goal_blocks`
* `C98_told_goal_stops_all`
* `C98_fulfilled_goal_in_the_way`
* `C98_fulfilled_goal_pursued`
* `C99_knowledge_not_by_chance`
* `C99_same_holds`
* `C99_answers_by_chance`
* `C99_asking_guides_thoughts`
* `C99_reports_are_believed`
* `C100_never_crashes_partial`
* `C100_no_number_crashes`
* `C100_typed_rule_crashes`
* `C100_draw_crashes`
* `C100_axiom_gives_no_number`
* `C100_unreadable_crashes`
* `C100_library_operators_partial`
* `C100_library_operator_crashes`
* `C101_nothing_lost`
* `C101_serves_partial`
* `C101_next_line_handled_partial`
* `C101_worker_goes_on_partial`
* `C101_all_served_partial`
* `C102_two_premises_partial`
* `C102_one_premise_partial`
* `C102_beliefs_fit_partial`
* `C102_answers_fit_partial`
* `C102_no_contradiction_partial`
* `C102_disjunction_taken_apart`
* `C102_third_dropped`
* `C102_denial_taken_apart`
* `C102_something_confused`
* `C102_guesses_pool`
* `C103_trail_partial`
* `C103_answer_trail_partial`
* `C103_numbers_once`
* `C103_only_the_trail_matters_partial`
* `C103_evidence_adds_up_partial`
* `C103_no_confidence_from_nothing_partial`
* `C103_cut_trail`
* `C104_known_is_answered_partial`
* `C104_fair_shares`
* `C104_only_question`
* `C104_told_is_answered_partial`
* `C104_nameless_question`
* `C104_who_is_what_unanswered`
* `C105_no_new_names`
* `C105_no_new_names_in_answers`
* `C105_topics_do_not_mix_partial`
* `C105_answers_do_not_mix_partial`
* `C105_connected_partial`
* `C105_variables_mix`
* `C106_printed`
* `C106_texts_differ`
* `C106_texts_stand_alone`
* `C106_lines_differ`
* `C106_answer_messages_differ`
* `C106_lines_are_legible`
* `C106_beliefs_differ`
* `C106_answers_legible`
* `C106_single_parts`
* `C107_not_unlearned_partial`
* `C107_lists_grow_partial`
* `C107_confirmed`
* `C107_gives_way_to_the_expected_partial`
* `C107_confident_denial_forgotten`
* `C107_better_conclusion_ignored`
* `C108_pooled_partial`
* `C108_order_does_not_matter_partial`
* `C108_order_matters_when_full`
* `C108_without_evidence`
* `C108_while_acting_partial`
* `C108_not_by_deeds_partial`
* `C109_most_salient_left_out`
* `C110_agrees_partial`
* `C110_one_opinion_partial`
* `C110_contradicts_itself_when_full`
* `C111_clocks`
* `C111_identifiers`
* `C111_put_in_by_user`
* `C111_no_overflow`
* `C112_one_experience_is_enough`
* `C113_typed_course`
* `C113_typing_is_telling`
* `C113_printed_sentences_can_be_typed`
* `C113_cycles_typed`
* `C113_lines_are_calls`
* `C113_every_line`
* `C114_only_what_worked`
* `C114_discredited_not_done`
* `C114_given_up_for_good`
* `C114_failures_spread_over_copies`
* `C115_deeds_not_by_beliefs_partial`
* `C115_same_deed_partial`
* `C115_statement_stops_deed`
* `C116_done_for_a_goal`
* `C116_reasoner_acts_for_a_goal`
* `C116_nothing_wanted_nothing_done`
* `C116_earlier_steps_left_out`
* `C116_steps_skipped`
* `C117_instance_acted_on`
* `C117_done_with_the_thing_seen`
* `C117_transferred`
* `C117_effect_on_the_thing_not_transferred`
* `C117_done_again_with_the_same_thing`
* `C118_only_distances_matter_partial`
* `C118_same_deeds_later_partial`
* `C118_waiting_changes_nothing_partial`
* `C118_waiting_brings_about_deed`
* `C118_waiting_changes_deed`
* `C119_course_exact`
* `C119_no_pair_overlooked`
* `C119_none_overlooked_alone`
* `C119_everything_deduced`
* `C119_only_deducible`
* `C119_known_iff_deducible`
* `C119_new_reasoner`
* `C119_new_reasoner_exact`
* `C119_relations_never_rest`
* `C119_one_relation_for_ever`
* `C119_typed_exact`
* `C120_deducible_is_answered`
* `C120_answers_deducible`
* `C120_exam`
* `C120_answered_iff_deducible`
* `C120_new_reasoner_answers`
* `C120_course_answers`
* `C120_course_answered_iff`
* `C120_typed_answers`
* `C120_typed_answered_iff`
* `C121_more_told_more_known`
* `C121_same_knowledge_in_the_end`
* `C121_same_answers_in_the_end`
* `C121_truth_depends_on_order`
* `C121_typed_same_knowledge`
* `C122_turn_over_for_good`
* `C122_old_facts_left_out`
* `C122_beliefs_stay_in_use_partial`
* `C122_old_fact_never_combined`
* `C123_ordinary_numbers_never_harm_partial`
* `C123_exact_for_sane_numbers_partial`
* `C123_poisoned_term_crashes`
* `C123_nan_crashes`
* `C123_infinity_crashes`
* `C123_certainty_crashes`
* `C123_empty_compound_has_no_priority`
* `C123_no_number_ends_choice`
* `C123_numbers_choose_partial`
* `C123_no_number_crashes_trimming`
* `C123_goal_without_usefulness`
* `C123_no_number_crashes_goals`
* `C124_unrelated_matters_partial`
* `C124_unrelated_answers_partial`
* `C124_remark_changes_belief`
* `C124_lives_matters_partial`
* `C124_lives_answers_partial`
* `C125_only_implied`
* `C125_often_enough_partial`
* `C125_nothing_lost_partial`
* `C125_repetition_is_news`
* `C125_lives_only_implied`
* `C125_lives_nothing_lost_partial`
* `C126_only_given_names`
* `C126_not_done_unprompted_partial`
* `C126_reasoner_only_given_names`
* `C126_reasoner_not_unprompted_partial`
* `C126_mentioned_is_executed`
* `C127_known_iff_deducible`
* `C127_only_deducible`
* `C127_knowledge_not_by_deeds`
* `C127_answers_deducible`
* `C127_answered_iff`
* `C127_typed_life`
* `C128_own_credit`
* `C128_own_credit_bounds`
* `C128_questions_attract`
* `C128_unasked`
* `C128_taken_has_most`
* `C128_simplest_taken`
* `C128_reasoner_own_credit`
* `C128_reasoner_questions_attract`
* `C128_reasoner_unasked`
* `C128_reasoner_taken_has_most`
* `C128_reasoner_takes_one`
* `C128_reasoner_simplest_taken`
* `C129_younger_simpler_first`
* `C129_just_told`
* `C129_left_alone_partial`
* `C129_told_left_alone_partial`
* `C129_never_its_turn`
* `C129_forgotten_before_its_turn`
* `C130_question_credit_bounded`
* `C130_asked_about_first_partial`
* `C130_small_talk_wins`
* `C130_asked_in_vain`
* `C130_asked_but_not_next`
* `C131_no_flood`
* `C131_last_answer`
* `C131_looked_after_once`
* `C131_at_rest`
* `C131_at_rest_by_share`
