{
 "claims": [
  {
   "property": "C01",
   "status": "proved",
   "theorems": [
    "Nar.Props.C01_comparison_decides_identity",
    "Nar.Props.C01_comparison_equivalence"
   ],
   "note": ""
  },
  {
   "property": "C02",
   "status": "proved",
   "theorems": [
    "Nar.Props.C02_match_sound",
    "Nar.Props.C02_match_instantiates"
   ],
   "note": ""
  },
  {
   "property": "C03",
   "status": "proved",
   "theorems": [
    "Nar.Props.C03_match_complete",
    "Nar.Props.C03_match_iff_instance",
    "Nar.Props.C03_variable_target_not_matched"
   ],
   "note": "Complete for targets without variables; C03_variable_target_not_matched shows the restriction is needed."
  },
  {
   "property": "C04",
   "status": "proved",
   "theorems": [
    "Nar.Props.C04_bindings_functional"
   ],
   "note": ""
  },
  {
   "property": "C05",
   "status": "proved",
   "theorems": [
    "Nar.Props.C05_merge_from_parents",
    "Nar.Props.C05_merge_lossless",
    "Nar.Props.C05_merge_keeps_both",
    "Nar.Props.C05_long_trails_forget"
   ],
   "note": "Holds up to the 120-entry limit; C05_long_trails_forget is the proved limit of the guarantee."
  },
  {
   "property": "C06",
   "status": "proved",
   "theorems": [
    "Nar.Props.C06_overlap_exact",
    "Nar.Props.C06_overlap_symmetric",
    "Nar.Props.C06_same_exact",
    "Nar.Props.C06_same_is_order_sensitive"
   ],
   "note": ""
  },
  {
   "property": "C07",
   "status": "proved",
   "theorems": [
    "Nar.Props.C07_truth_functions_in_range",
    "Nar.Props.C07_revision_in_range",
    "Nar.Props.C07_revision_undefined_at_one",
    "Nar.Props.C07_chains_in_range",
    "Nar.Props.C07_fold_in_range"
   ],
   "note": "Revision is defined only for confidences below 1 (C07_revision_undefined_at_one)."
  },
  {
   "property": "C08",
   "status": "proved",
   "theorems": [
    "Nar.Props.C08_rev_comm",
    "Nar.Props.C08_rev_assoc",
    "Nar.Props.C08_rev_confidence_grows",
    "Nar.Props.C08_rev_adds_evidence",
    "Nar.Props.C08_rev_frequency_between",
    "Nar.Props.C08_rev_without_evidence",
    "Nar.Props.C08_fold_adds_evidence"
   ],
   "note": ""
  },
  {
   "property": "C09",
   "status": "proved",
   "theorems": [
    "Nar.Props.C09_confidence_not_invented",
    "Nar.Props.C09_weak_rules",
    "Nar.Props.C09_negation",
    "Nar.Props.C09_goal_deduction_picks_stronger"
   ],
   "note": ""
  },
  {
   "property": "C10",
   "status": "proved",
   "theorems": [
    "Nar.Props.C10_no_conclusion_on_shared_evidence",
    "Nar.Props.C10_conclusion_shares_evidence",
    "Nar.Props.C10_single_premise_evidence"
   ],
   "note": ""
  },
  {
   "property": "C11",
   "status": "proved",
   "theorems": [
    "Nar.Props.C11_no_invented_vocabulary",
    "Nar.Props.C11_no_invented_vocabulary_single"
   ],
   "note": ""
  },
  {
   "property": "C12",
   "status": "proved",
   "theorems": [
    "Nar.Props.C12_truth_in_range",
    "Nar.Props.C12_truth_in_range_single",
    "Nar.Props.C12_counted_evidence_in_range",
    "Nar.Props.C12_no_conclusion_without_judgement"
   ],
   "note": ""
  },
  {
   "property": "C13",
   "status": "proved",
   "theorems": [
    "Nar.Props.C13_judgements_never_crash",
    "Nar.Props.C13_single_premise_crash_exact",
    "Nar.Props.C13_question_crashes_in_one_order",
    "Nar.Props.C13_image_question_crashes"
   ],
   "note": "Proved for judgements (exact crash condition for one premise); crashes with questions are proved as witnesses."
  },
  {
   "property": "C14",
   "status": "proved",
   "theorems": [
    "Nar.Props.C14_tables_bounded",
    "Nar.Props.C14_one_concept_per_term"
   ],
   "note": ""
  },
  {
   "property": "C15",
   "status": "proved",
   "theorems": [
    "Nar.Props.C15_one_belief_per_statement",
    "Nar.Props.C15_independent_evidence_is_pooled",
    "Nar.Props.C15_dependent_evidence_is_ignored",
    "Nar.Props.C15_needs_evidence_trail"
   ],
   "note": ""
  },
  {
   "property": "C16",
   "status": "proved",
   "theorems": [
    "Nar.Props.C16_limit_size",
    "Nar.Props.C16_limit_keeps_best",
    "Nar.Props.C16_limit_total"
   ],
   "note": ""
  },
  {
   "property": "C17",
   "status": "proved",
   "theorems": [
    "Nar.Props.C17_filed_under_all_subterms",
    "Nar.Props.C17_added_belief_is_in_memory"
   ],
   "note": ""
  },
  {
   "property": "C18",
   "status": "partial",
   "theorems": [
    "Nar.Props.C18_filing_ranks",
    "Nar.Props.C18_ranked_partial",
    "Nar.Props.C18_revision_breaks_ranking"
   ],
   "note": "Filing ranks both tables and ranking is kept while no revision happens (_partial); C18_revision_breaks_ranking proves the violation by revision."
  },
  {
   "property": "C19",
   "status": "proved",
   "theorems": [
    "Nar.Props.C19_answers_improve",
    "Nar.Props.C19_best_is_maximum",
    "Nar.Props.C19_better_answer_is_reported",
    "Nar.Props.C19_question_history",
    "Nar.Props.C19_every_answer_matches",
    "Nar.Props.C19_candidates",
    "Nar.Props.C19_sampled_question_is_answered",
    "Nar.Props.C19_system_answers_match"
   ],
   "note": ""
  },
  {
   "property": "C20",
   "status": "proved",
   "theorems": [
    "Nar.Props.C20_working_list_readable",
    "Nar.Props.C20_unique_ids",
    "Nar.Props.C20_bounded_complexity",
    "Nar.Props.C20_no_duplicates",
    "Nar.Props.C20_added_is_worked_on",
    "Nar.Props.C20_too_complex_ignored",
    "Nar.Props.C20_system_unique_ids"
   ],
   "note": ""
  },
  {
   "property": "C21",
   "status": "proved",
   "theorems": [
    "Nar.Props.C21_cleanup",
    "Nar.Props.C21_cleanup_keeps_few"
   ],
   "note": ""
  },
  {
   "property": "C22",
   "status": "proved",
   "theorems": [
    "Nar.Props.C22_top_selection",
    "Nar.Props.C22_highest_selection",
    "Nar.Props.C22_random_selection",
    "Nar.Props.C22_random_selection_valid",
    "Nar.Props.C22_random_selection_empty",
    "Nar.Props.C22_cycle_takes_best",
    "Nar.Props.C22_credit",
    "Nar.Props.C22_system_takes_best"
   ],
   "note": ""
  },
  {
   "property": "C23",
   "status": "proved",
   "theorems": [
    "Nar.Props.C23_capacity",
    "Nar.Props.C23_nothing_invented",
    "Nar.Props.C23_best_kept",
    "Nar.Props.C23_nothing_dropped_below_capacity",
    "Nar.Props.C23_executable_goals_count_twice"
   ],
   "note": "Capacity, nothing invented, best kept; executable goals are counted twice against the capacity (proved witness)."
  },
  {
   "property": "C24",
   "status": "partial",
   "theorems": [
    "Nar.Props.C24_executable_goals_once",
    "Nar.Props.C24_executable_goal_again",
    "Nar.Props.C24_new_goal_is_stored",
    "Nar.Props.C24_first_goal_once_partial",
    "Nar.Props.C24_second_goal_stored_twice"
   ],
   "note": "Holds for executable goals and for the first goal of a statement (_partial); C24_second_goal_stored_twice proves the violation."
  },
  {
   "property": "C25",
   "status": "proved",
   "theorems": [
    "Nar.Props.C25_goals_at_their_depth",
    "Nar.Props.C25_goals_grouped_by_statement"
   ],
   "note": ""
  },
  {
   "property": "C26",
   "status": "partial",
   "theorems": [
    "Nar.Props.C26_event_satisfies_matching_goals",
    "Nar.Props.C26_step_satisfies",
    "Nar.Props.C26_step_without_events",
    "Nar.Props.C26_earlier_event_ignored"
   ],
   "note": "Proved for events and steps; C26_earlier_event_ignored proves that earlier events between two steps satisfy nothing."
  },
  {
   "property": "C27",
   "status": "proved",
   "theorems": [
    "Nar.Props.C27_sample_is_stored",
    "Nar.Props.C27_sample_never_crashes",
    "Nar.Props.C27_sample_distribution",
    "Nar.Props.C27_nothing_only_without_weight",
    "Nar.Props.C27_draw_zero"
   ],
   "note": ""
  },
  {
   "property": "C28",
   "status": "proved",
   "theorems": [
    "Nar.Props.C28_goal_and_rule",
    "Nar.Props.C28_first_step",
    "Nar.Props.C28_derived_goals_are_grounded",
    "Nar.Props.C28_rules_considered",
    "Nar.Props.C28_every_rule_is_used_for_some_draw"
   ],
   "note": ""
  },
  {
   "property": "C29",
   "status": "proved",
   "theorems": [
    "Nar.Props.C29_window_is_newest",
    "Nar.Props.C29_limited_window",
    "Nar.Props.C29_window_after_step",
    "Nar.Props.C29_last_event",
    "Nar.Props.C29_no_last_event"
   ],
   "note": ""
  },
  {
   "property": "C30",
   "status": "proved",
   "theorems": [
    "Nar.Props.C30_counts_consistent",
    "Nar.Props.C30_counts_never_decrease",
    "Nar.Props.C30_truth_in_range",
    "Nar.Props.C30_rules_have_a_condition"
   ],
   "note": ""
  },
  {
   "property": "C31",
   "status": "partial",
   "theorems": [
    "Nar.Props.C31_anticipations_exact_partial",
    "Nar.Props.C31_in_time_adds_nothing",
    "Nar.Props.C31_effect_missed",
    "Nar.Props.C31_only_one_copy_disappointed"
   ],
   "note": "What a step does to anticipations and rules is stated exactly. The full property is violated: an effect which occurs before the deadline but is followed by two more events before the next step is not recognised and counts as failure (C31_effect_missed); and only one of the stored copies of a rule gets the negative observation (C31_only_one_copy_disappointed)."
  },
  {
   "property": "C32",
   "status": "proved",
   "theorems": [
    "Nar.Props.C32_decision",
    "Nar.Props.C32_executed_only_above_threshold",
    "Nar.Props.C32_nothing_below_threshold",
    "Nar.Props.C32_best_goal_for_state"
   ],
   "note": "The selected goal has maximal expectation among the executable desired goals; the option adopted before is the best of those sampled (see Adopted/IsOption in Spec/Proc)."
  },
  {
   "property": "C33",
   "status": "proved",
   "theorems": [
    "Nar.Props.C33_babbling",
    "Nar.Props.C33_every_babbleable_operator",
    "Nar.Props.C33_most_draws_do_nothing",
    "Nar.Props.C33_disabled"
   ],
   "note": ""
  },
  {
   "property": "C34",
   "status": "proved",
   "theorems": [
    "Nar.Props.C34_largest_interval_that_fits",
    "Nar.Props.C34_monotone",
    "Nar.Props.C34_empty_table",
    "Nar.Props.C34_expected_not_later_than_observed",
    "Nar.Props.C34_expected_too_early"
   ],
   "note": ""
  },
  {
   "property": "C35",
   "status": "proved",
   "theorems": [
    "Nar.Props.C35_round_trip",
    "Nar.Props.C35_only_calls",
    "Nar.Props.C35_no_arguments",
    "Nar.Props.C35_registered"
   ],
   "note": ""
  },
  {
   "property": "C36",
   "status": "proved",
   "theorems": [
    "Nar.Props.C36_rule_shape",
    "Nar.Props.C36_only_observations_learned",
    "Nar.Props.C36_every_observation_can_be_learned"
   ],
   "note": "Reachability of every observation is shown for the default of one operator per rule."
  },
  {
   "property": "C37",
   "status": "proved",
   "theorems": [
    "Nar.Props.C37_reads_exactly_the_notation",
    "Nar.Props.C37_depth_bound_is_irrelevant",
    "Nar.Props.C37_unambiguous",
    "Nar.Props.C37_lines_are_read",
    "Nar.Props.C37_blanks_at_stars",
    "Nar.Props.C37_printed_terms_read_back",
    "Nar.Props.C37_printed_sentences_read_back",
    "Nar.Props.C37_printed_compounds_are_rejected"
   ],
   "note": "The rejection of printed compounds is part of the statement and proved for all of them."
  },
  {
   "property": "C38",
   "status": "partial",
   "theorems": [
    "Nar.Props.C38_accepts_partial",
    "Nar.Props.C38_text_after_the_term_is_dropped"
   ],
   "note": "Exact set of accepted lines proved (_partial: arbitrary text may follow the term); C38_text_after_the_term_is_dropped proves the violation for every term."
  },
  {
   "property": "C39",
   "status": "partial",
   "theorems": [
    "Nar.Props.C39_well_stamped",
    "Nar.Props.C39_answers_well_stamped",
    "Nar.Props.C39_new_input_is_independent",
    "Nar.Props.C39_never_reused",
    "Nar.Props.C39_rule_and_goal_confused",
    "Nar.Props.C39_rule_counts_twice"
   ],
   "note": "Invariant proved for the declarative reasoner for every history; C39_rule_and_goal_confused proves the id collision between learned rules and goals; C39_rule_counts_twice shows a rule counting an observation twice."
  },
  {
   "property": "C40",
   "status": "partial",
   "theorems": [
    "Nar.Props.C40_event_goal",
    "Nar.Props.C40_event",
    "Nar.Props.C40_question",
    "Nar.Props.C40_statement",
    "Nar.Props.C40_rule",
    "Nar.Props.C40_eternal_question_dropped"
   ],
   "note": "All routes proved with frames; C40_eternal_question_dropped proves the violation."
  },
  {
   "property": "C41",
   "status": "partial",
   "theorems": [
    "Nar.Props.C41_lists_tasks",
    "Nar.Props.C41_counts_concepts",
    "Nar.Props.C41_quit",
    "Nar.Props.C41_comment",
    "Nar.Props.C41_step",
    "Nar.Props.C41_half_steps_are_whole_steps",
    "Nar.Props.C41_cycles",
    "Nar.Props.C41_bad_number_crashes",
    "Nar.Props.C41_unknown_command",
    "Nar.Props.C41_flush",
    "Nar.Props.C41_babbling",
    "Nar.Props.C41_register",
    "Nar.Props.C41_line_ends",
    "Nar.Props.C41_negative_cycles",
    "Nar.Props.C41_signed_cycles",
    "Nar.Props.C41_register_library",
    "Nar.Props.C41_register_unknown",
    "Nar.Props.C41_step_order",
    "Nar.Props.C41_ascii_lines",
    "Nar.Props.C41_second_character_crashes"
   ],
   "note": "All commands proved; C41_half_steps_are_whole_steps, C41_bad_number_crashes and C41_second_character_crashes prove the violations."
  },
  {
   "property": "C42",
   "status": "partial",
   "theorems": [
    "Nar.Props.C42_numbers",
    "Nar.Props.C42_poll_in_order",
    "Nar.Props.C42_nothing_missed",
    "Nar.Props.C42_last_message_again",
    "Nar.Props.C42_store_limited_by_lines",
    "Nar.Props.C42_answers_unlimited"
   ],
   "note": "Order, completeness and the limit for lines are proved; repeated delivery of the last message and unlimited storage of answers are proved as violations."
  },
  {
   "property": "C43",
   "status": "partial",
   "theorems": [
    "Nar.Props.C43_ball_stays_on_field",
    "Nar.Props.C43_bounds",
    "Nar.Props.C43_score",
    "Nar.Props.C43_moves",
    "Nar.Props.C43_every_arrival_counted",
    "Nar.Props.C43_perception",
    "Nar.Props.C43_operators",
    "Nar.Props.C43_only_falls",
    "Nar.Props.C43_left_always_missed",
    "Nar.Props.C43_left_occurs",
    "Nar.Props.C43_bat_leaves_field",
    "Nar.Props.C43_fast_ball_escapes"
   ],
   "note": "Never crashes, ball in bounds, bat range, exact scoring, perception and operators are proved for all histories; the bat leaving the field (C43_bat_leaves_field), the uncoverable left columns (C43_left_always_missed, C43_left_occurs) and fast balls escaping (C43_fast_ball_escapes) are proved as violations."
  },
  {
   "property": "C44",
   "status": "partial",
   "theorems": [
    "Nar.Props.C44_new_map_blank",
    "Nar.Props.C44_new_map_crash",
    "Nar.Props.C44_read",
    "Nar.Props.C44_write",
    "Nar.Props.C44_last_write_wins",
    "Nar.Props.C44_extensional",
    "Nar.Props.C44_crop",
    "Nar.Props.C44_box",
    "Nar.Props.C44_circle",
    "Nar.Props.C44_circle_too_small",
    "Nar.Props.C44_line",
    "Nar.Props.C44_line_is_a_dot",
    "Nar.Props.C44_add",
    "Nar.Props.C44_sub",
    "Nar.Props.C44_div",
    "Nar.Props.C44_add_sub",
    "Nar.Props.C44_length",
    "Nar.Props.C44_distance_zero",
    "Nar.Props.C44_both_builds",
    "Nar.Props.C44_read_write_in_32_bits",
    "Nar.Props.C44_maps_in_32_bits",
    "Nar.Props.C44_drawing_in_32_bits",
    "Nar.Props.C44_large_circle_crashes",
    "Nar.Props.C44_large_circle_strays",
    "Nar.Props.C44_large_map_has_no_pixels"
   ],
   "note": "All laws are proved for all well-formed maps, with exact arithmetic and with 32 bit arithmetic (checked or wrapping) within its limits; circle and line drawing colour a different set than their names say, which is proved exactly (C44_circle, C44_circle_too_small, C44_line_is_a_dot), and overflows beyond the limits are shown (C44_large_circle_crashes, C44_large_circle_strays, C44_large_map_has_no_pixels). Colours are rational numbers; division of a map by zero is outside the model."
  },
  {
   "property": "C45",
   "status": "partial",
   "theorems": [
    "Nar.Props.C45_operations",
    "Nar.Props.C45_expressions",
    "Nar.Props.C45_division_iff",
    "Nar.Props.C45_division_wrong",
    "Nar.Props.C45_sigmoid_exact",
    "Nar.Props.C45_sigmoid_wrong",
    "Nar.Props.C45_relu",
    "Nar.Props.C45_dot",
    "Nar.Props.C45_dot_crash",
    "Nar.Props.C45_neuron",
    "Nar.Props.C45_network",
    "Nar.Props.C45_network_crash",
    "Nar.Props.C45_weights_tracked",
    "Nar.Props.C45_bias_derivative_wrong"
   ],
   "note": "Proved over the reals for all operations except division; division, sigmoid and bias marking are proved wrong, with the exact error (C45_division_iff, C45_sigmoid_exact, C45_bias_derivative_wrong). Floating point rounding is outside the model."
  },
  {
   "property": "C46",
   "status": "proved",
   "theorems": [
    "Nar.Props.C46_move",
    "Nar.Props.C46_move_crash",
    "Nar.Props.C46_winner",
    "Nar.Props.C46_game",
    "Nar.Props.C46_result",
    "Nar.Props.C46_end_is_final",
    "Nar.Props.C46_perception"
   ],
   "note": "The choice of moves (human, random, reasoner) is left open, so the theorems hold for all players."
  },
  {
   "property": "C47",
   "status": "proved",
   "theorems": [
    "Nar.Props.C47_best_match",
    "Nar.Props.C47_no_match",
    "Nar.Props.C47_look",
    "Nar.Props.C47_learn",
    "Nar.Props.C47_look_maps",
    "Nar.Props.C47_learn_maps",
    "Nar.Props.C47_history",
    "Nar.Props.C47_never_forgets",
    "Nar.Props.C47_history_maps",
    "Nar.Props.C47_similarity",
    "Nar.Props.C47_similar_iff",
    "Nar.Props.C47_two_thirds",
    "Nar.Props.C47_similarity_maps",
    "Nar.Props.C47_one_hot",
    "Nar.Props.C47_image_code",
    "Nar.Props.C47_value_crash",
    "Nar.Props.C47_top_level"
   ],
   "note": "Both classifiers (truth values and maps). Exact arithmetic; the exponential function of the map classifier is a parameter."
  },
  {
   "property": "C48",
   "status": "proved",
   "theorems": [
    "Nar.Props.C48_introduction_generalises",
    "Nar.Props.C48_introduced_exactly_when_repeated",
    "Nar.Props.C48_copy_keeps_attributes"
   ],
   "note": ""
  },
  {
   "property": "C49",
   "status": "partial",
   "theorems": [
    "Nar.Props.C49_name_is_produced_partial",
    "Nar.Props.C49_names_distinct",
    "Nar.Props.C49_crashes_on_fifteen"
   ],
   "note": "Violated: any draw equal to 15 panics (C49_crashes_on_fifteen). Proved for all other draws."
  },
  {
   "property": "C50",
   "status": "proved",
   "theorems": [
    "Nar.Props.C50_subterms_exact",
    "Nar.Props.C50_unique_subterms",
    "Nar.Props.C50_complexity_counts"
   ],
   "note": ""
  },
  {
   "property": "C51",
   "status": "partial",
   "theorems": [
    "Nar.Props.C51_relations",
    "Nar.Props.C51_negation_is_ignored",
    "Nar.Props.C51_other_arities_crash"
   ],
   "note": "Proved for two-place relations; C51_negation_is_ignored proves that the negation flag has no effect (its producers always pass false), C51_other_arities_crash that others crash."
  },
  {
   "property": "C52",
   "status": "proved",
   "theorems": [
    "Nar.Props.C52_usefulness_range",
    "Nar.Props.C52_usefulness_grows_with_use",
    "Nar.Props.C52_usefulness_decays",
    "Nar.Props.C52_use_raises"
   ],
   "note": ""
  },
  {
   "property": "C53",
   "status": "proved",
   "theorems": [
    "Nar.Props.C53_two_premise_conclusions_exact"
   ],
   "note": ""
  },
  {
   "property": "C54",
   "status": "proved",
   "theorems": [
    "Nar.Props.C54_single_premise_conclusions_exact"
   ],
   "note": ""
  },
  {
   "property": "C55",
   "status": "partial",
   "theorems": [
    "Nar.Props.C55_statements_order_independent",
    "Nar.Props.C55_truth_order_independent_partial",
    "Nar.Props.C55_abduction_truth_depends_on_order"
   ],
   "note": "Statements order independent; truth values order independent except for inheritance conclusions (_partial); violation proved for abduction."
  },
  {
   "property": "C56",
   "status": "proved",
   "theorems": [
    "Nar.Props.C56_memory_never_crashes",
    "Nar.Props.C56_axioms_break_revision"
   ],
   "note": "Holds for confidences below 1; C56_axioms_break_revision is the proved violation at confidence 1."
  },
  {
   "property": "C57",
   "status": "proved",
   "theorems": [
    "Nar.Props.C57_lookup"
   ],
   "note": ""
  },
  {
   "property": "C59",
   "status": "proved",
   "theorems": [
    "Nar.Props.C59_partners",
    "Nar.Props.C59_partners_complete"
   ],
   "note": ""
  },
  {
   "property": "C60",
   "status": "proved",
   "theorems": [
    "Nar.Props.C60_strong_rules",
    "Nar.Props.C60_weak_rules",
    "Nar.Props.C60_no_evidence"
   ],
   "note": ""
  },
  {
   "property": "C61",
   "status": "proved",
   "theorems": [
    "Nar.Props.C61_goal_system_never_crashes",
    "Nar.Props.C61_boundaries"
   ],
   "note": ""
  },
  {
   "property": "C62",
   "status": "partial",
   "theorems": [
    "Nar.Props.C62_desired_goals_sampled_partial",
    "Nar.Props.C62_goal_starves",
    "Nar.Props.C62_satisfied_goals_still_sampled"
   ],
   "note": "First group of a level and late goals of other groups can be sampled (_partial); starvation and sampling of satisfied goals are proved as violations."
  },
  {
   "property": "C64",
   "status": "proved",
   "theorems": [
    "Nar.Props.C64_storage_exact",
    "Nar.Props.C64_new_rules"
   ],
   "note": ""
  },
  {
   "property": "C65",
   "status": "proved",
   "theorems": [
    "Nar.Props.C65_worker",
    "Nar.Props.C65_factor_never_grows",
    "Nar.Props.C65_cycle",
    "Nar.Props.C65_system_histories"
   ],
   "note": ""
  },
  {
   "property": "C67",
   "status": "partial",
   "theorems": [
    "Nar.Props.C67_crashes_iff",
    "Nar.Props.C67_characters_outside_ascii_crash",
    "Nar.Props.C67_no_crash_partial"
   ],
   "note": "Exact crash condition proved (C67_crashes_iff); C67_characters_outside_ascii_crash is the violation; C67_no_crash_partial the lines that are safe."
  },
  {
   "property": "C68",
   "status": "partial",
   "theorems": [
    "Nar.Props.C68_candidates",
    "Nar.Props.C68_answers",
    "Nar.Props.C68_not_available",
    "Nar.Props.C68_never_answered",
    "Nar.Props.C68_answer_withheld",
    "Nar.Props.C68_other_questions",
    "Nar.Props.C68_server_never_answers"
   ],
   "note": "Proved for every history in which the rules were made available (C68_candidates, C68_answers) and the converse (C68_not_available, C68_never_answered). Partial since servers never make them available (C68_server_never_answers, C68_answer_withheld)."
  },
  {
   "property": "C69",
   "status": "proved",
   "theorems": [
    "Nar.Props.C69_derivable",
    "Nar.Props.C69_answers_derivable",
    "Nar.Props.C69_nothing_told"
   ],
   "note": "Derivability is an inductive specification; proved for every history of the whole reasoner."
  },
  {
   "property": "C70",
   "status": "partial",
   "theorems": [
    "Nar.Props.C70_ends",
    "Nar.Props.C70_execute_and_inject",
    "Nar.Props.C70_execute_other_arguments",
    "Nar.Props.C70_relation",
    "Nar.Props.C70_short_product_crashes",
    "Nar.Props.C70_long_product_cut",
    "Nar.Props.C70_only_reports",
    "Nar.Props.C70_relation_is_told"
   ],
   "note": "Equations for both operators proved for all nestings; C70_short_product_crashes and C70_long_product_cut prove the violations."
  },
  {
   "property": "C72",
   "status": "partial",
   "theorems": [
    "Nar.Props.C72_partial",
    "Nar.Props.C72_quit_is_ignored",
    "Nar.Props.C72_crash_ends_service"
   ],
   "note": "Survival is proved for lines handled without a crash; C72_crash_ends_service proves the violation."
  },
  {
   "property": "C73",
   "status": "proved",
   "theorems": [
    "Nar.Props.C73_server_refines_reasoner",
    "Nar.Props.C73_beliefs_well_stamped"
   ],
   "note": ""
  },
  {
   "property": "C74",
   "status": "proved",
   "theorems": [
    "Nar.Props.C74_sums",
    "Nar.Props.C74_scale",
    "Nar.Props.C74_length",
    "Nar.Props.C74_cosine",
    "Nar.Props.C74_cosine_of_zero"
   ],
   "note": "Over the real numbers; floating point rounding is outside the model."
  },
  {
   "property": "C75",
   "status": "partial",
   "theorems": [
    "Nar.Props.C75_convolution_partial",
    "Nar.Props.C75_convolution_even",
    "Nar.Props.C75_odd_kernel_cut",
    "Nar.Props.C75_without_border"
   ],
   "note": "Holds for kernels of even width and height. For odd kernels, the usual kind, the last row and column are ignored (C75_odd_kernel_cut: a one-pixel kernel gives a blank image); C75_convolution_partial states exactly which part of the kernel counts."
  },
  {
   "property": "C76",
   "status": "proved",
   "theorems": [
    "Nar.Props.C76_kernel",
    "Nar.Props.C76_bounded",
    "Nar.Props.C76_centre",
    "Nar.Props.C76_symmetric",
    "Nar.Props.C76_half_turn"
   ],
   "note": "Over the real numbers."
  },
  {
   "property": "C77",
   "status": "partial",
   "theorems": [
    "Nar.Props.C77_recognised_partial",
    "Nar.Props.C77_unsure_never_recognised",
    "Nar.Props.C77_nothing_matches_anything",
    "Nar.Props.C77_recognised_maps"
   ],
   "note": "Proved for the map classifier and for truth-value stimuli whose features are all present or absent. Violated for features present to a degree: such a stimulus is not similar enough to itself and adds a prototype each time it is shown (C77_unsure_never_recognised). A stimulus without evidence matches anything (C77_nothing_matches_anything)."
  },
  {
   "property": "C63",
   "status": "partial",
   "theorems": [
    "Nar.Props.C63_never_crashes_partial",
    "Nar.Props.C63_always_finishes",
    "Nar.Props.C63_worker_survives",
    "Nar.Props.C63_draw_kills_worker",
    "Nar.Props.C63_names_exact",
    "Nar.Props.C63_told_rule_kills_worker",
    "Nar.Props.C63_told_rule_crashes",
    "Nar.Props.C63_told_rule_without_operator",
    "Nar.Props.C63_operator_named_thing",
    "Nar.Props.C63_empty_compound_crashes",
    "Nar.Props.C63_unprintable_action_crashes",
    "Nar.Props.C63_selection_endless"
   ],
   "note": "_partial: no crash but possibly an unfinished selection loop, for plain input without the draw 15 of 16 in variable names; finishing and the survival of the worker are proved in full for that input. Violations outside of it are proved."
  },
  {
   "property": "C71",
   "status": "proved",
   "theorems": [
    "Nar.Props.C71_declarative",
    "Nar.Props.C71_procedural",
    "Nar.Props.C71_memory",
    "Nar.Props.C71_tasks",
    "Nar.Props.C71_lookup",
    "Nar.Props.C71_takes_best",
    "Nar.Props.C71_answers_match",
    "Nar.Props.C71_answers_improve",
    "Nar.Props.C71_rules",
    "Nar.Props.C71_rules_keep_evidence",
    "Nar.Props.C71_goals"
   ],
   "note": ""
  },
  {
   "property": "C66",
   "status": "partial",
   "theorems": [
    "Nar.Props.C66_rule_tables_bounded",
    "Nar.Props.C66_step_limits",
    "Nar.Props.C66_anticipations_bounded",
    "Nar.Props.C66_told_rule_cuts",
    "Nar.Props.C66_told_rule_forgets"
   ],
   "note": "All bounds are proved. Violated: \"dropped only when full\". A told rule is stored with the limit 20 of declarative memory, so it cuts each table it is put in to 20 rules (C66_told_rule_cuts for all reachable states, C66_told_rule_forgets with a concrete history)."
  },
  {
   "property": "C78",
   "status": "proved",
   "theorems": [
    "Nar.Props.C78_handed_over",
    "Nar.Props.C78_oldest_first",
    "Nar.Props.C78_idle",
    "Nar.Props.C78_others_leave_it",
    "Nar.Props.C78_crash_is_final",
    "Nar.Props.C78_crash_is_noticed"
   ],
   "note": "The bounded capacity of the channel (4) only delays the sender and is not modelled."
  },
  {
   "property": "C58",
   "status": "partial",
   "theorems": [
    "Nar.Props.C58_system_never_crashes",
    "Nar.Props.C58_worker_survives",
    "Nar.Props.C58_work_is_done",
    "Nar.Props.C58_cycle_succeeds",
    "Nar.Props.C58_use_succeeds",
    "Nar.Props.C58_declarative_use_never_crashes",
    "Nar.Props.C58_typed_terms_are_sane",
    "Nar.Props.C58_short_product_crashes",
    "Nar.Props.C58_axiom_gives_no_number",
    "Nar.Props.C58_empty_compound_gives_no_number"
   ],
   "note": "Proved for all sane statements, with the reach of 'sane' proved for typed input; the three ways to crash outside of the bounds are proved as witnesses. Goals to be pursued and temporal rules belong to C63."
  },
  {
   "property": "C79",
   "status": "partial",
   "theorems": [
    "Nar.Props.C79_can_always_finish_partial",
    "Nar.Props.C79_never_hangs_partial",
    "Nar.Props.C79_exclusive",
    "Nar.Props.C79_listing_hangs"
   ],
   "note": "_partial: all commands but !dt, for which the hang is proved (C79_listing_hangs). Exclusion is proved for all commands. The model is the locking skeleton of each function, with all branches, loop counts and objects left open; panics are not part of it."
  },
  {
   "property": "C80",
   "status": "partial",
   "theorems": [
    "Nar.Props.C80_alone",
    "Nar.Props.C80_working_list",
    "Nar.Props.C80_lookup_sound",
    "Nar.Props.C80_lookup_complete",
    "Nar.Props.C80_quiet",
    "Nar.Props.C80_memory",
    "Nar.Props.C80_never_crashes",
    "Nar.Props.C80_consistent_partial",
    "Nar.Props.C80_duplicate_by_race",
    "Nar.Props.C80_two_beliefs_by_race"
   ],
   "note": "C80_consistent_partial and the other theorems: everything but 'no task twice' and 'one belief per statement', whose violation is proved (C80_duplicate_by_race, C80_two_beliefs_by_race)."
  },
  {
   "property": "C81",
   "status": "partial",
   "theorems": [
    "Nar.Props.C81_random_numbers",
    "Nar.Props.C81_slopes",
    "Nar.Props.C81_step",
    "Nar.Props.C81_every_choice_possible",
    "Nar.Props.C81_rates",
    "Nar.Props.C81_error_shrinks_iff",
    "Nar.Props.C81_training",
    "Nar.Props.C81_samples_consistent",
    "Nar.Props.C81_sentence_not_trained",
    "Nar.Props.C81_samples_teach_sentences",
    "Nar.Props.C81_samples_learnable"
   ],
   "note": "exact arithmetic; the sine of the random number generator is any function into [-1, 1]; the number of epochs is a parameter. C81_sentence_not_trained shows the violation, everything else is proved in full"
  },
  {
   "property": "C82",
   "status": "proved",
   "theorems": [
    "Nar.Props.C82_round_trip",
    "Nar.Props.C82_trained",
    "Nar.Props.C82_any_order",
    "Nar.Props.C82_empty_crash"
   ],
   "note": "the database is a list of rows"
  },
  {
   "property": "C83",
   "status": "partial",
   "theorems": [
    "Nar.Props.C83_words",
    "Nar.Props.C83_encoding_injective",
    "Nar.Props.C83_choice",
    "Nar.Props.C83_result_iff",
    "Nar.Props.C83_taught_sentences",
    "Nar.Props.C83_taught_but_ignored",
    "Nar.Props.C83_words_only",
    "Nar.Props.C83_crashes",
    "Nar.Props.C83_crash_by_network",
    "Nar.Props.C83_second_sentence_crashes",
    "Nar.Props.C83_no_network",
    "Nar.Props.C83_training_blocks_sentences",
    "Nar.Props.C83_after_training",
    "Nar.Props.C83_beliefs",
    "Nar.Props.C83_known_are_words",
    "Nar.Props.C83_assertion"
   ],
   "note": "exact result and exact crash conditions are proved for every network of the shape; violated as stated in C83_crashes, C83_crash_by_network, C83_second_sentence_crashes, C83_training_blocks_sentences, C83_taught_but_ignored"
  },
  {
   "property": "C84",
   "status": "partial",
   "theorems": [
    "Nar.Props.C84_everyday_session_partial",
    "Nar.Props.C84_interactive",
    "Nar.Props.C84_missing_file",
    "Nar.Props.C84_files_joined",
    "Nar.Props.C84_nothing_after_quit",
    "Nar.Props.C84_end_of_input_repeats",
    "Nar.Props.C84_command_line"
   ],
   "note": "number of arguments and the meaning of each mode are exact; C84_end_of_input_repeats shows the violation; everything else is proved in full. That a session never crashes is restricted to everyday lines, as in C100 (C84_everyday_session_partial)."
  },
  {
   "property": "C85",
   "status": "partial",
   "theorems": [
    "Nar.Props.C85_everyday_files_partial",
    "Nar.Props.C85_first_answer",
    "Nar.Props.C85_no_answer",
    "Nar.Props.C85_unmarked_questions",
    "Nar.Props.C85_score",
    "Nar.Props.C85_nothing_answered"
   ],
   "note": "the exponential function of the score is a parameter into (0, 1]; C85_unmarked_questions shows the violation. That a file always gets a result is restricted to everyday lines, as in C100 (C85_everyday_files_partial)."
  },
  {
   "property": "C86",
   "status": "partial",
   "theorems": [
    "Nar.Props.C86_always_crashes",
    "Nar.Props.C86_crash_is_unwrap"
   ],
   "note": "the property is false of the code: C86_always_crashes proves the opposite for all draws"
  },
  {
   "property": "C87",
   "status": "partial",
   "theorems": [
    "Nar.Props.C87_never_crashes",
    "Nar.Props.C87_coupling",
    "Nar.Props.C87_clocks",
    "Nar.Props.C87_first_ball",
    "Nar.Props.C87_ratio",
    "Nar.Props.C87_slow_worker_crash"
   ],
   "note": "the listing of evidence at the end is modelled only in that it needs a concept; C87_slow_worker_crash shows the violation, the rest is proved in full"
  },
  {
   "property": "C88",
   "status": "partial",
   "theorems": [
    "Nar.Props.C88_never_crashes",
    "Nar.Props.C88_counters",
    "Nar.Props.C88_counters_add_up",
    "Nar.Props.C88_goal_known",
    "Nar.Props.C88_one_game_more",
    "Nar.Props.C88_stale_move"
   ],
   "note": "C88_one_game_more and C88_stale_move show the violations, the rest is proved in full"
  },
  {
   "property": "C89",
   "status": "partial",
   "theorems": [
    "Nar.Props.C89_cycle_counts_uses",
    "Nar.Props.C89_copies_agree",
    "Nar.Props.C89_told_statement_is_shared",
    "Nar.Props.C89_use_of_pooled_belief_is_lost"
   ],
   "note": "C89_use_of_pooled_belief_is_lost shows the violation, the rest is proved in full"
  },
  {
   "property": "C90",
   "status": "partial",
   "theorems": [
    "Nar.Props.C90_full_list_takes_no_statement",
    "Nar.Props.C90_list_by_expectation_takes_better_partial"
   ],
   "note": "C90_full_list_takes_no_statement proves the violation for all histories; the list by expectation is covered by C90_list_by_expectation_takes_better_partial"
  },
  {
   "property": "C91",
   "status": "partial",
   "theorems": [
    "Nar.Props.C91_f64",
    "Nar.Props.C91_truth_functions_in_range",
    "Nar.Props.C91_revision",
    "Nar.Props.C91_chains_in_range",
    "Nar.Props.C91_fold_in_range",
    "Nar.Props.C91_no_invented_confidence",
    "Nar.Props.C91_revision_commutes",
    "Nar.Props.C91_confidence_one",
    "Nar.Props.C91_confidence_lost",
    "Nar.Props.C91_not_associative"
   ],
   "note": "range, confidence limits, commutativity and definedness proved for every rounding and shown to apply to f64; confidence can reach one by rounding, growth of confidence and associativity fail in f64 (witnesses)"
  },
  {
   "property": "C92",
   "status": "partial",
   "theorems": [
    "Nar.Props.C92_exact",
    "Nar.Props.C92_truth_functions_close",
    "Nar.Props.C92_revision_close",
    "Nar.Props.C92_comparison_close",
    "Nar.Props.C92_goal_deduction_partial",
    "Nar.Props.C92_goal_choice_flips"
   ],
   "note": "error bounds proved for every rounding with relative error 2^-52 and shown to apply to f64; the choice of goal deduction can flip (witness)"
  },
  {
   "property": "C93",
   "status": "partial",
   "theorems": [
    "Nar.Props.C93_same_parser",
    "Nar.Props.C93_depth_bound_is_irrelevant",
    "Nar.Props.C93_without_parentheses_partial",
    "Nar.Props.C93_always_ends",
    "Nar.Props.C93_open_parentheses",
    "Nar.Props.C93_nested_conjunctions",
    "Nar.Props.C93_not_polynomial"
   ],
   "note": "The desired bound fails for nested parentheses (C93_open_parentheses, C93_nested_conjunctions, C93_not_polynomial); proved: an exponential upper bound for all lines and a linear one for lines without parentheses."
  },
  {
   "property": "C94",
   "status": "proved",
   "theorems": [
    "Nar.Props.C94_memory_stays_sane",
    "Nar.Props.C94_no_update_lost",
    "Nar.Props.C94_gains_unique",
    "Nar.Props.C94_as_if_before",
    "Nar.Props.C94_counted_once",
    "Nar.Props.C94_round_at_once",
    "Nar.Props.C94_covers_histories"
   ],
   "note": "Each locked section is one action; taking the readings of expectations while a rule is filed is part of the filing section."
  },
  {
   "property": "C95",
   "status": "proved",
   "theorems": [
    "Nar.Props.C95_conclusions_from_two",
    "Nar.Props.C95_conclusions_from_one",
    "Nar.Props.C95_declarative_reasoning",
    "Nar.Props.C95_procedural_reasoning",
    "Nar.Props.C95_library_operators",
    "Nar.Props.C95_whole_reasoner",
    "Nar.Props.C95_answers",
    "Nar.Props.C95_written_lines",
    "Nar.Props.C95_any_names",
    "Nar.Props.C95_syllogism_about_anything",
    "Nar.Props.C95_learned_about_anything"
   ],
   "note": "Hash tables are lists in order of insertion in the model; in the program their order is random even for the same names. Lines in plain language are not covered: they are read by a network trained on letters."
  },
  {
   "property": "C96",
   "status": "partial",
   "theorems": [
    "Nar.Props.C96_every_task_once",
    "Nar.Props.C96_thought_through",
    "Nar.Props.C96_whole_reasoner",
    "Nar.Props.C96_new_reasoner",
    "Nar.Props.C96_only_the_first_51",
    "Nar.Props.C96_crowded_out",
    "Nar.Props.C96_dropped_before_its_turn"
   ],
   "note": "The full property, without the two provisos, is false of the code, shown with two runs: of the tasks which use a term only the first 51 are looked at, so two later statements about a much used term are never combined (C96_crowded_out); and every 111th cycle keeps only 30 pending tasks, so a statement can be dropped before its turn (C96_dropped_before_its_turn)."
  },
  {
   "property": "C97",
   "status": "partial",
   "theorems": [
    "Nar.Props.C97_conclusions_per_message",
    "Nar.Props.C97_tasks_kept",
    "Nar.Props.C97_regular_trimming",
    "Nar.Props.C97_tables",
    "Nar.Props.C97_questions_are_kept",
    "Nar.Props.C97_questions_without_limit",
    "Nar.Props.C97_concepts_without_limit",
    "Nar.Props.C97_whole_conclusions",
    "Nar.Props.C97_whole_tables",
    "Nar.Props.C97_whole_tasks_kept",
    "Nar.Props.C97_waiting_work_without_limit"
   ],
   "note": "The bounds on conclusions, tasks, tables and, at every 173rd cycle, concepts are proved, for the declarative part and for the reasoner as a whole (C97_whole_*). The full property is false of the code: questions are never given up (C97_questions_without_limit), the number of concepts between two trimmings has no limit, because the limit on complexity does not limit the size of a term (C97_concepts_without_limit), and the work which waits for the worker is not limited (C97_waiting_work_without_limit)."
  },
  {
   "property": "C98",
   "status": "partial",
   "theorems": [
    "Nar.Props.C98_known_way_taken_partial",
    "Nar.Props.C98_way_can_be_found",
    "Nar.Props.C98_told_operator_goal_blocks",
    "Nar.Props.C98_told_goal_stops_all",
    "Nar.Props.C98_fulfilled_goal_in_the_way",
    "Nar.Props.C98_fulfilled_goal_pursued"
   ],
   "note": "Proved for states without executable goals; both the direct case (for all draws) and ways of up to two rules (for some draws). The full property is false of the code: C98_told_operator_goal_blocks and C98_told_goal_stops_all, C98_fulfilled_goal_in_the_way, C98_fulfilled_goal_pursued."
  },
  {
   "property": "C99",
   "status": "proved",
   "theorems": [
    "Nar.Props.C99_knowledge_not_by_chance",
    "Nar.Props.C99_same_holds",
    "Nar.Props.C99_answers_by_chance",
    "Nar.Props.C99_asking_guides_thoughts",
    "Nar.Props.C99_reports_are_believed"
   ],
   "note": "For histories which do not crash (whether the procedural part crashes may depend on draws, see C58, C61). The limits are shown by concrete histories: C99_answers_by_chance, C99_asking_guides_thoughts, C99_reports_are_believed."
  },
  {
   "property": "C100",
   "status": "partial",
   "theorems": [
    "Nar.Props.C100_never_crashes_partial",
    "Nar.Props.C100_no_number_crashes",
    "Nar.Props.C100_typed_rule_crashes",
    "Nar.Props.C100_draw_crashes",
    "Nar.Props.C100_axiom_gives_no_number",
    "Nar.Props.C100_unreadable_crashes",
    "Nar.Props.C100_library_operators_partial",
    "Nar.Props.C100_library_operator_crashes"
   ],
   "note": "Restricted to everyday use; the restrictions are needed (C100_typed_rule_crashes, C100_axiom_gives_no_number, C100_no_number_crashes, C100_unreadable_crashes, C100_draw_crashes, C100_library_operator_crashes, and C63 for events about operators). Operators of the library may be registered as long as they are not mentioned (C100_library_operators_partial)."
  },
  {
   "property": "C101",
   "status": "partial",
   "theorems": [
    "Nar.Props.C101_nothing_lost",
    "Nar.Props.C101_serves_partial",
    "Nar.Props.C101_next_line_handled_partial",
    "Nar.Props.C101_worker_goes_on_partial",
    "Nar.Props.C101_all_served_partial"
   ],
   "note": "The first part (C101_nothing_lost) is unrestricted. The second part is restricted to everyday lines as in C100: other lines do crash the reasoner, and then every connection is lost (C72). What a client receives of the published messages is C42; answers published by the thread of the reasoner before it panics within the same line are not modelled."
  },
  {
   "property": "C102",
   "status": "partial",
   "theorems": [
    "Nar.Props.C102_two_premises_partial",
    "Nar.Props.C102_one_premise_partial",
    "Nar.Props.C102_beliefs_fit_partial",
    "Nar.Props.C102_answers_fit_partial",
    "Nar.Props.C102_no_contradiction_partial",
    "Nar.Props.C102_disjunction_taken_apart",
    "Nar.Props.C102_third_dropped",
    "Nar.Props.C102_denial_taken_apart",
    "Nar.Props.C102_something_confused",
    "Nar.Props.C102_guesses_pool"
   ],
   "note": "Proved for statements without dependent or query variables, disjunctions of terms (|), parallel events and products of other than two things (one step with two premises: only without such variables). With each of the first three and with longer products it is violated: C102_disjunction_taken_apart, C102_third_dropped, C102_denial_taken_apart, C102_something_confused. The bound must grow with the number of observations because guesses are pooled: C102_guesses_pool."
  },
  {
   "property": "C103",
   "status": "partial",
   "theorems": [
    "Nar.Props.C103_trail_partial",
    "Nar.Props.C103_answer_trail_partial",
    "Nar.Props.C103_numbers_once",
    "Nar.Props.C103_only_the_trail_matters_partial",
    "Nar.Props.C103_evidence_adds_up_partial",
    "Nar.Props.C103_no_confidence_from_nothing_partial",
    "Nar.Props.C103_cut_trail"
   ],
   "note": "Missing: trails of full length. A trail keeps at most 120 numbers, so for a belief which rests on more statements it does not name them all (C103_cut_trail)."
  },
  {
   "property": "C104",
   "status": "partial",
   "theorems": [
    "Nar.Props.C104_known_is_answered_partial",
    "Nar.Props.C104_fair_shares",
    "Nar.Props.C104_only_question",
    "Nar.Props.C104_told_is_answered_partial",
    "Nar.Props.C104_nameless_question",
    "Nar.Props.C104_who_is_what_unanswered"
   ],
   "note": "Missing: questions which have no part in common with what is known. A question which names nothing, as \"what is what\", is never answered from memory (C104_nameless_question, C104_who_is_what_unanswered)."
  },
  {
   "property": "C105",
   "status": "partial",
   "theorems": [
    "Nar.Props.C105_no_new_names",
    "Nar.Props.C105_no_new_names_in_answers",
    "Nar.Props.C105_topics_do_not_mix_partial",
    "Nar.Props.C105_answers_do_not_mix_partial",
    "Nar.Props.C105_connected_partial",
    "Nar.Props.C105_variables_mix"
   ],
   "note": "Missing: statements with variables other than general rules (each condition names something, variables of the conclusion occur in the conditions). Two statements which have nothing but a dependent variable in common are compared as if it were the same thing (C105_variables_mix)."
  },
  {
   "property": "C106",
   "status": "proved",
   "theorems": [
    "Nar.Props.C106_printed",
    "Nar.Props.C106_texts_differ",
    "Nar.Props.C106_texts_stand_alone",
    "Nar.Props.C106_lines_differ",
    "Nar.Props.C106_answer_messages_differ",
    "Nar.Props.C106_lines_are_legible",
    "Nar.Props.C106_beliefs_differ",
    "Nar.Props.C106_answers_legible",
    "Nar.Props.C106_single_parts"
   ],
   "note": "Compounds with a single part, which cannot be entered as text and are never concluded, are printed alike (C106_single_parts)."
  },
  {
   "property": "C107",
   "status": "partial",
   "theorems": [
    "Nar.Props.C107_not_unlearned_partial",
    "Nar.Props.C107_lists_grow_partial",
    "Nar.Props.C107_confirmed",
    "Nar.Props.C107_gives_way_to_the_expected_partial",
    "Nar.Props.C107_confident_denial_forgotten",
    "Nar.Props.C107_better_conclusion_ignored"
   ],
   "note": "Missing: what happens without room. A list of 20 beliefs is ranked by expectation, so a denial with confidence 0.99 is displaced by statements which say next to nothing (C107_confident_denial_forgotten); and a conclusion drawn later with more confidence is ignored if it shares evidence with the weaker one drawn first (C107_better_conclusion_ignored)."
  },
  {
   "property": "C108",
   "status": "partial",
   "theorems": [
    "Nar.Props.C108_pooled_partial",
    "Nar.Props.C108_order_does_not_matter_partial",
    "Nar.Props.C108_order_matters_when_full",
    "Nar.Props.C108_without_evidence",
    "Nar.Props.C108_while_acting_partial",
    "Nar.Props.C108_not_by_deeds_partial"
   ],
   "note": "Missing: more than twenty statements about a term (then the order matters, C108_order_matters_when_full) and confidence zero (then the frequency told is lost, C108_without_evidence)."
  },
  {
   "property": "C109",
   "status": "partial",
   "theorems": [
    "Nar.Props.C109_limited",
    "Nar.Props.C109_limited_twice",
    "Nar.Props.C109_top_partial",
    "Nar.Props.C109_most_salient_left_out"
   ],
   "note": "Missing: percepts in any other order. The function does not sort, so the most salient percept may be left out (C109_most_salient_left_out)."
  },
  {
   "property": "C110",
   "status": "partial",
   "theorems": [
    "Nar.Props.C110_agrees_partial",
    "Nar.Props.C110_one_opinion_partial",
    "Nar.Props.C110_contradicts_itself_when_full"
   ],
   "note": "Missing: full lists. Then the property is false of the code (C110_contradicts_itself_when_full): a belief can have different truth values in the two lists of one concept."
  },
  {
   "property": "C111",
   "status": "proved",
   "theorems": [
    "Nar.Props.C111_clocks",
    "Nar.Props.C111_identifiers",
    "Nar.Props.C111_put_in_by_user",
    "Nar.Props.C111_no_overflow"
   ],
   "note": "the counters of use and of observations are not part of the claim"
  },
  {
   "property": "C112",
   "status": "proved",
   "theorems": [
    "Nar.Props.C112_one_experience_is_enough"
   ],
   "note": ""
  },
  {
   "property": "C113",
   "status": "proved",
   "theorems": [
    "Nar.Props.C113_typed_course",
    "Nar.Props.C113_typing_is_telling",
    "Nar.Props.C113_printed_sentences_can_be_typed",
    "Nar.Props.C113_cycles_typed",
    "Nar.Props.C113_lines_are_calls",
    "Nar.Props.C113_every_line"
   ],
   "note": ""
  },
  {
   "property": "C114",
   "status": "partial",
   "theorems": [
    "Nar.Props.C114_only_what_worked",
    "Nar.Props.C114_discredited_not_done",
    "Nar.Props.C114_given_up_for_good",
    "Nar.Props.C114_failures_spread_over_copies"
   ],
   "note": "Missing: that failures count for the rule as the user sees it. This is false of the code (C114_failures_spread_over_copies): each observation stores the rule in several copies with records of their own, and a failure counts for one copy only, so that the operator is executed again after it has failed three times and worked once. Proved for the rules as they are in memory."
  },
  {
   "property": "C115",
   "status": "partial",
   "theorems": [
    "Nar.Props.C115_deeds_not_by_beliefs_partial",
    "Nar.Props.C115_same_deed_partial",
    "Nar.Props.C115_statement_stops_deed"
   ],
   "note": "Missing: histories with a different number of statements and questions. For these the property is false of the code (C115_statement_stops_deed): statements and goals take numbers from one counter while learned rules carry times, so that one additional statement can make a goal seem to rest on the evidence of a rule, and an operator which was executed before is not executed any more."
  },
  {
   "property": "C116",
   "status": "partial",
   "theorems": [
    "Nar.Props.C116_done_for_a_goal",
    "Nar.Props.C116_reasoner_acts_for_a_goal",
    "Nar.Props.C116_nothing_wanted_nothing_done",
    "Nar.Props.C116_earlier_steps_left_out",
    "Nar.Props.C116_steps_skipped"
   ],
   "note": "Proved for all histories, for the procedural reasoner and the whole reasoner: what is executed serves a given goal, nothing wanted means nothing done. The order of the operators of a procedure is not kept by the code: C116_steps_skipped (concrete run), C116_earlier_steps_left_out (in all histories of harmless input without orders)."
  },
  {
   "property": "C117",
   "status": "partial",
   "theorems": [
    "Nar.Props.C117_instance_acted_on",
    "Nar.Props.C117_done_with_the_thing_seen",
    "Nar.Props.C117_transferred",
    "Nar.Props.C117_effect_on_the_thing_not_transferred",
    "Nar.Props.C117_done_again_with_the_same_thing"
   ],
   "note": "Proved for all names (complete histories of the whole reasoner) and for all reached states and instances (procedural step). Effects on the thing itself are not transferred by the code: C117_effect_on_the_thing_not_transferred."
  },
  {
   "property": "C118",
   "status": "partial",
   "theorems": [
    "Nar.Props.C118_only_distances_matter_partial",
    "Nar.Props.C118_same_deeds_later_partial",
    "Nar.Props.C118_waiting_changes_nothing_partial",
    "Nar.Props.C118_waiting_brings_about_deed",
    "Nar.Props.C118_waiting_changes_deed"
   ],
   "note": "Proved for all histories if the delay is a multiple of 1313 steps and the numbers given by the user stay below the clock (or are moved with it). Otherwise the code violates it: C118_waiting_brings_about_deed, C118_waiting_changes_deed."
  },
  {
   "property": "C119",
   "status": "partial",
   "theorems": [
    "Nar.Props.C119_course_exact",
    "Nar.Props.C119_no_pair_overlooked",
    "Nar.Props.C119_none_overlooked_alone",
    "Nar.Props.C119_everything_deduced",
    "Nar.Props.C119_only_deducible",
    "Nar.Props.C119_known_iff_deducible",
    "Nar.Props.C119_new_reasoner",
    "Nar.Props.C119_new_reasoner_exact",
    "Nar.Props.C119_relations_never_rest",
    "Nar.Props.C119_one_relation_for_ever",
    "Nar.Props.C119_typed_exact"
   ],
   "note": "C119_only_deducible holds at all times with up to 120 pieces of evidence. The rest is proved for histories of fewer than 111 cycles (no trimming) in which at most 51 tasks use the same term and there are at most 300 tasks, whenever thinking comes to rest; for calls and for typed lines (C119_typed_exact). With a relation the code never comes to rest: C119_relations_never_rest, C119_one_relation_for_ever. What is lost by trimming and crowding is shown in C96 and C122."
  },
  {
   "property": "C120",
   "status": "partial",
   "theorems": [
    "Nar.Props.C120_deducible_is_answered",
    "Nar.Props.C120_answers_deducible",
    "Nar.Props.C120_exam",
    "Nar.Props.C120_answered_iff_deducible",
    "Nar.Props.C120_new_reasoner_answers",
    "Nar.Props.C120_course_answers",
    "Nar.Props.C120_course_answered_iff",
    "Nar.Props.C120_typed_answers",
    "Nar.Props.C120_typed_answered_iff"
   ],
   "note": "Proved for fewer than 111 cycles (no trimming), at most 51 tasks per term and 300 tasks, and as long as no belief list or concept table is full; also for telling, asking and thinking in any arrangement, by calls or typed lines. Later statements can go unused (C122). A fitting statement must have a part in common with the question, because the code finds no answer otherwise (C104_nameless_question); questions about time are answered from the procedural memory (C38, C58)."
  },
  {
   "property": "C121",
   "status": "partial",
   "theorems": [
    "Nar.Props.C121_more_told_more_known",
    "Nar.Props.C121_same_knowledge_in_the_end",
    "Nar.Props.C121_same_answers_in_the_end",
    "Nar.Props.C121_truth_depends_on_order",
    "Nar.Props.C121_typed_same_knowledge"
   ],
   "note": "The code violates the last sentence: the truth value with which a conclusion is believed, and reported for ever after, depends on the order in which the statements were told (C121_truth_depends_on_order). Knowledge and answers are proved independent of order for fewer than 111 cycles (no trimming), at most 120 inputs, and while there is room."
  },
  {
   "property": "C122",
   "status": "partial",
   "theorems": [
    "Nar.Props.C122_turn_over_for_good",
    "Nar.Props.C122_old_facts_left_out",
    "Nar.Props.C122_beliefs_stay_in_use_partial",
    "Nar.Props.C122_old_fact_never_combined"
   ],
   "note": "The code violates it: in every 111th cycle the table of possible partners is rebuilt from the tasks which are still waiting for their turn, so that a statement which had its turn is never again a premise (C122_turn_over_for_good), and nothing that needs an old and a new fact is ever concluded or answered (C122_old_facts_left_out, C122_old_fact_never_combined). What holds is that a belief kept under a statement is combined with it whenever the statement has its turn, so old rules are still applied to new facts (C122_beliefs_stay_in_use_partial)."
  },
  {
   "property": "C123",
   "status": "partial",
   "theorems": [
    "Nar.Props.C123_ordinary_numbers_never_harm_partial",
    "Nar.Props.C123_exact_for_sane_numbers_partial",
    "Nar.Props.C123_poisoned_term_crashes",
    "Nar.Props.C123_nan_crashes",
    "Nar.Props.C123_infinity_crashes",
    "Nar.Props.C123_certainty_crashes",
    "Nar.Props.C123_empty_compound_has_no_priority",
    "Nar.Props.C123_no_number_ends_choice",
    "Nar.Props.C123_numbers_choose_partial",
    "Nar.Props.C123_no_number_crashes_trimming",
    "Nar.Props.C123_goal_without_usefulness",
    "Nar.Props.C123_no_number_crashes_goals"
   ],
   "note": "Holds for finite frequencies and confidences from 0 to below 1 (C123_ordinary_numbers_never_harm_partial; for sane ones the memory is exactly that of the reasoner in the rest of the model, C123_exact_for_sane_numbers_partial) and for priorities which are numbers (C123_numbers_choose_partial). The code violates it otherwise: NaN, infinities with confidence 0 and repeated certainty crash the next statement which shares a term; an empty compound has no priority, ends the choice by priority, and crashes the sorting of tasks."
  },
  {
   "property": "C124",
   "status": "partial",
   "theorems": [
    "Nar.Props.C124_unrelated_matters_partial",
    "Nar.Props.C124_unrelated_answers_partial",
    "Nar.Props.C124_remark_changes_belief",
    "Nar.Props.C124_lives_matters_partial",
    "Nar.Props.C124_lives_answers_partial"
   ],
   "note": "Proved for facts and general rules, fewer than 111 cycles (no trimming), at most 120 inputs, and while there is room; without the restriction to facts and rules a common name of a variable connects matters (C105_variables_mix), and trimming loses things (C96, C122). The last sentence is violated: C124_remark_changes_belief."
  },
  {
   "property": "C125",
   "status": "partial",
   "theorems": [
    "Nar.Props.C125_only_implied",
    "Nar.Props.C125_often_enough_partial",
    "Nar.Props.C125_nothing_lost_partial",
    "Nar.Props.C125_repetition_is_news",
    "Nar.Props.C125_lives_only_implied",
    "Nar.Props.C125_lives_nothing_lost_partial"
   ],
   "note": "The last sentence is violated: C125_repetition_is_news. The rest is proved for at most 120 inputs, and where the end of thinking is spoken of for fewer than 111 cycles (no trimming) and while there is room."
  },
  {
   "property": "C126",
   "status": "partial",
   "theorems": [
    "Nar.Props.C126_only_given_names",
    "Nar.Props.C126_not_done_unprompted_partial",
    "Nar.Props.C126_reasoner_only_given_names",
    "Nar.Props.C126_reasoner_not_unprompted_partial",
    "Nar.Props.C126_mentioned_is_executed"
   ],
   "note": "The last sentence is violated: C126_mentioned_is_executed. The rest is proved without restriction."
  },
  {
   "property": "C127",
   "status": "partial",
   "theorems": [
    "Nar.Props.C127_known_iff_deducible",
    "Nar.Props.C127_only_deducible",
    "Nar.Props.C127_knowledge_not_by_deeds",
    "Nar.Props.C127_answers_deducible",
    "Nar.Props.C127_answered_iff",
    "Nar.Props.C127_typed_life"
   ],
   "note": "Proved for at most 120 statements and questions and any number of acting actions. That only what can be deduced is known or answered holds at all times; where the end of thinking is spoken of there must be fewer than 111 cycles (no trimming) and room. What is lost by trimming and crowding is shown in C96 and C122."
  },
  {
   "property": "C128",
   "status": "proved",
   "theorems": [
    "Nar.Props.C128_own_credit",
    "Nar.Props.C128_own_credit_bounds",
    "Nar.Props.C128_questions_attract",
    "Nar.Props.C128_unasked",
    "Nar.Props.C128_taken_has_most",
    "Nar.Props.C128_simplest_taken",
    "Nar.Props.C128_reasoner_own_credit",
    "Nar.Props.C128_reasoner_questions_attract",
    "Nar.Props.C128_reasoner_unasked",
    "Nar.Props.C128_reasoner_taken_has_most",
    "Nar.Props.C128_reasoner_takes_one",
    "Nar.Props.C128_reasoner_simplest_taken"
   ],
   "note": ""
  },
  {
   "property": "C129",
   "status": "partial",
   "theorems": [
    "Nar.Props.C129_younger_simpler_first",
    "Nar.Props.C129_just_told",
    "Nar.Props.C129_left_alone_partial",
    "Nar.Props.C129_told_left_alone_partial",
    "Nar.Props.C129_never_its_turn",
    "Nar.Props.C129_forgotten_before_its_turn"
   ],
   "note": "Violated: C129_never_its_turn, C129_forgotten_before_its_turn. Holds when the reasoner is left alone, also across clean-ups which have room for those waiting: C129_left_alone_partial, C129_told_left_alone_partial. C129_younger_simpler_first and C129_just_told say what is taken instead."
  },
  {
   "property": "C130",
   "status": "partial",
   "theorems": [
    "Nar.Props.C130_question_credit_bounded",
    "Nar.Props.C130_asked_about_first_partial",
    "Nar.Props.C130_small_talk_wins",
    "Nar.Props.C130_asked_in_vain",
    "Nar.Props.C130_asked_but_not_next"
   ],
   "note": "Violated: C130_asked_but_not_next, C130_small_talk_wins, C130_asked_in_vain (talks of every length). Holds if enough was asked: C130_asked_about_first_partial; C130_question_credit_bounded says why waiting does not help."
  },
  {
   "property": "C131",
   "status": "proved",
   "theorems": [
    "Nar.Props.C131_no_flood",
    "Nar.Props.C131_last_answer",
    "Nar.Props.C131_looked_after_once",
    "Nar.Props.C131_at_rest",
    "Nar.Props.C131_at_rest_by_share"
   ],
   "note": "C131_looked_after_once for all histories of the reasoner, C131_at_rest with the worker running, C131_no_flood and C131_last_answer for all states. Answers which follow from conclusions drawn meanwhile are the subject of C19 and C71 (each better than those before)."
  }
 ]
}