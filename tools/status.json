{
 "C03": {
  "note": "Complete for targets without variables; C03_variable_target_not_matched shows the restriction is needed."
 },
 "C05": {
  "note": "Holds up to the 120-entry limit; C05_long_trails_forget is the proved limit of the guarantee."
 },
 "C07": {
  "note": "Revision is defined only for confidences below 1 (C07_revision_undefined_at_one)."
 },
 "C13": {
  "note": "Proved for judgements (exact crash condition for one premise); crashes with questions are proved as witnesses."
 },
 "C55": {
  "status": "partial",
  "note": "Statements order independent; truth values order independent except for inheritance conclusions (_partial); violation proved for abduction."
 },
 "C18": {
  "status": "partial",
  "note": "Filing ranks both tables and ranking is kept while no revision happens (_partial); C18_revision_breaks_ranking proves the violation by revision."
 },
 "C56": {
  "note": "Holds for confidences below 1; C56_axioms_break_revision is the proved violation at confidence 1."
 },
 "C23": {
  "note": "Capacity, nothing invented, best kept; executable goals are counted twice against the capacity (proved witness)."
 },
 "C24": {
  "status": "partial",
  "note": "Holds for executable goals and for the first goal of a statement (_partial); C24_second_goal_stored_twice proves the violation."
 },
 "C62": {
  "status": "partial",
  "note": "First group of a level and late goals of other groups can be sampled (_partial); starvation and sampling of satisfied goals are proved as violations."
 },
 "C49": {
  "status": "partial",
  "note": "Violated: any draw equal to 15 panics (C49_crashes_on_fifteen). Proved for all other draws."
 },
 "C31": {
  "status": "partial",
  "note": "What a step does to anticipations and rules is stated exactly. The full property is violated: an effect which occurs before the deadline but is followed by two more events before the next step is not recognised and counts as failure (C31_effect_missed); and only one of the stored copies of a rule gets the negative observation (C31_only_one_copy_disappointed)."
 },
 "C36": {
  "note": "Reachability of every observation is shown for the default of one operator per rule."
 },
 "C32": {
  "note": "The selected goal has maximal expectation among the executable desired goals; the option adopted before is the best of those sampled (see Adopted/IsOption in Spec/Proc)."
 },
 "C38": {
  "status": "partial",
  "note": "Exact set of accepted lines proved (_partial: arbitrary text may follow the term); C38_text_after_the_term_is_dropped proves the violation for every term."
 },
 "C67": {
  "status": "partial",
  "note": "Exact crash condition proved (C67_crashes_iff); C67_characters_outside_ascii_crash is the violation; C67_no_crash_partial the lines that are safe."
 },
 "C51": {
  "status": "partial",
  "note": "Proved for two-place relations; C51_negation_is_ignored proves that the negation flag has no effect (its producers always pass false), C51_other_arities_crash that others crash."
 },
 "C37": {
  "note": "The rejection of printed compounds is part of the statement and proved for all of them."
 },
 "C39": {
  "status": "partial",
  "note": "Invariant proved for the declarative reasoner for every history; C39_rule_and_goal_confused proves the id collision between learned rules and goals; C39_rule_counts_twice shows a rule counting an observation twice."
 },
 "C40": {
  "status": "partial",
  "note": "All routes proved with frames; C40_eternal_question_dropped proves the violation."
 },
 "C41": {
  "status": "partial",
  "note": "All commands proved; C41_half_steps_are_whole_steps, C41_bad_number_crashes and C41_second_character_crashes prove the violations."
 },
 "C68": {
  "status": "partial",
  "note": "Proved for every history in which the rules were made available (C68_candidates, C68_answers) and the converse (C68_not_available, C68_never_answered). Partial since servers never make them available (C68_server_never_answers, C68_answer_withheld)."
 },
 "C69": {
  "note": "Derivability is an inductive specification; proved for every history of the whole reasoner."
 },
 "C70": {
  "status": "partial",
  "note": "Equations for both operators proved for all nestings; C70_short_product_crashes and C70_long_product_cut prove the violations."
 },
 "C42": {
  "status": "partial",
  "note": "Order, completeness and the limit for lines are proved; repeated delivery of the last message and unlimited storage of answers are proved as violations."
 },
 "C72": {
  "status": "partial",
  "note": "Survival is proved for lines handled without a crash; C72_crash_ends_service proves the violation."
 },
 "C73": {
  "status": "proved",
  "note": ""
 },
 "C26": {
  "status": "partial",
  "note": "Proved for events and steps; C26_earlier_event_ignored proves that earlier events between two steps satisfy nothing."
 },
 "C43": {
  "status": "partial",
  "note": "Never crashes, ball in bounds, bat range, exact scoring, perception and operators are proved for all histories; the bat leaving the field (C43_bat_leaves_field), the uncoverable left columns (C43_left_always_missed, C43_left_occurs) and fast balls escaping (C43_fast_ball_escapes) are proved as violations."
 },
 "C44": {
  "status": "partial",
  "note": "All laws are proved for all well-formed maps, with exact arithmetic and with 32 bit arithmetic (checked or wrapping) within its limits; circle and line drawing colour a different set than their names say, which is proved exactly (C44_circle, C44_circle_too_small, C44_line_is_a_dot), and overflows beyond the limits are shown (C44_large_circle_crashes, C44_large_circle_strays, C44_large_map_has_no_pixels). Colours are rational numbers; division of a map by zero is outside the model."
 },
 "C45": {
  "status": "partial",
  "note": "Proved over the reals for all operations except division; division, sigmoid and bias marking are proved wrong, with the exact error (C45_division_iff, C45_sigmoid_exact, C45_bias_derivative_wrong). Floating point rounding is outside the model."
 },
 "C74": {
  "status": "proved",
  "note": "Over the real numbers; floating point rounding is outside the model."
 },
 "C46": {
  "status": "proved",
  "note": "The choice of moves (human, random, reasoner) is left open, so the theorems hold for all players."
 },
 "C47": {
  "status": "proved",
  "note": "Both classifiers (truth values and maps). Exact arithmetic; the exponential function of the map classifier is a parameter."
 },
 "C75": {
  "status": "partial",
  "note": "Holds for kernels of even width and height. For odd kernels, the usual kind, the last row and column are ignored (C75_odd_kernel_cut: a one-pixel kernel gives a blank image); C75_convolution_partial states exactly which part of the kernel counts."
 },
 "C76": {
  "status": "proved",
  "note": "Over the real numbers."
 },
 "C77": {
  "status": "partial",
  "note": "Proved for the map classifier and for truth-value stimuli whose features are all present or absent. Violated for features present to a degree: such a stimulus is not similar enough to itself and adds a prototype each time it is shown (C77_unsure_never_recognised). A stimulus without evidence matches anything (C77_nothing_matches_anything)."
 },
 "C63": {
  "status": "partial",
  "note": "_partial: no crash but possibly an unfinished selection loop, for plain input without the draw 15 of 16 in variable names; finishing and the survival of the worker are proved in full for that input. Violations outside of it are proved."
 },
 "C71": {
  "status": "proved",
  "note": ""
 },
 "C66": {
  "status": "partial",
  "note": "All bounds are proved. Violated: \"dropped only when full\". A told rule is stored with the limit 20 of declarative memory, so it cuts each table it is put in to 20 rules (C66_told_rule_cuts for all reachable states, C66_told_rule_forgets with a concrete history)."
 },
 "C78": {
  "status": "proved",
  "note": "The bounded capacity of the channel (4) only delays the sender and is not modelled."
 },
 "C58": {
  "status": "partial",
  "note": "Proved for all sane statements, with the reach of 'sane' proved for typed input; the three ways to crash outside of the bounds are proved as witnesses. Goals to be pursued and temporal rules belong to C63."
 },
 "C79": {
  "status": "partial",
  "note": "_partial: all commands but !dt, for which the hang is proved (C79_listing_hangs). Exclusion is proved for all commands. The model is the locking skeleton of each function, with all branches, loop counts and objects left open; panics are not part of it."
 },
 "C80": {
  "status": "partial",
  "note": "C80_consistent_partial and the other theorems: everything but 'no task twice' and 'one belief per statement', whose violation is proved (C80_duplicate_by_race, C80_two_beliefs_by_race)."
 },
 "C81": {
  "status": "partial",
  "note": "exact arithmetic; the sine of the random number generator is any function into [-1, 1]; the number of epochs is a parameter. C81_sentence_not_trained shows the violation, everything else is proved in full"
 },
 "C82": {
  "status": "proved",
  "note": "the database is a list of rows"
 },
 "C83": {
  "status": "partial",
  "note": "exact result and exact crash conditions are proved for every network of the shape; violated as stated in C83_crashes, C83_crash_by_network, C83_second_sentence_crashes, C83_training_blocks_sentences, C83_taught_but_ignored"
 },
 "C84": {
  "status": "partial",
  "note": "number of arguments and the meaning of each mode are exact; C84_end_of_input_repeats shows the violation; everything else is proved in full. That a session never crashes is restricted to everyday lines, as in C100 (C84_everyday_session_partial)."
 },
 "C85": {
  "status": "partial",
  "note": "the exponential function of the score is a parameter into (0, 1]; C85_unmarked_questions shows the violation. That a file always gets a result is restricted to everyday lines, as in C100 (C85_everyday_files_partial)."
 },
 "C86": {
  "status": "partial",
  "note": "the property is false of the code: C86_always_crashes proves the opposite for all draws"
 },
 "C87": {
  "status": "partial",
  "note": "the listing of evidence at the end is modelled only in that it needs a concept; C87_slow_worker_crash shows the violation, the rest is proved in full"
 },
 "C88": {
  "status": "partial",
  "note": "C88_one_game_more and C88_stale_move show the violations, the rest is proved in full"
 },
 "C89": {
  "status": "partial",
  "note": "C89_use_of_pooled_belief_is_lost shows the violation, the rest is proved in full"
 },
 "C90": {
  "status": "partial",
  "note": "C90_full_list_takes_no_statement proves the violation for all histories; the list by expectation is covered by C90_list_by_expectation_takes_better_partial"
 },
 "C91": {
  "status": "partial",
  "note": "range, confidence limits, commutativity and definedness proved for every rounding and shown to apply to f64; confidence can reach one by rounding, growth of confidence and associativity fail in f64 (witnesses)"
 },
 "C92": {
  "status": "partial",
  "note": "error bounds proved for every rounding with relative error 2^-52 and shown to apply to f64; the choice of goal deduction can flip (witness)"
 },
 "C93": {
  "status": "partial",
  "note": "The desired bound fails for nested parentheses (C93_open_parentheses, C93_nested_conjunctions, C93_not_polynomial); proved: an exponential upper bound for all lines and a linear one for lines without parentheses."
 },
 "C94": {
  "status": "proved",
  "note": "Each locked section is one action; taking the readings of expectations while a rule is filed is part of the filing section."
 },
 "C95": {
  "status": "proved",
  "note": "Hash tables are lists in order of insertion in the model; in the program their order is random even for the same names. Lines in plain language are not covered: they are read by a network trained on letters."
 },
 "C96": {
  "status": "partial",
  "note": "The full property, without the two provisos, is false of the code, shown with two runs: of the tasks which use a term only the first 51 are looked at, so two later statements about a much used term are never combined (C96_crowded_out); and every 111th cycle keeps only 30 pending tasks, so a statement can be dropped before its turn (C96_dropped_before_its_turn)."
 },
 "C97": {
  "status": "partial",
  "note": "The bounds on conclusions, tasks, tables and, at every 173rd cycle, concepts are proved, for the declarative part and for the reasoner as a whole (C97_whole_*). The full property is false of the code: questions are never given up (C97_questions_without_limit), the number of concepts between two trimmings has no limit, because the limit on complexity does not limit the size of a term (C97_concepts_without_limit), and the work which waits for the worker is not limited (C97_waiting_work_without_limit)."
 },
 "C98": {
  "status": "partial",
  "note": "Proved for states without executable goals; both the direct case (for all draws) and ways of up to two rules (for some draws). The full property is false of the code: C98_told_operator_goal_blocks and C98_told_goal_stops_all, C98_fulfilled_goal_in_the_way, C98_fulfilled_goal_pursued."
 },
 "C99": {
  "status": "proved",
  "note": "For histories which do not crash (whether the procedural part crashes may depend on draws, see C58, C61). The limits are shown by concrete histories: C99_answers_by_chance, C99_asking_guides_thoughts, C99_reports_are_believed."
 },
 "C100": {
  "status": "partial",
  "note": "Restricted to everyday use; the restrictions are needed (C100_typed_rule_crashes, C100_axiom_gives_no_number, C100_no_number_crashes, C100_unreadable_crashes, C100_draw_crashes, C100_library_operator_crashes, and C63 for events about operators). Operators of the library may be registered as long as they are not mentioned (C100_library_operators_partial)."
 },
 "C101": {
  "status": "partial",
  "note": "The first part (C101_nothing_lost) is unrestricted. The second part is restricted to everyday lines as in C100: other lines do crash the reasoner, and then every connection is lost (C72). What a client receives of the published messages is C42; answers published by the thread of the reasoner before it panics within the same line are not modelled."
 },
 "C102": {
  "status": "partial",
  "note": "Proved for statements without dependent or query variables, disjunctions of terms (|), parallel events and products of other than two things (one step with two premises: only without such variables). With each of the first three and with longer products it is violated: C102_disjunction_taken_apart, C102_third_dropped, C102_denial_taken_apart, C102_something_confused. The bound must grow with the number of observations because guesses are pooled: C102_guesses_pool."
 },
 "C103": {
  "status": "partial",
  "note": "Missing: trails of full length. A trail keeps at most 120 numbers, so for a belief which rests on more statements it does not name them all (C103_cut_trail)."
 },
 "C104": {
  "status": "partial",
  "note": "Missing: questions which have no part in common with what is known. A question which names nothing, as \"what is what\", is never answered from memory (C104_nameless_question, C104_who_is_what_unanswered)."
 },
 "C105": {
  "status": "partial",
  "note": "Missing: statements with variables other than general rules (each condition names something, variables of the conclusion occur in the conditions). Two statements which have nothing but a dependent variable in common are compared as if it were the same thing (C105_variables_mix)."
 },
 "C106": {
  "status": "proved",
  "note": "Compounds with a single part, which cannot be entered as text and are never concluded, are printed alike (C106_single_parts)."
 },
 "C107": {
  "status": "partial",
  "note": "Missing: what happens without room. A list of 20 beliefs is ranked by expectation, so a denial with confidence 0.99 is displaced by statements which say next to nothing (C107_confident_denial_forgotten); and a conclusion drawn later with more confidence is ignored if it shares evidence with the weaker one drawn first (C107_better_conclusion_ignored)."
 },
 "C108": {
  "status": "partial",
  "note": "Missing: more than twenty statements about a term (then the order matters, C108_order_matters_when_full) and confidence zero (then the frequency told is lost, C108_without_evidence)."
 },
 "C109": {
  "status": "partial",
  "note": "Missing: percepts in any other order. The function does not sort, so the most salient percept may be left out (C109_most_salient_left_out)."
 },
 "C110": {
  "status": "partial",
  "note": "Missing: full lists. Then the property is false of the code (C110_contradicts_itself_when_full): a belief can have different truth values in the two lists of one concept."
 },
 "C111": {
  "status": "proved",
  "note": "the counters of use and of observations are not part of the claim"
 },
 "C112": {
  "status": "proved",
  "note": ""
 },
 "C113": {
  "status": "proved",
  "note": ""
 },
 "C114": {
  "status": "partial",
  "note": "Missing: that failures count for the rule as the user sees it. This is false of the code (C114_failures_spread_over_copies): each observation stores the rule in several copies with records of their own, and a failure counts for one copy only, so that the operator is executed again after it has failed three times and worked once. Proved for the rules as they are in memory."
 },
 "C115": {
  "status": "partial",
  "note": "Missing: histories with a different number of statements and questions. For these the property is false of the code (C115_statement_stops_deed): statements and goals take numbers from one counter while learned rules carry times, so that one additional statement can make a goal seem to rest on the evidence of a rule, and an operator which was executed before is not executed any more."
 },
 "C116": {
  "status": "partial",
  "note": "Proved for all histories, for the procedural reasoner and the whole reasoner: what is executed serves a given goal, nothing wanted means nothing done. The order of the operators of a procedure is not kept by the code: C116_steps_skipped (concrete run), C116_earlier_steps_left_out (in all histories of harmless input without orders)."
 },
 "C117": {
  "status": "partial",
  "note": "Proved for all names (complete histories of the whole reasoner) and for all reached states and instances (procedural step). Effects on the thing itself are not transferred by the code: C117_effect_on_the_thing_not_transferred."
 },
 "C118": {
  "status": "partial",
  "note": "Proved for all histories if the delay is a multiple of 1313 steps and the numbers given by the user stay below the clock (or are moved with it). Otherwise the code violates it: C118_waiting_brings_about_deed, C118_waiting_changes_deed."
 },
 "C119": {
  "status": "partial",
  "note": "C119_only_deducible holds at all times with up to 120 pieces of evidence. The rest is proved for histories of fewer than 111 cycles (no trimming) in which at most 51 tasks use the same term and there are at most 300 tasks, whenever thinking comes to rest; for calls and for typed lines (C119_typed_exact). With a relation the code never comes to rest: C119_relations_never_rest, C119_one_relation_for_ever. What is lost by trimming and crowding is shown in C96 and C122."
 },
 "C120": {
  "status": "partial",
  "note": "Proved for fewer than 111 cycles (no trimming), at most 51 tasks per term and 300 tasks, and as long as no belief list or concept table is full; also for telling, asking and thinking in any arrangement, by calls or typed lines. Later statements can go unused (C122). A fitting statement must have a part in common with the question, because the code finds no answer otherwise (C104_nameless_question); questions about time are answered from the procedural memory (C38, C58)."
 },
 "C121": {
  "status": "partial",
  "note": "The code violates the last sentence: the truth value with which a conclusion is believed, and reported for ever after, depends on the order in which the statements were told (C121_truth_depends_on_order). Knowledge and answers are proved independent of order for fewer than 111 cycles (no trimming), at most 120 inputs, and while there is room."
 },
 "C122": {
  "status": "partial",
  "note": "The code violates it: in every 111th cycle the table of possible partners is rebuilt from the tasks which are still waiting for their turn, so that a statement which had its turn is never again a premise (C122_turn_over_for_good), and nothing that needs an old and a new fact is ever concluded or answered (C122_old_facts_left_out, C122_old_fact_never_combined). What holds is that a belief kept under a statement is combined with it whenever the statement has its turn, so old rules are still applied to new facts (C122_beliefs_stay_in_use_partial)."
 },
 "C123": {
  "status": "partial",
  "note": "Holds for finite frequencies and confidences from 0 to below 1 (C123_ordinary_numbers_never_harm_partial; for sane ones the memory is exactly that of the reasoner in the rest of the model, C123_exact_for_sane_numbers_partial) and for priorities which are numbers (C123_numbers_choose_partial). The code violates it otherwise: NaN, infinities with confidence 0 and repeated certainty crash the next statement which shares a term; an empty compound has no priority, ends the choice by priority, and crashes the sorting of tasks."
 },
 "C124": {
  "status": "partial",
  "note": "Proved for facts and general rules, fewer than 111 cycles (no trimming), at most 120 inputs, and while there is room; without the restriction to facts and rules a common name of a variable connects matters (C105_variables_mix), and trimming loses things (C96, C122). The last sentence is violated: C124_remark_changes_belief."
 },
 "C125": {
  "status": "partial",
  "note": "The last sentence is violated: C125_repetition_is_news. The rest is proved for at most 120 inputs, and where the end of thinking is spoken of for fewer than 111 cycles (no trimming) and while there is room."
 },
 "C126": {
  "status": "partial",
  "note": "The last sentence is violated: C126_mentioned_is_executed. The rest is proved without restriction."
 },
 "C127": {
  "status": "partial",
  "note": "Proved for at most 120 statements and questions and any number of acting actions. That only what can be deduced is known or answered holds at all times; where the end of thinking is spoken of there must be fewer than 111 cycles (no trimming) and room. What is lost by trimming and crowding is shown in C96 and C122."
 },
 "C128": {
  "note": ""
 },
 "C129": {
  "status": "partial",
  "note": "Violated: C129_never_its_turn, C129_forgotten_before_its_turn. Holds when the reasoner is left alone, also across clean-ups which have room for those waiting: C129_left_alone_partial, C129_told_left_alone_partial. C129_younger_simpler_first and C129_just_told say what is taken instead."
 },
 "C130": {
  "status": "partial",
  "note": "Violated: C130_asked_but_not_next, C130_small_talk_wins, C130_asked_in_vain (talks of every length). Holds if enough was asked: C130_asked_about_first_partial; C130_question_credit_bounded says why waiting does not help."
 },
 "C131": {
  "status": "proved",
  "note": "C131_looked_after_once for all histories of the reasoner, C131_at_rest with the worker running, C131_no_flood and C131_last_answer for all states. Answers which follow from conclusions drawn meanwhile are the subject of C19 and C71 (each better than those before)."
 }
}