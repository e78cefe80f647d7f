{"id": "C01", "title": "Term comparison decides exact identity", "statement": "Two terms compare equal exactly when they are the same term: same connective, same order and number of components, same names, same image index. The comparison is therefore an equivalence relation and never confuses different terms.", "quantifier": "all pairs (and triples) of terms of any depth and width", "why_tests_cant": "Terms form an infinite recursive type with fifteen constructors, three of which carry variable length lists; a sample of pairs cannot exclude one confusing constructor/length combination.", "anchors": ["src/Term.rs: checkEqTerm, impl PartialEq for Term"]}
{"id": "C02", "title": "A reported match really turns the pattern into the matched term", "statement": "Whenever matching a pattern (for example a question) against a term succeeds, replacing the pattern's variables by the reported bindings yields exactly that term.", "quantifier": "all patterns and all terms, any nesting, any number of repeated variables", "why_tests_cant": "The binding store is threaded through a recursive traversal; errors only show for particular repetitions of variables at particular depths.", "anchors": ["src/NarUnify.rs: unify, unify2, unifySubst, checkAssigned, checkSameVal"]}
{"id": "C03", "title": "Matching finds every ground match", "statement": "If some assignment of terms to the pattern's variables turns the pattern into a variable-free term, matching the pattern against that term succeeds, and the reported bindings agree with that assignment. With variables in the matched term this fails: a term containing a variable does not even match itself.", "quantifier": "all patterns, all variable-free targets, all assignments", "why_tests_cant": "Completeness is a statement about all possible assignments; tests only try a few.", "anchors": ["src/NarUnify.rs: unify, unify2"]}
{"id": "C04", "title": "Match bindings are a function on the pattern's variables", "statement": "A successful match binds each variable at most once, binds only variables that occur in the pattern, binds them to sub-terms of the matched term, and never binds one variable to two different terms.", "quantifier": "all patterns and all terms for which matching succeeds", "why_tests_cant": "Duplicate or dangling bindings need particular interleavings of repeated variables.", "anchors": ["src/NarUnify.rs: unify2, checkAssigned, checkSameVal"]}
{"id": "C05", "title": "Combining evidence trails keeps both origins", "statement": "The evidence trail of a conclusion contains only identifiers from the trails of its two premises, has at most 120 entries, loses nothing while the two trails together fit into the limit, and for non-empty premises always still shares evidence with both of them.", "quantifier": "all pairs of trails of any length", "why_tests_cant": "The trail is an interleaving with leftovers and a truncation; off-by-one errors only occur at special length combinations.", "anchors": ["src/NarStamp.rs: merge, newStamp, checkOverlap"]}
{"id": "C06", "title": "Shared-evidence test is exact and symmetric", "statement": "Two trails are reported as overlapping exactly when some identifier occurs in both, independent of argument order; trails are reported the same exactly when they contain the same identifiers in the compared sense.", "quantifier": "all pairs of trails", "why_tests_cant": "Quantifies over all identifier lists, including repeated identifiers and different lengths.", "anchors": ["src/NarStamp.rs: checkOverlap, checkSame"]}
{"id": "C07", "title": "Truth values stay in range", "statement": "Every truth function maps truth values with frequency and confidence in [0,1] (confidence below 1 where revision is involved) to truth values in [0,1]; expectation also stays in [0,1].", "quantifier": "all truth values over an exact ordered field, all truth functions, and chains of any length", "why_tests_cant": "The domain is a continuum and the property has to survive arbitrarily long derivation chains.", "anchors": ["src/Tv.rs: ded, dedGoal, abd, ind, rev, comp, int, neg, or, calcExp, w2c, c2w", "src/TvVec.rs: foldVec, revVec, compVec"]}
{"id": "C08", "title": "Revision pools evidence", "statement": "Revision is commutative and associative, its frequency lies between the two input frequencies, and its confidence is at least that of each input, strictly greater when both inputs carry evidence.", "quantifier": "all truth values with confidence in [0,1)", "why_tests_cant": "Algebraic laws over a continuum.", "anchors": ["src/Tv.rs: rev, w2c, c2w"]}
{"id": "C09", "title": "Deduction-like rules never invent confidence", "statement": "The conclusion of deduction, abduction, induction, comparison and intersection is never more confident than the less confident premise, abductive conclusions are below 1/2; goal deduction picks the stronger of its two candidate readings.", "quantifier": "all truth values in [0,1]", "why_tests_cant": "Inequalities over a continuum with products and quotients.", "anchors": ["src/Tv.rs: ded, dedGoal, abd, ind, int, comp, neg"]}
{"id": "C10", "title": "No conclusion from premises that share evidence", "statement": "Combining two sentences whose evidence trails overlap yields no conclusion at all; otherwise every conclusion carries the combined trail, so it shares evidence with both premises and can never be combined with either of them again.", "quantifier": "all pairs of premises and all conclusions", "why_tests_cant": "Evidence double counting needs a multi-step history to become visible.", "anchors": ["src/NarWorkingCycle.rs: inference2, inference, infBinary", "src/NarStamp.rs: merge, checkOverlap"]}
{"id": "C11", "title": "Inference invents no vocabulary", "statement": "Every name and every variable in a conclusion of declarative inference (one or two premises) already occurs in a premise.", "quantifier": "all premises, all rules, all conclusions", "why_tests_cant": "There are about twenty rules with nested destructuring over an infinite term type.", "anchors": ["src/NarWorkingCycle.rs: infSinglePremise, infBinary, infBinaryInner and the rule functions they call"]}
{"id": "C12", "title": "Inference conclusions have sound truth values", "statement": "Conclusions drawn from judgements with truth values in range have truth values in range, and questions never gain a truth value.", "quantifier": "all premises with truth values in range", "why_tests_cant": "All rules times all values.", "anchors": ["src/NarWorkingCycle.rs: infSinglePremise2, inference2"]}
{"id": "C13", "title": "Inference does not crash on well-formed judgements", "statement": "Declarative inference on judgements never hits a panic as long as products have at least two components. Mixed with questions it can crash: the two-premise step swaps terms but not truth values, and the image rules read the truth value of a question.", "quantifier": "all pairs of premises; the crash is exhibited by a concrete input pair", "why_tests_cant": "Absence of panics is universal; the crash needs one specific combination of punctuation, argument order and rule.", "anchors": ["src/NarWorkingCycle.rs: infBinary, inf7, infStructImg0, infStructImg1, infStructProd0"]}
{"id": "C14", "title": "Belief tables stay within the configured size", "statement": "Whatever is stored in whatever order, no concept ever lists more beliefs per table than configured (at least one).", "quantifier": "all sequences of stored sentences, all configured sizes", "why_tests_cant": "Invariant over unbounded histories.", "anchors": ["src/NarMem.rs: storeInConcepts, storeInConcepts2"]}
{"id": "C15", "title": "One belief per statement in declarative memory", "statement": "If declarative memory is only changed by adding sentences and by forgetting concepts, then no belief table ever lists two beliefs about the same statement; new independent evidence is pooled into the existing belief and dependent evidence is ignored.", "quantifier": "all histories of additions and forgetting", "why_tests_cant": "Invariant over unbounded histories that depends on revision and insertion agreeing on the overlap test.", "anchors": ["src/NarWorkingCycle.rs: memAddTask, memReviseBelief", "src/NarMem.rs: storeInConcepts2, limitMemory"]}
{"id": "C16", "title": "Forgetting keeps the best concepts", "statement": "Limiting memory leaves at most the requested number of concepts, never drops anything while the limit is not exceeded, only drops concepts whose best expectation is no better than that of every kept concept, and leaves the kept concepts unchanged.", "quantifier": "all memories and limits", "why_tests_cant": "Selection property over all rankings including ties.", "anchors": ["src/NarMem.rs: limitMemory"]}
{"id": "C17", "title": "A stored judgement is filed under all its sub-terms", "statement": "After storing a judgement, every sub-term of its statement has a concept, and there the judgement is listed, unless the table already holds dependent evidence for the same statement or is full of beliefs ranked at least as high.", "quantifier": "all memories, judgements and capacities", "why_tests_cant": "Quantifies over all sub-terms of all terms and all table contents.", "anchors": ["src/NarMem.rs: storeInConcepts, storeInConcepts2, ret_beliefs_of_concept"]}
{"id": "C18", "title": "Belief tables are ranked", "statement": "Right after storing, the table ordered by expectation is sorted from best to worst. Revision breaks the ranking: it appends the pooled belief at the end without re-sorting.", "quantifier": "all memories and sentences; the violation is exhibited by a concrete history", "why_tests_cant": "The violation needs a table with a worse belief and a revision of a better one.", "anchors": ["src/NarMem.rs: storeInConcepts2", "src/NarWorkingCycle.rs: memReviseBelief"]}
{"id": "C19", "title": "Answers only get better", "statement": "For each question the sequence of reported answers has strictly increasing expectation, each reported answer is a judgement whose statement matches the question, and after any sequence of candidates the remembered best equals the maximum over the matching candidates (if positive). A sampled question is offered exactly the beliefs in memory under its sub-terms (procedural memory for temporal questions).", "quantifier": "all questions and all sequences of candidate answers", "why_tests_cant": "History property over unbounded candidate streams.", "anchors": ["src/NarWorkingCycle.rs: qaTryAnswer"]}
{"id": "C20", "title": "Tasks have unique identities and bounded complexity", "statement": "Over any history of additions, the identifiers of working tasks are pairwise distinct, every task term has at most the configured complexity, and no two working tasks have the same statement and the same evidence.", "quantifier": "all histories of additions", "why_tests_cant": "Invariant over unbounded histories.", "anchors": ["src/NarWorkingCycle.rs: memAddTask"]}
{"id": "C21", "title": "The task list is trimmed to the best", "statement": "The periodic cleanup leaves at most 30 working tasks, all above the minimum credit, and every dropped task has credit no larger than every kept one or is below the minimum.", "quantifier": "all task lists and times", "why_tests_cant": "Selection property over all rankings.", "anchors": ["src/NarWorkingCycle.rs: reasonCycle, taskCalcCredit"]}
{"id": "C22", "title": "Task selection picks a maximum", "statement": "Selecting the task to work on returns a valid index of a task with maximal credit for every non-empty list; random selection by credit returns a valid index for every random draw.", "quantifier": "all non-empty task lists, all times, all draws in [0,1)", "why_tests_cant": "Index bounds for all lists and draws.", "anchors": ["src/NarWorkingCycle.rs: taskSelByCreditTop, taskSelByCreditRandom, task2SelByCreditRandom, conceptSelByAvRandom, tasksSelHighestCreditIdx"]}
{"id": "C23", "title": "The goal store respects its capacity", "statement": "After limiting, the goal store holds at most the configured number of goals and only goals it held before; the kept ones have utility no smaller than the dropped ones.", "quantifier": "all goal stores, capacities and times", "why_tests_cant": "Selection property over all stores.", "anchors": ["src/NarGoalSystem.rs: limitMemory, addEntry2, retEntries"]}
{"id": "C24", "title": "Goals are not stored twice", "statement": "Adding a goal with the same statement and the same evidence as a stored goal does not change the set of stored goals. This holds for executable goals and for the first goal of each statement, but fails in general: the second goal of a statement group is not registered and can be stored again.", "quantifier": "all goal stores and goals; violation by a concrete three-step history", "why_tests_cant": "The violation needs three additions with a specific evidence pattern.", "anchors": ["src/NarGoalSystem.rs: addEntry, addEntry2, checkSetContains"]}
{"id": "C25", "title": "Goal depth is bounded and goals are found at their depth", "statement": "Every stored non-executable goal sits in a depth level below the configured number of levels and every addition stores it in the level given by its depth (capped), grouped with all goals of the same statement at that level.", "quantifier": "all histories of goal additions", "why_tests_cant": "Invariant over unbounded histories.", "anchors": ["src/NarGoalSystem.rs: makeGoalSystem, addEntry, addEntry2"]}
{"id": "C26", "title": "Perceiving an event satisfies exactly the matching goals", "statement": "When an event is perceived, every stored goal with that statement loses its desirability, every other goal and all other attributes are unchanged; with satisfaction disabled nothing changes. A step does this for the latest event in the window. Violated: of several events happening between two steps only the latest satisfies goals.", "quantifier": "all goal stores and events", "why_tests_cant": "Frame property for all stores.", "anchors": ["src/NarGoalSystem.rs: event_occurred"]}
{"id": "C27", "title": "Goal sampling returns a stored goal and does not crash", "statement": "Sampling never crashes and yields either nothing or a non-executable goal held in the store, for every random draw. Levels holding goals get equal shares of the first draw, and it yields nothing only when no group at the chosen level has sampling weight (a first draw of exactly zero takes the first level even if it is empty).", "quantifier": "all goal stores reachable by any history of operations and all draws", "why_tests_cant": "Index computations from random reals; boundary draws are practically never hit by tests.", "anchors": ["src/NarGoalSystem.rs: sample", "src/BinSearch.rs: binSearch"]}
{"id": "C28", "title": "Derived goals follow from a goal and an independent rule", "statement": "A goal derived from a goal and a belief has as its statement the condition of a predictive rule whose effect is exactly the goal, is only derived when the evidence is independent, and carries the combined evidence; the detached first step of a goal sequence inherits desire and evidence unchanged. The rules considered for a goal are exactly those in memory under the goal which have the goal as effect, and each is used for some draw.", "quantifier": "all goals and beliefs", "why_tests_cant": "All terms and all trails.", "anchors": ["src/NarInfProcedural.rs: infGoalBelief, infGoalDetach", "src/NarGoalSystem.rs: deriveGoalsHelper"]}
{"id": "C29", "title": "Perception window keeps the newest events in order", "statement": "After any sequence of perceived events, window limits and flushes, the perception window holds the newest events since the last flush in order of arrival: all of them or at least the newest 20, and exactly the newest 20 (or all) after each limit. A step leaves the newest 20 events with the executed action as last one.", "quantifier": "all event sequences", "why_tests_cant": "History property.", "anchors": ["src/NarProc.rs: TraceDefault (event_happened, limit, force_flush, ret_last_events)"]}
{"id": "C30", "title": "Evidence counts stay consistent", "statement": "For every learned temporal rule the number of positive observations never exceeds the number of observations and both never decrease, under any sequence of learning and anticipation failures; hence its frequency and confidence are in range.", "quantifier": "all histories of learning and disappointment", "why_tests_cant": "Invariant over unbounded histories.", "anchors": ["src/NarProc.rs: narInit storage worker, narStep0, mem_add_evidence", "src/NarSentence.rs: retTv, retFreq, retConf"]}
{"id": "C31", "title": "Each failed anticipation counts exactly once", "statement": "An anticipated event that does not occur until its deadline adds exactly one negative observation to the rule that predicted it and is then forgotten; one that occurs in time adds none; a pending one is kept.", "quantifier": "all sets of anticipations, event windows and times", "why_tests_cant": "Needs every combination of deadline, window and shared rule.", "anchors": ["src/NarProc.rs: narStep0"]}
{"id": "C32", "title": "Actions are only executed above the decision threshold", "statement": "A planned action is executed only if the selected goal or rule has expectation strictly above the configured threshold and its operator is registered; the selected candidate has maximal expectation.", "quantifier": "all goal stores, states and thresholds", "why_tests_cant": "Decision logic over all stores.", "anchors": ["src/NarProc.rs: narStep1", "src/NarGoalSystem.rs: selHighestExpGoalByState"]}
{"id": "C33", "title": "Babbling only uses operators that allow it", "statement": "Random exploration executes an operator only when babbling is enabled, and only an operator which allows it; every such operator is executed for some draw; a chosen action is never replaced.", "quantifier": "all operator registries and draws", "why_tests_cant": "All registries and draws.", "anchors": ["src/NarProc.rs: narStep1, ret_op_by_name, checkIsCallableOp"]}
{"id": "C34", "title": "Time deltas are classified by the largest interval that fits", "statement": "An observed delay is assigned to the last interval of the increasing interval table that is not longer than the delay (the first one if the delay is shorter than all); the result is a valid index for every non-empty table, is -1 for an empty one, and is monotone in the delay. Consequently the deadline derived from the class never exceeds the observed delay.", "quantifier": "all delays and all interval tables", "why_tests_cant": "Boundary property for all integers.", "anchors": ["src/NarProc.rs: findMinTableIdx, narInit"]}
{"id": "C35", "title": "Operator calls encode and decode", "statement": "Encoding an operator call with at least one argument as a term and decoding it returns the same name and arguments; decoding anything that is not such a call yields nothing or the bare operator.", "quantifier": "all names and argument lists", "why_tests_cant": "Round trip over infinite types.", "anchors": ["src/TermUtils.rs: encodeOp, decodeOp"]}
{"id": "C36", "title": "Learned temporal rules have the promised shape", "statement": "A temporal rule is only built from a perceived event sequence whose first and last element are not operators, whose middle elements (at least one) are all registered operator calls, and whose first and last differ; the rule says condition-then-operators predicts effect. Everything sent to be learned is such an observation of the current window with the evidence of exactly these events, and every observation of this kind (with one operator, ending in the last event) is learned for some draws.", "quantifier": "all event sequences and operator registries", "why_tests_cant": "All sequences and registries.", "anchors": ["src/NarProc.rs: try_build_implSeq, checkIsCallableOp, calcIdxsOfOps"]}
{"id": "C37", "title": "Narsese text is read as what it says, and printed statements read back", "statement": "Every complete line (a term in Narsese notation, a punctuation mark, optionally a truth value and the event mark) is read as exactly that sentence; the notation is unambiguous; blanks next to stars make no difference. Printing a sentence about a term built from names, variables, one-element sets and statements and reading the text gives back the same sentence. The printed text of a term containing any other compound (sequence, product, conjunction, negation, image, larger set) is rejected.", "quantifier": "all texts, all terms of any nesting, all number formats that round trip", "why_tests_cant": "Round trip over an infinite grammar; no finite corpus covers all nestings.", "anchors": ["src/NarseseParser.rs: parseNarsese and the term parsers", "src/Term.rs: convTermToStr"]}
{"id": "C38", "title": "The parser reads complete sentences only", "statement": "Desired: a line is accepted only if it is a term, a punctuation mark and nothing else. The code violates this: text between a complete term and the punctuation is silently dropped.", "quantifier": "all lines; violation by a concrete line", "why_tests_cant": "Negative property over all strings.", "anchors": ["src/NarseseParser.rs: parseNarsese"]}
{"id": "C39", "title": "Evidence is counted once", "statement": "In every history of the whole reasoner, every belief, task and answer rests on at least one and at most 120 observations, none listed twice, each handed out to exactly one input; an input never gets an identifier used before, so it never counts as sharing evidence with what is known. The guarantee should also hold between learned rules and goals (it does not: events number their evidence by time, goals by the input counter, so a rule can appear to rest on the goal it serves and is then not used). A learned rule given as an answer can even list one observation twice.", "quantifier": "all histories of inputs, commands, worker rounds and handler registrations, all random draws", "why_tests_cant": "Invariant over unbounded histories and schedules of two workers; collisions of two counters appear only for particular interleavings.", "anchors": ["src/Nar.rs: inputT2, inputN", "src/NarStamp.rs", "src/NarWorkingCycle.rs: stampIdCounter", "src/NarProc.rs: event_happened"]}
{"id": "C40", "title": "Inputs are routed by kind", "statement": "An event goal only changes the goal store, an event judgement only the perception window, an event question only the open questions, an eternal statement only declarative memory and tasks, an eternal rule only the procedural memory. Every question should be asked; eternal questions are silently dropped.", "quantifier": "all inputs and all states", "why_tests_cant": "Frame conditions over all states.", "anchors": ["src/Nar.rs: inputT2"]}
{"id": "C41", "title": "Commands do what they are documented to do", "statement": "Comments and empty lines change nothing; only \"!QQ\" requests termination; \"!s n\" runs n declarative cycles and nothing procedural; \"!sp\" does one procedural step; flushing drops tasks and keeps knowledge; operators are registered under their name; babbling is switched; unknown commands change nothing. Commands for the two halves of a step should do half steps (they do whole steps), and no line should crash (bad numbers and multi-byte characters do).", "quantifier": "all input lines and all states", "why_tests_cant": "Dispatch over all strings; effect for all states.", "anchors": ["src/NarInputFacade.rs: input, trimNewline"]}
{"id": "C42", "title": "Server delivers each message to each client", "statement": "Messages of the server are numbered in order without gaps. A client which polls often enough receives, in order, every message published since it connected and nothing else. Violations: the last message is sent again with every further poll, and answers are stored without limit.", "quantifier": "all interleavings of publishing, polling, connecting and sending, all clients", "why_tests_cant": "Depends on the schedule of publishing and polling.", "anchors": ["src/NarServer.rs: run, connectionLoop, QHandlerImpl::answer"]}
{"id": "C43", "title": "Pong world stays within its bounds and scores fairly", "statement": "For every sequence of operators and steps and every random draw the Pong world never crashes, the ball stays inside the field (columns 0 to 49, rows 1 to 19), the bat's centre stays between columns 12 and 55, every arrival of the ball at the bottom is counted exactly once, as a hit exactly if the bat covers the column of arrival, and the perceived event tells exactly whether the ball is left of, right of or above the bat. Violated parts: the bat's range reaches six columns beyond the right wall while the six leftmost columns can never be covered, so that a ball arriving there is a miss whatever the player does; with the speed setting switched on a ball leaves the field through the left wall; after the first time at the top no ball ever flies upwards again.", "quantifier": "all sane worlds, all histories of operators and steps, all draws", "why_tests_cant": "Invariant over unbounded runs and random draws.", "anchors": ["src/EnvPong3.rs: makeEnvState, simStep", "src/Reasoner1Entry.rs: reasoner1Entry, OpPong"]}
{"id": "C44", "title": "Pixel maps obey read/write laws and drawing colours the shape asked for", "statement": "On a pixel map every read and write succeeds for every position; a written pixel on the map reads as the value written last and all other pixels are unchanged; positions outside read as the default and writes there are ignored. Cropping, sums, differences and quotients are pixelwise; adding and subtracting a map gives the map back; the squared length is zero exactly for the zero map. Drawing a box colours exactly the box. Violated: a circle of radius r is drawn with radius square root of r, and a line is drawn only near its start; a map with one negative dimension crashes. All this holds with 32 bit numbers as long as the number of pixels of the map and the positions of the shape fit, whether the program checks its arithmetic or not; beyond that, circles of radius 32767 or more crash or colour stray pixels.", "quantifier": "all maps, sizes, coordinates, values and write histories", "why_tests_cant": "All sizes and coordinates including negative ones.", "anchors": ["src/Map2d.rs: makeMap2d, readAt, writeAt, crop, map2dDrawBox, map2dDrawCircle, drawLine, add, sub, divScalar, distPow2"]}
{"id": "C45", "title": "Automatic differentiation computes derivatives", "statement": "The value/derivative pair computed by sums, differences, products, exponentials, scalar products and the rectifier equals the function value and its derivative, for every expression at every point (the rectifier where its argument is not zero). Violated: division has the wrong sign in one term, so its derivative is right only where the numerator or the derivative of the denominator vanishes; the sigmoid's derivative is too large by the factor 2e^v+1; the network builder multiplies a bias by 15 or 8 but marks it with derivative one. The network builder takes the parameters in order, weights and then bias of each neuron, and crashes with too few parameters.", "quantifier": "all expressions, all differentiable inputs and points, all parameter lists and layer sizes", "why_tests_cant": "A statement about limits at all points.", "anchors": ["src/ad.rs: add, sub, mul, div, exp, dot, reluAct, sigmoidAct, calc", "src/Nn.rs: buildNnFromParameters"]}
{"id": "C46", "title": "Tic-tac-toe is played by the rules", "statement": "A move succeeds exactly on a free cell, marks only that cell with the sign of the player to move, and never overwrites. In any game, whoever plays, the number of marks equals the number of accepted moves, the first player is equal or one ahead, a reported winner is the player who moved last and is the only one filling a line, a draw is reported exactly when the board is full without a line, nothing changes after the end, and what the reasoner perceives determines the board. A move outside of the board crashes.", "quantifier": "all boards and all sequences of attempted moves", "why_tests_cant": "Invariant over all move sequences.", "anchors": ["src/ProcTicTacToe.rs: run, tryMove, retFieldAsString"]}
{"id": "C47", "title": "Prototype classifier returns the best sufficiently similar prototype", "statement": "Classification returns the first prototype of maximal similarity if that is at least 1/2, and none if no prototype is that similar. Without learning nothing changes; with learning it always returns a valid index, adds at most one prototype and changes at most the one returned. Prototypes are never removed, and each holds exactly the evidence of the stimuli that were assigned to it. Two images are similar enough exactly if two thirds of their pixels fall into the same level.", "quantifier": "all similarity vectors, all classifiers and stimuli, all histories of stimuli of one shape", "why_tests_cant": "Argmax with threshold over all vectors; evidence bookkeeping over all histories.", "anchors": ["src/ModVisionB.rs: calc_sims, classify_max, classify, conv_img_to_tv_vec, conv_to_tv_vec, quantisize", "src/ModVisionD.rs: calc_sims, classify_max, classify"]}
{"id": "C48", "title": "Variable introduction generalises", "statement": "A rule obtained by variable introduction gives back the original rule when the introduced variable is substituted by the replaced term, provided the drawn variable does not occur in the rule already; the variable stands exactly where the term stood and no occurrence of the term is left. It is produced exactly for rules <(<x --> [..]>, b) =/> c> in which x occurs at least twice, at most once per rule, and the copy keeps evidence, truth, delay and all other attributes.", "quantifier": "all rules and variables", "why_tests_cant": "Substitution property over all terms.", "anchors": ["src/NarInfProcedural.rs: intro_vars, matchandintro_var1, matchandintro_var1_sentence"]}
{"id": "C49", "title": "Generating a variable name does not crash", "statement": "Desired: for every random draw a variable name is produced. Violated: one in sixteen draws per character indexes past the end of the alphabet and panics.", "quantifier": "all sequences of 24 draws in 0..15", "why_tests_cant": "Random; a test passes or fails by chance.", "anchors": ["src/NarInfProcedural.rs: create_random_varname"]}
{"id": "C50", "title": "Sub-term enumeration is complete and duplicate-free", "statement": "The sub-terms listed for a term are exactly the term itself and the sub-terms of its components, the unique version lists the same terms without repetition, and complexity counts exactly the atoms, statements and negations.", "quantifier": "all terms", "why_tests_cant": "Structural property over an infinite type.", "anchors": ["src/Term.rs: retSubterms, retSubterms2, retUniqueSubterms, calcComplexity"]}
{"id": "C51", "title": "Natural-language relations become the intended statements", "statement": "The sentence produced for a two-place relation whose words are plain identifiers is accepted by the parser and denotes the product of the two arguments inheriting from the relation, as a judgement with the given confidence. Desired as well: a negated relation is not entered as its positive; the code ignores the negation flag. Relations with another number of arguments crash the conversion.", "quantifier": "all words made of admissible characters", "why_tests_cant": "Round trip over all words.", "anchors": ["src/ModNlpA.rs: conv_rel_to_narsese", "src/NarseseParser.rs: parseNarsese"]}
{"id": "C52", "title": "Usefulness ranking is bounded and monotone", "statement": "The usefulness of a belief lies in [0,1), grows with the number of uses and does not grow with the time since the last use.", "quantifier": "all use counts and times", "why_tests_cant": "Inequalities over all integers.", "anchors": ["src/NarSentence.rs: calcUsageUsefulness, usageUpdate"]}
{"id": "C53", "title": "Two-premise inference draws exactly the documented conclusions", "statement": "Combining two judgements with independent evidence yields exactly the conclusions of the documented rule tables (set union, intersection, comparison, deduction, abduction, induction, detachment, conjunction detachment), with the truth function the table names, and reports rule application exactly when there is a conclusion.", "quantifier": "all pairs of judgements with truth values and disjoint evidence trails", "why_tests_cant": "the rules pattern-match on arbitrary nested terms and variable bindings; no finite set of premises covers every shape", "anchors": ["src/NarWorkingCycle.rs: infBinary, infBinaryInner, infGeneralizedJudgJudg, inf3, inf5, infImplDed, inf10, infCompPred, infCompSubj, inference2, inference"]}
{"id": "C54", "title": "One-premise inference draws exactly the documented structural conclusions", "statement": "A judgement yields exactly the conclusions of the documented structural rules (negation, decomposition of unions, products, images, singleton sets and parallel effects), with the premise's truth value (negated for negation).", "quantifier": "all judgements with a truth value whose product subjects have at least two components", "why_tests_cant": "ranges over all terms of any nesting and arity", "anchors": ["src/NarWorkingCycle.rs: infSinglePremise, infSinglePremise2, infNeg, infStruct*"]}
{"id": "C55", "title": "Conclusions do not depend on the order of the premises", "statement": "Desired: combining a with b gives the same conclusions with the same truth values as combining b with a. The set of concluded statements is order independent, but abduction and induction assign truth values that depend on the order, because the second pass swaps the terms and not the truth values.", "quantifier": "all pairs of judgements with truth values and disjoint evidence trails", "why_tests_cant": "a relational property over all premise pairs; tests only compare single runs", "anchors": ["src/NarWorkingCycle.rs: infBinary"]}
{"id": "C56", "title": "Declarative memory never crashes on sane truth values", "statement": "Storing, revising, forgetting and touching beliefs never panics and never produces an undefined truth value as long as every input belief is a judgement with a frequency in [0,1] and a confidence in [0,1). Violated at the boundary: the same statement given twice with confidence exactly 1 makes revision undefined.", "quantifier": "all histories of memory operations with such beliefs", "why_tests_cant": "the crash depends on the combination of earlier revisions, so all histories matter", "anchors": ["src/NarWorkingCycle.rs: memReviseBelief, memAddTask", "src/Tv.rs: rev", "src/NarMem.rs: storeInConcepts, limitMemory"]}
{"id": "C57", "title": "Looking up tasks by term finds exactly the right tasks", "statement": "In every reachable state a task listed under a term contains this term, and every working task is listed under each of its sub-terms.", "quantifier": "all histories of adding, selecting, trimming, rebuilding and flushing, all terms", "why_tests_cant": "the index and the working list are updated at different places; consistency is an invariant over all histories", "anchors": ["src/NarWorkingCycle.rs: populateTaskByTermLookup, memAddTask, reasonCycle, flushTasks"]}
{"id": "C59", "title": "Partner tasks are relevant, distinct and limited", "statement": "The tasks combined with the selected task are pairwise distinct, at most 300, ordered from simple to complex, and each shares a sub-term with the selected task; below the limits no working task sharing a sub-term is left out.", "quantifier": "all reachable states and selected tasks", "why_tests_cant": "ranges over all reachable task stores", "anchors": ["src/NarWorkingCycle.rs: reasonCycle (secondary task collection)"]}
{"id": "C60", "title": "Truth functions compute the documented amounts of evidence", "statement": "Deduction and intersection multiply frequencies and confidences as documented; negation mirrors the frequency; abduction and induction give the truth value of the evidence which one premise makes relevant and the other one makes positive; comparison counts what at least one and what both premises cover; without evidence the confidence is 0.", "quantifier": "all truth values", "why_tests_cant": "identities over all rational truth values; a wrong argument order is invisible on symmetric samples", "anchors": ["src/Tv.rs: ded, int, neg, abd, ind, comp, calcExp"]}
{"id": "C61", "title": "The goal system never crashes", "statement": "Any history of adding goals (with a truth value and non-negative depth), perceiving events, limiting, deriving sub-goals with any well-formed memory, executing and reconfiguring runs without a crash.", "quantifier": "all histories, capacities >= 0, numbers of levels >= 1 and draws", "why_tests_cant": "The crash conditions (negative index, empty group, weights that run past the total) depend on the history of the store; only an invariant covers all of them.", "anchors": ["src/NarGoalSystem.rs: addEntry, limitMemory, sample, sampleAndInference, event_occurred"]}
{"id": "C62", "title": "Every desired goal can be sampled, satisfied goals are not", "statement": "Every stored goal with positive desirability is sampled for some draw, and a satisfied goal is sampled for none. This holds for the first group of a level as long as nothing was satisfied or limited; it fails in general, because the search inside a group ignores where the group starts and because positions recorded before a goal was satisfied stay.", "quantifier": "all goal stores reachable by additions and derivations; violations by concrete histories", "why_tests_cant": "Starvation of a goal is a statement about all random draws.", "anchors": ["src/NarGoalSystem.rs: sample, addEntry2, event_occurred", "src/BinSearch.rs: binSearch"]}
{"id": "C64", "title": "An observation is counted once in each rule it supports", "statement": "Storing an observed rule counts it exactly once in each stored rule (found under its condition or effect) which it supports - same rule, independent evidence, interval not longer - and changes no other rule; only if there is none it is stored as a new rule (with its generalisations by a variable), with exactly the observed evidence.", "quantifier": "all memories and observations", "why_tests_cant": "A statement about all stored rules; a duplicate visit of a copy or an order effect shows only in some memories.", "anchors": ["src/NarProc.rs: narInit storage worker, mem_add_evidence", "src/NarMem.rs: ret_beliefs_by_terms_nonunique, storeInConcepts2"]}
{"id": "C65", "title": "Cycles and the worker do exactly the promised work", "statement": "The worker draws exactly the conclusions which follow from the selected task alone, from it and one of its partners, or from it and a belief of the concept of its statement; it offers each to all questions and adds each as belief and task with a factor not larger than that of the selected task. A reasoning cycle is a fixed sequence of elementary actions with trimming every 111th and forgetting every 173rd cycle. So every history of inputs, cycles and worker steps, in any order, is a history of elementary actions, and what holds for those (unique ids, matching answers, best task first) holds for the system.", "quantifier": "all states, messages, and histories of inputs, cycles and worker steps in any order", "why_tests_cant": "Exactness over all premises and refinement over all interleavings.", "anchors": ["src/NarWorkingCycle.rs: reasonCycle, createMem2 (worker thread), inference, infSinglePremise2"]}
{"id": "C67", "title": "Reading a line never crashes the reasoner", "statement": "Desired: any line a user types is either read or rejected. The code violates this: a line with any character outside ASCII crashes the reader, and so does a trailing truth value whose numbers are malformed. These are the only two cases in which reading crashes.", "quantifier": "all lines of text", "why_tests_cant": "Absence of panics over all strings.", "anchors": ["src/NarseseParser.rs: parseNarsese, parseNarseseRetTv"]}
{"id": "C68", "title": "Questions about behaviour are answered from learned rules", "statement": "Once the program using the reasoner has made the learned rules available to question answering (as the interactive program does), a question about a temporal rule is answered by the rules stored under its parts which match it, the best of them included. Before that such questions have no candidate answers; servers and the benchmark programs never make the rules available.", "quantifier": "all histories, all temporal questions", "why_tests_cant": "Presence and absence of candidates over all histories.", "anchors": ["src/NarWorkingCycle.rs: reasonCycle", "src/bin/main.rs: main", "src/Nar.rs: createNar", "src/NarServer.rs: run"]}
{"id": "C69", "title": "Nothing is invented", "statement": "Every belief and task the reasoner ever holds can be derived from statements it was told (by line, by program, by a relation found in text, or by an operator it executed) using pooling of independent evidence and the rules of inference only. The same holds for answers, except that questions about temporal rules may be answered by a rule the procedural reasoner knew.", "quantifier": "all histories, all schedules of the workers, all random draws", "why_tests_cant": "Universal over unbounded histories.", "anchors": ["src/NarWorkingCycle.rs: memAddTask, reasonCycle, worker", "src/Nar.rs: inputT2", "src/OpLib.rs"]}
{"id": "C70", "title": "Library operators do what they say", "statement": "The operator for sequences executes the registered operations among its elements in order and then reports its event; the operator for relations adds the relation, rewriting \"x and y\" into an intersection; executing always ends and changes the procedural reasoner only by reporting events. A relation should be added as reported (products with more than two elements are cut, shorter ones crash).", "quantifier": "all operator tables, all arguments, any nesting", "why_tests_cant": "Recursion through the operator table over arbitrarily nested terms.", "anchors": ["src/OpLib.rs: Op_nal9__exec_and_inject::call, Op__nlp_rel_0::call"]}
{"id": "C72", "title": "One client cannot end the service for others", "statement": "A line sent by a client leaves the service running for all clients; the command to quit is ignored. Violated: a line which crashes the reasoner (for example any word with a letter outside ASCII) cuts off every client with the next line it sends, for ever.", "quantifier": "all lines, all later schedules, all clients", "why_tests_cant": "Depends on what every other client does afterwards.", "anchors": ["src/NarServer.rs: run, connectionLoop", "src/Nar.rs: input"]}
{"id": "C73", "title": "A server only does what its clients tell it", "statement": "The reasoner of a server is in a state which a single reasoner reaches when it is given lines which clients sent. Every published message tells an answer derivable from these lines or was returned by a command among these lines.", "quantifier": "all interleavings of clients, reasoner and workers, all random draws", "why_tests_cant": "Universal over unbounded histories and schedules.", "anchors": ["src/NarServer.rs: run, connectionLoop, QHandlerImpl::answer", "src/Nar.rs: input"]}
{"id": "C74", "title": "Vector helpers and cosine similarity", "statement": "Vector sums, scaled sums and scalar products work element by element, ignore the rest of a longer second vector and crash on a shorter one; the length is the Euclidean norm; the cosine similarity of two non-zero vectors of the same size lies between -1 and 1, is symmetric and is 1 for a vector with itself; for a zero vector it is not a number.", "quantifier": "all real vectors", "why_tests_cant": "The bound is the Cauchy-Schwarz inequality for all vectors.", "anchors": ["src/mlutils.rs: vecAddScale, vecAdd, vecScale, vecDot, vecLen, calcCosineSim"]}
{"id": "C75", "title": "Image convolution", "statement": "Convolving an image with a kernel gives an image of the same size in which each pixel is the sum of the kernel's weights times the surrounding pixels, positions outside counting as zero; the variant without border is the same in the inner part and zero near the border.", "quantifier": "all images, kernels and pixels", "why_tests_cant": "All sizes and values.", "anchors": ["src/ModVisionC.rs: convo, convWithoutBorder"]}
{"id": "C76", "title": "Gabor kernels", "statement": "A generated Gabor kernel is a square map of the requested width whose pixels are the filter values at their positions; no value exceeds one in size, the centre is the cosine of the phase, and without phase the kernel is symmetric about its centre.", "quantifier": "all widths and filter parameters", "why_tests_cant": "All real parameters.", "anchors": ["src/ModVisionC.rs: generateGaborKernel"]}
{"id": "C77", "title": "A learned stimulus is recognised", "statement": "A stimulus that became a new prototype is answered by that prototype when it is shown again.", "quantifier": "all classifiers and stimuli", "why_tests_cant": "Depends on all other prototypes and on the evidence in every feature.", "anchors": ["src/ModVisionB.rs: calc_sims, classify", "src/ModVisionD.rs: calc_sims, classify"]}
{"id": "C63", "title": "The procedural reasoner never crashes on plain input", "statement": "A reasoner which is only given events and goals which can be printed (no told rules, and no events that mention operator names or parts of an operator call) never crashes whatever the order of events, goals, steps and worker rounds; its storage worker survives; with one operator per rule every such history finishes. The restrictions are needed: random variable names are drawn from one more character than the alphabet has, which ends the worker and crashes the next observation; told rules without a sequence, without an operator or at all can crash the main thread or the worker; a thing named like an operator crashes the execution; deciding for or executing an action with an empty compound crashes because it is always printed; with no operator allowed the selection loop never ends.", "quantifier": "all started reasoners, all well-behaved operators, all finite histories of events, goals, flushes, steps and worker rounds with all random draws; violations by concrete histories", "why_tests_cant": "Absence of crashes is a claim about every history and every random draw; the crashing draws are invisible to a test with fixed seeds.", "anchors": ["src/NarProc.rs: narStep0, narStep1", "src/NarProc.rs: mem_add_evidence, mem_add_evidence_internal", "src/NarInfProcedural.rs: create_random_varname", "src/NarGoalSystem.rs"]}
{"id": "C71", "title": "The guarantees of the parts hold for the reasoner as a whole", "statement": "However a reasoner is driven (lines, direct input, cycles, rounds of its two workers, operators, in any order), its declarative memory keeps one concept per term with bounded tables and one belief per statement; working tasks have distinct identifiers, bounded complexity and no duplicates, are found by every part of their statement, and the one with most attention is taken next; questions are never lost, every answer instantiates its question and each later answer beats the earlier ones; every learned or told rule has sane counters which never decrease; and the goals always obey the goal system's laws.", "quantifier": "all histories of a reasoner, including all interleavings of its workers, all draws and all further histories after any state", "why_tests_cant": "The guarantees of single modules could be broken by the glue between them (mixed configurations, operators writing into declarative memory, workers running between any two calls); only a proof over all interleaved histories excludes this.", "anchors": ["src/Nar.rs: inputT2, cycle", "src/NarInputFacade.rs: inputN, input", "src/NarWorkingCycle.rs: memAddTask, reasonCycle, createMem2 (worker body)", "src/NarProc.rs: narStep0, narStep1", "src/OpLib.rs"]}
{"id": "C66", "title": "The memory for procedures stays bounded and keeps what fits", "statement": "At any time the memory of temporal rules has one concept per term with tables of at most 100 rules, at most 17 effects are awaited with deadlines at most 16 ahead, after a step the window holds at most 20 events, and periodically the concepts are limited to 1000; and rules are dropped only when a table is full.", "quantifier": "all histories of a reasoner with all interleavings of the storage worker", "why_tests_cant": "Unbounded growth and loss of knowledge only show after long histories; the bound on awaited effects follows from an invariant over all of them.", "anchors": ["src/NarProc.rs: narStep0, narStep1, mem_add_evidence", "src/NarMem.rs: storeInConcepts2, limitMemory", "src/Nar.rs: inputT2 (line 101-108)"]}
{"id": "C78", "title": "Work handed to the background worker is done in order, and its death is final and noticed", "statement": "A reasoning cycle hands at most one working task to the background worker, behind all work that still waits; the worker takes the oldest piece first; nothing but cycles adds work. If the worker crashes it changes nothing, is never restarted, the work which waited is never done, and the next cycle with something to do crashes.", "quantifier": "all reasoner states, cycles, lines and later histories", "why_tests_cant": "depends on every interleaving of the main thread with the worker and on every crash point", "anchors": ["src/NarWorkingCycle.rs: reasonCycle, createMem2 (worker thread)", "src/Nar.rs: cycle"]}
{"id": "C58", "title": "Declarative reasoning never crashes on sane statements", "statement": "As long as every statement told has compounds with enough parts (products and conjunctions two, other compounds one), a frequency in [0,1] and a confidence in [0,1), nothing crashes: not the telling, not asking, not a reasoning cycle, not the worker thread, however these take turns and whatever else happens; the worker thread never ends of its own. Every statement that can be typed has compounds with enough parts, so only its truth value matters. Violated outside of these bounds: a product of one element ends the worker and then crashes the next cycle, an axiom (confidence 1) told twice gives a truth value which is not a number, an empty compound a priority which is not a number; both crash later (C123).", "quantifier": "all histories of input, cycles, worker rounds and settings, in any interleaving", "why_tests_cant": "a crash may need a particular chain of derived conclusions, revisions and interleavings of the two threads; all histories must be covered", "anchors": ["src/NarWorkingCycle.rs: reasonCycle, memAddTask, the worker loop, divCreditByComplexity, the inference rules", "src/Nar.rs: inputT2, cycle", "src/NarInputFacade.rs: input"]}
{"id": "C79", "title": "The program never hangs: its threads cannot deadlock", "statement": "Whatever commands are given, with whatever tasks, beliefs, questions, goals and rules, any number of connections and any schedule of the threads: everything begun or handed over can be brought to its end, so no set of threads waits for each other for ever and no command hangs. While a thread may write something which is shared, no other thread reads or writes it. Violated by the list of tasks (!dt): it reads the tasks while it already reads them, and hangs for ever, with the background worker, if that worker waits to add a conclusion just then.", "quantifier": "all sequences of commands, all branches and loop counts of every function, all schedules of all threads, any number of connections", "why_tests_cant": "a deadlock needs particular interleavings of several threads, which tests do not control and which are too many to enumerate", "anchors": ["src/NarWorkingCycle.rs: createMem2 (worker), reasonCycle, memAddTask, memReviseBelief, qaTryAnswer, flushTasks, debugCreditsOfTasks", "src/NarProc.rs: narInit (storage worker), narStep0, narStep1, mem_add_evidence", "src/NarGoalSystem.rs: addEntry, addEntry2, sampleAndInference, limitMemory", "src/Nar.rs: inputT2", "src/NarInputFacade.rs: input", "src/NarServer.rs", "src/OpLib.rs"]}
{"id": "C80", "title": "Adding from several threads at once leaves a consistent state", "statement": "Any number of threads add sentences at the same time, with any schedule of the locked sections of their additions and of everything else which happens to the shared state: an addition which is not interrupted does exactly what it does alone; identifiers of tasks stay unique, complexity stays bounded, memory keeps one concept per term and bounded tables, every listed task has the term it is listed under, every working task is listed under all its terms once its addition is complete, and nothing crashes on sane input. Violated for two properties which single additions keep: the same judgement added twice at once is worked on twice, and independent evidence for one statement added at once is not pooled, so memory lists two beliefs about it.", "quantifier": "all interleavings of the locked sections of any number of simultaneous additions with each other and with all other actions, all sentences", "why_tests_cant": "the sections interleave in unboundedly many ways which a test cannot force", "anchors": ["src/NarWorkingCycle.rs: memAddTask, memReviseBelief, populateTaskByTermLookup, createMem2 (worker)", "src/NarMem.rs: storeInConcepts"]}
{"id": "C81", "title": "Training the language network corrects it", "statement": "A step of the training changes exactly one parameter of the network, and the error of the output it looks at is multiplied by 1 - rate * slope^2, where the slope computed is the exact change of the output per change of the parameter; so the error does not grow if and only if rate * slope^2 is at most 2 (or there is no error). Training for any number of epochs never crashes and leaves a network of 9 and 15 neurons for 408 inputs. Samples which look the same to the network ask for the same answer, a network of this shape can learn them all, and one which has learned them runs through the taught sentences by exactly the actions meant. Violated in one point: the sentence \"Cat want food\", listed as a sample, is given to the training with another class of verb than it has as a sentence, so it is never trained.", "quantifier": "all networks of the shape used, all sets of samples, all learning rates, all states of the random numbers, all numbers of epochs", "why_tests_cant": "the training runs 450 million steps over a continuous space of parameters; a test cannot show that each step goes the right way", "anchors": ["src/ModNlpA.rs: train, forward, dot, add, mul, rng_genint, rng_genfloat, conv_seq_to_nninput, encode_onehot"]}
{"id": "C82", "title": "A stored language network is loaded unchanged", "statement": "Whatever network is stored in the database (with at least one layer, and a neuron in each layer), loading it gives the same network: each weight and bias at its place. If the database returns the rows in another order, each neuron still has its own bias and its own weights. A database without rows, or with a layer without neurons, crashes the loader.", "quantifier": "all networks of any size, all orders of the rows", "why_tests_cant": "any number of layers, neurons and weights, any order of rows", "anchors": ["src/ModNlpA.rs: nn_store, nn_load"]}
{"id": "C83", "title": "Sentences in natural language become the right beliefs", "statement": "A sentence of known words is cut at white space and question marks; different sentences of known classes look different to the network; the network chooses the first largest output until it says that it is finished, for at most ten actions; each action which stands for a relation enters the judgement (subject * object) --> verb with frequency 1 and confidence 0.998 over words of the sentence, in order, and nothing else is entered. A network which has learned its samples enters the relations meant for the taught sentences. Violated: unknown words crash, sentences with twelve or more words crash, sentences crash if words and actions together are more than twelve or an action needs a word which the sentence does not have, and every sentence after the first one crashes because the log file exists already; the training leaves that log file too, so that no sentence can be entered after it; and for two kinds of taught sentences (\"hunting is the purpose\", \"can Tom dance?\") nothing is entered, as nothing is done for their actions.", "quantifier": "all texts, all networks of the shape used, all reasoners", "why_tests_cant": "the space of sentences and networks is unbounded; crashes depend on the trained numbers", "anchors": ["src/ModNlpA.rs: network_run, forward, calc_max_onehot_idx, conv_seq_to_nninput, prot_pos0, conv_tokens_to_poss, conv_rel_to_narsese", "src/NarModuleNlp3.rs: process"]}
{"id": "C84", "title": "A session is the history of its files and typed lines", "statement": "The interactive program reads the files named on the command line, in order, then what is typed: the result is exactly that of entering all these lines one after the other into one reasoner. A file which cannot be opened changes nothing, nor does it matter how lines are split among files. The command to quit ends it and nothing after it has an effect. An empty line stands for the last command which was not empty. What the program does at all is decided by the first argument. Violated in one point: the end of the input does not end the session; the last command is repeated for ever. A session of everyday lines (C100) never crashes.", "quantifier": "all sets of files, present or missing, all lines, all sequences of typed lines, all argument lists", "why_tests_cant": "any number of files, lines and repeated empty lines in any order", "anchors": ["src/bin/main.rs: main", "src/NarUtilReadn.rs: readNarseseFile", "src/NarInteractive.rs: runInteractive"]}
{"id": "C85", "title": "The question answering benchmark reports the first answer", "statement": "The benchmark reports cycle i for a file if and only if there is a new answer after cycle i, which is one of the first 180, and none after an earlier one; it reports no answer if and only if 180 cycles pass without one. The score lies between 0 and the number of files, the ratio of unanswered files between 0 and 1; with no answers they are 0 and 1. Violated: a file without a question marked as event, as are all seven files the benchmark is shipped with, is never answered, whatever the reasoner derives. A file of everyday lines (C100) always gets a result.", "quantifier": "all files, all schedules of the worker, all random draws, all numbers of runs", "why_tests_cant": "a benchmark which always reports failure looks like a weak reasoner; that no schedule can give an answer is a statement about all of them", "anchors": ["src/bin/main.rs: bQA, bQA2", "src/Eval.rs", "Eval.sh", "src/Nar.rs: inputN, cycle"]}
{"id": "C86", "title": "The stress test runs through", "statement": "The stress test of the procedural reasoner should survive its rounds. Violated: it crashes in its second round at the latest, whatever is drawn, because it uses a part of the reasoner which it never made.", "quantifier": "all numbers of rounds, all random draws, all schedules of the storage thread", "why_tests_cant": "that no run survives is a statement about all schedules and draws", "anchors": ["src/ProcChaosEntry.rs", "src/NarProc.rs: narStep1", "src/bin/main.rs: chaos"]}
{"id": "C87", "title": "The Pong program couples reasoner and world correctly", "statement": "However long the program runs, it does not crash in any round; in each round the reasoner perceives the event describing the world as it is, the operator it executes acts on the world before the world makes its step, the goal is repeated every tenth round, and both clocks count the rounds. After 34 rounds a ball was hit or missed, so the reported ratio never divides by zero and lies between 0 and 1. Violated: if the thread which stores what is learned does not get to run, the program panics after its rounds instead of reporting.", "quantifier": "all numbers of rounds, all schedules of the storage thread, all random draws", "why_tests_cant": "histories of any length, any schedule of the second thread", "anchors": ["src/Reasoner1Entry.rs: reasoner1Entry", "src/EnvPong3.rs", "src/bin/main.rs: envPong3, pe"]}
{"id": "C88", "title": "The tic-tac-toe program plays and counts games correctly", "statement": "However long the program runs, it does not crash; the games it plays are games of tic-tac-toe from the empty board to their end, the wins and losses reported are those of the finished games, every game is counted, and the reasoner knows the goal when a game starts. Violated twice: the program plays one game more than it is told to, and a move decided in the pause after an earlier move is kept and tried when the reasoner is asked the next time, even if it decides on nothing then and the field is taken.", "quantifier": "all numbers of games, all schedules of the storage thread, all random draws and moves of the opponent", "why_tests_cant": "the stale move needs a particular order of learned rules, draws and threads; counters must be right in histories of any length", "anchors": ["src/ProcTicTacToe.rs", "src/bin/main.rs: envTTT2, envTTTprof"]}
{"id": "C89", "title": "Uses of a belief are counted in memory", "statement": "Each cycle which hands a premise and its partners to inference counts one use for each of them, notes the time, and counts nothing else. A statement told for the first time is one object for the task pool and for all concepts which list it: however long the reasoner runs, its copies show the same count, and no count is negative. Violated: a belief pooled from two pieces of evidence is made anew in every table, and only one of these copies shares the count of its task, so the others never show a use.", "quantifier": "all histories of inputs, cycles and worker steps, all random draws", "why_tests_cant": "that copies never disagree is a statement about all histories of sharing and copying", "anchors": ["src/NarSentence.rs: Usage, usageUpdate, shallowCopySentence", "src/NarWorkingCycle.rs: reasonCycle, memReviseBelief, memAddTask", "src/NarMem.rs: storeInConcepts2"]}
{"id": "C90", "title": "A full concept takes better beliefs", "statement": "When a concept holds as many beliefs as it may, a new statement replaces a worse one in each of its two lists. The list by expectation does this. Violated: the list by use never takes a new statement again until the concept itself is forgotten, because a new belief was never used and is cut off at once.", "quantifier": "all histories, all concepts with a full list, all inputs, conclusions and cycles which follow", "why_tests_cant": "that no statement ever gets in is a statement about all futures", "anchors": ["src/NarMem.rs: storeInConcepts2", "src/NarSentence.rs: calcUsageUsefulness", "src/NarWorkingCycle.rs: memAddTask"]}
{"id": "C91", "title": "Truth values stay in range in floating point", "statement": "In f64 arithmetic, where every operation rounds, all truth functions still give frequencies and confidences in [0,1] for premises in [0,1], through derivation chains of any length; expectation stays in [0,1]; deduction-like functions never give more confidence than a premise has, abduction, induction and comparison never more than one half; revision does not depend on the order of its two premises and has a numeric result exactly when no confidence is one. (Violated parts: revision of confidences below one can give confidence exactly one, after which revision gives NaN: 0.9999999999999999 revised by the default 0.9; revision by a statement without evidence may lower the confidence by rounding; revision is not associative.)", "quantifier": "all machine truth values in range and all derivation chains, for every rounding which keeps the order and a few numbers (0, 1, halves, doubles), proved to include IEEE binary64 round-to-nearest-even", "why_tests_cant": "the space of pairs of f64 truth values has 2^256 elements and the bad cases are single bit patterns near one; chains are unbounded", "anchors": ["src/Tv.rs: ded, dedGoal, abd, ind, rev, comp, int, neg, w2c, c2w, calcExp", "src/TvVec.rs: foldVec"]}
{"id": "C92", "title": "Rounding errors do not matter", "statement": "The f64 result of each truth function differs from the mathematically exact one by at most 2^-46 in frequency and confidence (comparison: frequency up to 2*10^-8 because of its cut-off; revision: for confidences not below 2^-100). (Violated part: goal deduction chooses between two candidates by comparing rounded confidences; for a goal frequency just below one half the other candidate can be chosen, which changes the frequency from 0.55 to 0.45.)", "quantifier": "all truth values in range, every rounding with relative error at most 2^-52, proved to include IEEE binary64", "why_tests_cant": "an error bound must hold for all 2^256 pairs of inputs; cancellation (1 - c for c near one) makes large errors plausible and rare", "anchors": ["src/Tv.rs: all functions"]}
{"id": "C93", "title": "Reading a line takes work in proportion to its length", "statement": "A user, or a client of the server, expects that a line is read in time which grows reasonably with its length, so that no short line can block the reasoner. What holds: reading always ends (a line of n characters takes fewer than 11^n calls of the term reader), and a line without opening parenthesis takes at most one call per character. What fails: n opening parentheses, refused in the end, take (9^(n+1)-1)/8 calls; accepted lines with conjunctions nested on the left take (3*7^n-1)/2 calls for 5n+2 characters; no polynomial bounds the work on accepted lines.", "quantifier": "all lines, readable or not; all nesting depths; all number readers", "why_tests_cant": "Tests use short terms of depth two, for which the work is small; growth and its bounds are statements about all lengths.", "anchors": ["src/NarseseParser.rs: parseSubjOrPred, parseSeq, parseProd, parseConj2, parseConj3, parseConj4, parseEntry, parseNarsese"]}
{"id": "C94", "title": "Learning in the background is safe whatever the timing", "statement": "The thread which stores observations and the thread which perceives, decides and is disappointed work on the same rules. Whatever the order in which their locked sections follow each other, the memory of rules stays sane, no update of the counters of a rule is lost or counted twice, and negative evidence added in the middle of a round of the worker counts as if it had been added before the round. A round without interruption does what the round does at once, and every history of whole steps consists of such sections.", "quantifier": "all interleavings of the locked sections of both threads, of any length; all observations, told rules and limits; all draws of the worker", "why_tests_cant": "A test sees one of the many orders in which the operating system lets two threads act; a lost update shows only in some of them.", "anchors": ["src/NarProc.rs: narInit (storage worker), narStep0, narStep1", "src/NarMem.rs: storeInConcepts, limitMemory"]}
{"id": "C95", "title": "Names do not matter", "statement": "What the reasoner does depends on which names are equal, not on what they are. If every name in everything told, asked, wanted, experienced and registered is replaced consistently by another name, different names by different names, then all that happens is the same with the other names: the same conclusions with the same truth values, the same tasks, attention, beliefs, learned rules, goals, executed operators and answers, and the same crashes. For declarative reasoning this holds for all names and variables; for the reasoner as a whole for all names but the agent itself, the word \"and\" and the two operators of the library. So what was once seen to be answered for some words is answered for all words.", "quantifier": "all consistent replacements of names; all statements; all histories of lines, told sentences, cycles, steps and worker rounds, with all random draws; all words in the sample dialogues", "why_tests_cant": "There are infinitely many names and replacements; a test uses a handful of words, and a dependence on their order, length or spelling would show only for others.", "anchors": ["src/NarWorkingCycle.rs: inference, infSinglePremise2, reasonCycle", "src/NarProc.rs: narStep0, narStep1", "src/Nar.rs: inputT2, cycle", "src/NarInputFacade.rs: input", "src/OpLib.rs", "src/Term.rs: checkEqTerm, calcComplexity"]}
{"id": "C96", "title": "Everything told is thought through", "statement": "A statement which was told gets its turn. Cycles during which nothing comes in select every pending task exactly once, whatever the random draws; after as many cycles as there are pending tasks, and as many rounds of the worker, everything which follows by the rules of inference from one told statement, or from two which have a term in common, has been concluded: it is among the tasks if it is simple enough, and if it answers an open question better than all before, every registered handler was called with an answer at least as good. In particular a new reasoner which is asked questions and told a handful of statements and then given that many cycles gives the answers. This holds as long as no term is used by more than 51 tasks and no trimming (every 111th cycle) falls in between.", "quantifier": "all reachable states of the declarative reasoner and of the reasoner as a whole; all random draws and clocks; all statements and questions; all conclusions of the rules of inference; any number of handlers", "why_tests_cant": "It is a liveness property over all draws, all states reached by any history, and all pairs of statements; a test sees one run, and a statement which is never selected or a pair which is never combined leaves no trace in it.", "anchors": ["src/NarWorkingCycle.rs: reasonCycle, createMem2 (worker body, 1110-1300), memAddTask, qaTryAnswer, populateTaskByTermLookup", "src/Nar.rs: cycle, inputT2"]}
{"id": "C97", "title": "The reasoner gets by with limited resources", "statement": "The reasoner works on with limited memory. Whatever was told, the worker draws at most a fixed number of conclusions from one message (15757 with the built-in settings); the tasks which are pending or can be found as partners are at most 30 plus what 111 spans between cycles can bring in; every 111th cycle leaves at most 30 tasks and every 173rd at most 3000 concepts; every table of beliefs is limited at any time. Questions should be limited as well (they are not: every question ever asked is kept), and so should the number of concepts between two trimmings (it is not: sets around sets do not count as complexity, so one admitted statement can create any number of concepts); and so should the work which waits for the worker be (it is not: each cycle can add a piece, whether the worker keeps up or not).", "quantifier": "all histories of sane input, cycles and rounds of the worker, all settings, all random draws; for the trimming: all states of the whole reasoner; for conclusions, tables and kept tasks: all histories of declarative use of the whole reasoner, by calls and lines in any arrangement", "why_tests_cant": "A bound on resources must hold at every moment of every history, however long; a test only sees that one history stayed small.", "anchors": ["src/NarWorkingCycle.rs: reasonCycle (1902-1967), memAddTask, createMem2 (worker body), infSinglePremise, infBinaryInner", "src/NarMem.rs: storeInConcepts2, limitMemory", "src/Term.rs: calcComplexity"]}
{"id": "C98", "title": "A known way to a wanted state is taken", "statement": "The reasoner acts on what it has learned. If everything it knows to follow from the last event is wanted and promises more than the decision threshold, the next step executes the operator of a rule which starts there, whatever is drawn; and if a wanted state is reached by one or two learned rules from the last event, there are draws with which the step acts on this or on an option which promises no less. This should hold whatever else is wanted (it does not: an executable goal given by the user keeps the reasoner from doing anything; a fulfilled executable goal keeps the same one from being pursued again; and goals which are fulfilled should not be pursued, but are).", "quantifier": "all histories of harmless events, goals, steps and worker rounds from any started agent, all operators, all random draws", "why_tests_cant": "That the agent acts whenever it knows how depends on all goals, rules, draws and the history of the goals considered before; a test sees one situation, and the blocked situations arise only after particular histories.", "anchors": ["src/NarProc.rs: narStep1 (600-1031)", "src/NarGoalSystem.rs: query_by_antecedent, selHighestExpGoalByState, addEntry, query"]}
{"id": "C99", "title": "What is believed is not a matter of chance", "statement": "Two histories in which the same statements and questions are given at the same points and the worker works equally often lead to the same knowledge: the same tasks with the same credit, the same memory, the same work waiting. Random draws, what is perceived, what is wanted, which rules for acting are told or learned, which operators are executed, the number of question handlers and the verbosity make no difference to it, as long as no operator is registered which reports relations. Only how well questions were answered so far may differ (which question is answered in a cycle is drawn). What is asked does make a difference to what is thought about next, and operators which report relations make a difference to what is believed.", "quantifier": "all pairs of histories of lines, calls and worker rounds which agree on statements, questions, cycles and work; all draws, events, goals, handlers, verbosities", "why_tests_cant": "It is a statement about all pairs of runs (non-interference); a test compares a few runs, and chance enters in many places (sampled questions, babbling, sampled perceptions, drawn variable names).", "anchors": ["src/Nar.rs: inputT, inputN, cycle", "src/NarWorkingCycle.rs: memAddTask, reasonCycle, createMem2 (worker body)", "src/NarInputFacade.rs: input", "src/NarProc.rs: narStep0, narStep1"]}
{"id": "C100", "title": "Everyday use never crashes the reasoner", "statement": "Nothing crashes and neither worker dies in everyday use: statements, questions, goals and events, typed or told through the programming interface; procedural steps and reasoning cycles; natural language; the listings of tasks, concepts and evidence; settings; operators registered with \"!por NOP\", and operators of the library as long as nobody mentions them; rounds of both workers; all in any number and order. Where it does crash is shown: temporal rules told by the user, axioms, operators of the library once they are mentioned, a wrong number of cycles, text on which the parser crashes, and, by chance, one of sixteen draws for the name of a variable.", "quantifier": "all sequences of lines, calls and worker rounds of everyday use; all draws but those for names which are 15 out of 16; all names of operators", "why_tests_cant": "A crash needs only one history out of infinitely many, and depends on the order of the workers and on draws; the counterexamples found here were not found by the tests.", "anchors": ["src/NarInputFacade.rs: input", "src/Nar.rs: inputT2, inputN, cycle", "src/NarProc.rs: narStep0, narStep1, debugEvidence", "src/NarWorkingCycle.rs: reasonCycle, memAddTask", "src/NarModuleNlp3.rs: process"]}
{"id": "C101", "title": "A server loses nothing and serves everyday lines for ever", "statement": "However connections, the thread of the reasoner and its workers interleave: the lines handed over by connected clients are handled by the reasoner in their order, none is lost or repeated (a crash, if there is one, happens on one line, and the lines after it are exactly those still waiting); the lines returned by commands are published in their order, none lost or repeated; every answer ever given is published exactly once or is waiting for it. As long as clients send everyday lines, the reasoner, its workers and all connections stay alive, the next waiting line is handled as soon as what is before it is published, the worker goes on as soon as its answers are published, and so everything which was sent can be served with one turn of the reasoner per line.", "quantifier": "all histories of a server: any number of clients, lines, polls, turns of the thread of the reasoner and rounds of both workers in any order; for the second part, of everyday lines (C100) and draws", "why_tests_cant": "Lost or repeated messages and starvation depend on the interleaving of threads; a test sees a few schedules of a few clients.", "anchors": ["src/NarServer.rs: run, connectionLoop, answer", "src/NarInputFacade.rs: input", "src/NarWorkingCycle.rs: QHandler, qaTryAnswer"]}
{"id": "C102", "title": "What is believed confidently follows logically from what was told", "statement": "Read statements as statements about a world in the usual way: inheritance as inclusion, similarity as equality of extent, implication, negation and conjunction as in propositional logic, predictive implication as \"some time later\", independent variables as \"every\", dependent ones as \"some\". If every statement told to the reasoner with frequency 1 is true in a world and every one with frequency 0 is false in it, then so is every belief and every answer which rests on n observations (fewer than 120) and has more confidence than n / (n + 2). A single step of inference which yields more confidence than one half never leads from what is so to what is not.", "quantifier": "all worlds, all histories of the reasoner with any number of statements, cycles and rounds of the worker, all beliefs and answers; all premises of one step of inference", "why_tests_cant": "Soundness is about all worlds and all chains of conclusions and revisions; a test shows single conclusions and has no notion of truth.", "anchors": ["src/NarWorkingCycle.rs: infBinary, infSinglePremise, memAddTask", "src/Tv.rs: ded, abd, ind, comp, int, rev", "src/NarUnify.rs: unify, unifySubst"]}
{"id": "C103", "title": "The trail of evidence of a belief tells what it rests on", "statement": "Each statement told to the reasoner gets a number of its own. Every number in the trail of evidence of a belief or answer is that of a statement told before, given out by exactly one action. A belief or answer whose trail has fewer than 120 numbers follows, by the rules of inference and by pooling of independent evidence, from just the statements with these numbers. So what else was told does not matter for it: if it is held confidently it fits every world which these statements fit. And no confidence comes out of nothing: the amount of evidence behind a belief is at most the sum of the amounts behind the statements in its trail.", "quantifier": "all histories of the reasoner, all beliefs and answers (except answers to questions about temporal rules), all worlds", "why_tests_cant": "A test can compare the trail of one conclusion with the premises it was written for; that no chain of conclusions, revisions and copies ever brings in a premise which the trail does not name is a statement about all histories.", "anchors": ["src/NarStamp.rs: merge, checkOverlap", "src/NarWorkingCycle.rs: inference, infSinglePremise2, memAddTask", "src/NarMem.rs: storeInConcepts2", "src/Nar.rs: inputT2", "src/Tv.rs: rev"]}
{"id": "C104", "title": "A question about something which is known is answered", "statement": "All questions get the same share of the random draws. When the draw of a cycle falls on a question, then afterwards the best answer known to it is at least as good as every belief in memory which matches it and is stored under one of its parts, and if that is better than before, every registered handler has been given an answer at least as good. A single question is answered whatever is drawn. In particular, a new reasoner which was told up to 20 different statements answers a question in one cycle with something at least as good as every statement which is an instance of it.", "quantifier": "all histories, all questions and beliefs, all random draws, any number of handlers", "why_tests_cant": "A test asks one question about one statement with one draw. That no belief in a memory of any content is passed over, for any draw and any number of other questions, needs a statement about all states.", "anchors": ["src/NarWorkingCycle.rs: reasonCycle, task2SelByCreditRandom, qaTryAnswer", "src/NarMem.rs: storeInConcepts2, ret_beliefs_of_concept", "src/Nar.rs: cycle, inputT2"]}
{"id": "C105", "title": "The reasoner makes nothing up and connects only what was connected", "statement": "Every name and variable in a sentence the reasoner holds, and in an answer, occurs in a statement it was told. If it is told facts about particular things and general rules, any two names which occur together in a sentence it holds are connected by a chain of names, each of which was told together with the next. So if each statement told stays within one topic, each belief and each answer stays within one topic.", "quantifier": "all histories, all ways of sorting names into topics, all beliefs and answers (except answers to questions about temporal rules)", "why_tests_cant": "A test can look for a few wrong connections in one session. That no sequence of inferences, revisions and substitutions of any length ever brings unrelated names together needs induction over all histories.", "anchors": ["src/NarWorkingCycle.rs: inference, infSinglePremise2", "src/NarUnify.rs: unify, unifySubst", "src/Nar.rs: inputT2, cycle"]}
{"id": "C106", "title": "Different things are printed differently", "statement": "Terms whose names are words and whose compounds have enough parts always have a printed text, and different ones have different texts, also with other text behind them. So the line printed for a sentence tells the statement, the punctuation and the truth value, and the message a server sends for an answer tells the question, the answer and its truth. Whatever is read from a line is of this kind, and so is everything concluded from such statements: beliefs which look the same are the same.", "quantifier": "all terms of any depth, all sentences and answers, all histories", "why_tests_cant": "A test compares the texts of a few terms. That no two of infinitely many terms share a text, however they are nested, needs an inverse of the printer and induction over terms.", "anchors": ["src/Term.rs: convTermToStr", "src/NarSentence.rs: convSentenceTermPunctToStr", "src/Tv.rs: convToStr", "src/NarServer.rs: answer handler"]}
{"id": "C107", "title": "What has been learned is not unlearned", "statement": "A statement the reasoner believes under some term stays believed there, with at least the confidence it has, whatever is told, asked, thought and done later, as long as there is room (fewer than 3000 concepts, fewer than 20 beliefs under that term). Being told a believed statement again makes the belief more confident than each piece of evidence alone: the amounts of evidence add up. When there is no room, a belief gives way to something told only if the list is full of beliefs expected at least as much.", "quantifier": "all histories and all their continuations, all terms, statements and rankings of beliefs", "why_tests_cant": "A test can check after a few actions that a belief is still there. That no later action, however many of them, loses a belief or lowers its confidence is a statement about all continuations of all histories.", "anchors": ["src/NarMem.rs: storeInConcepts2, limitMemory", "src/NarWorkingCycle.rs: memReviseBelief, memAddTask", "src/Nar.rs: inputT2, cycle", "src/Tv.rs: rev"]}
{"id": "C108", "title": "What is told is pooled, whatever the order", "statement": "Whatever statements a new reasoner is told, in whatever order and however often each, it then believes under every term which at most twenty different statements mention exactly the told statements which mention it, each once, with all the evidence told for and against it: the amounts of evidence add up and the frequency is their mean by amount. So the order in which statements are told does not matter to what is believed, nor does what is done meanwhile (events, goals, rules for acting, operators, steps, questions).", "quantifier": "all lists of statements with positive confidence below one, all their permutations, all terms, both rankings; all actions without thinking in between", "why_tests_cant": "There are unboundedly many lists and orders; that revision, storing and ranking together compute a sum which does not depend on the order is an induction over the list of statements.", "anchors": ["src/Nar.rs: inputT2", "src/NarWorkingCycle.rs: memAddTask, memReviseBelief", "src/NarMem.rs: storeInConcepts2", "src/Tv.rs: rev"]}
{"id": "C109", "title": "Attention is limited to the top percepts", "statement": "Limiting the percepts to a number keeps at most that many, as many as there are up to that number, in their order. Of percepts which come in the order of their salience the most salient ones are kept.", "quantifier": "all lists of percepts, all limits", "why_tests_cant": "The claim compares every kept with every dropped percept for all lists and limits.", "anchors": ["src/AeraishPerceptionComp.rs: limit, PerceptItem"]}
{"id": "C110", "title": "Memory does not contradict itself", "statement": "A belief is kept in several places: under every term of its statement, in a list ranked by expectation and in one ranked by use. As long as none of the lists and not memory as a whole is full, all these places hold the same belief, with the same truth value and the same record of evidence, and no other place holds it: how well a statement is known does not depend on where it is looked up.", "quantifier": "all histories of telling, asking, typing, thinking and acting, all statements, all pairs of terms, both rankings", "why_tests_cant": "The copies are revised and stored one after the other, by every conclusion of an unbounded history; that they never drift apart is an invariant over all of it, and it breaks only when lists overflow.", "anchors": ["src/NarWorkingCycle.rs: memAddTask, memReviseBelief", "src/NarMem.rs: storeInConcepts2", "src/NarMem.rs: Concept"]}
{"id": "C111", "title": "The counters count, and do not run over", "statement": "The clock of the reasoner shows how many reasoning cycles were asked for, the procedural clock how many steps. The numbers given to evidence and to tasks are limited by the sentences put in, by the user or by operators, and the cycles asked for, however the worker thread is scheduled; so as long as no more than 10^14 cycles, 10^14 steps and 10^14 sentences are asked for, none of these counters runs over 64 bits, and no number is given out twice for that reason.", "quantifier": "all histories of telling, asking, typing commands with any numbers, thinking and acting, all schedules of the worker", "why_tests_cant": "Running over takes longer than any test, and how many tasks a cycle can add depends on everything in memory.", "anchors": ["src/Nar.rs: cycle, inputT2", "src/NarWorkingCycle.rs: reasonCycle, memAddTask, Mem2", "src/NarProc.rs: narStep1", "src/NarInputFacade.rs: input"]}
{"id": "C112", "title": "One experience is enough to learn", "statement": "A reasoner which knows and wants nothing perceives a situation, then the call of a registered operator (executed by itself or reported), then another situation. After one step and one round of the storage worker it has learned from this: as soon as it perceives the first situation again and wants the second one, its next step executes the operator, provided that the weight of one experience of this operator together with the strength of the goal promises more than the decision threshold. This holds whatever the situations, the operator and its arguments are, whatever is drawn at random while perceiving, naming variables and deciding, and however long is waited in between.", "quantifier": "all situations and operator calls (plain, not said of a variable, the result no sequence), all configurations, all random draws of samples and decisions (of the names of variables: those which do not crash, C49), all waiting times", "why_tests_cant": "Learning and acting go through sampling, a worker thread, memory and a search for plans, all of which draw at random; a test sees some terms and some draws.", "anchors": ["src/NarProc.rs: narStep0, narStep1, mem_add_evidence, TraceDefault::step", "src/NarMem.rs: storeInConcepts2", "src/NarInfProcedural.rs: matchandintro_var1_sentence"]}
{"id": "C113", "title": "Typing is telling: the lines and the programming interface agree", "statement": "Typing a sentence does, in every state, exactly what telling the same term, punctuation, truth value and tense through the programming interface does, whatever ends the line; what the reasoner prints as a sentence can be typed again with this meaning; asking for cycles by a line is calling for so many cycles. In every history the lines can be replaced by the calls for which they stand without any difference in the resulting reasoner or in failures, and every accepted line is one of nine commands without such a call or stands for calls.", "quantifier": "all readable terms, punctuations, number texts and line ends; all numbers of cycles; all states; all histories mixing lines and calls", "why_tests_cant": "It equates two entry points for all sentences in all states and for all histories; a test compares some lines.", "anchors": ["src/NarInputFacade.rs: input, trimNewline", "src/Nar.rs: inputN, inputT2, cycle", "src/NarseseParser.rs: parseNarsese", "src/NarModuleNlp3.rs: process"]}
{"id": "C114", "title": "What no longer works is given up", "statement": "As long as nobody orders it to, the reasoner only does what has worked: when it executes an operator by itself (and is not babbling), a rule in its memory says what this operator leads to, and this rule was confirmed in more than half of its observations. An operator all of whose rules have failed at least as often as they were confirmed is not executed, and it stays given up until somebody reports that it was executed. Failures count: what has failed as often as it has worked is not tried again.", "quantifier": "all histories of events, goals and steps without orders, all random draws, all operators and rules, all thresholds of at least one half, all continuations", "why_tests_cant": "Which rule supports a decision depends on the whole history through candidate goals derived long before; that no stale option, and no goal derived from a rule which has failed since, can make the reasoner act is an invariant over all histories.", "anchors": ["src/NarProc.rs: narStep1", "src/NarGoalSystem.rs: selHighestExpGoalByState, sampleAndInference", "src/NarProc.rs: neg-confirmation of anticipations", "src/Tv.rs: calcExp"]}
{"id": "C115", "title": "What is done does not depend on what is believed", "statement": "Thinking does not interfere with acting. What is told and asked apart from events, goals and temporal rules, how many reasoning cycles run and what they select, how often the declarative worker works, which handlers are registered and what is printed has no influence on which operators are executed, which rules are learned and what is wanted.", "quantifier": "all pairs of histories which agree on events, goals, temporal rules, operators, steps and the draws for these, with any statements, questions, cycles and settings otherwise", "why_tests_cant": "It compares all pairs of histories of unbounded length; both halves of the reasoner share the counter of evidence and the clocks, so that an influence would only show in rare coincidences of numbers.", "anchors": ["src/Nar.rs: inputT2, inputN, cycle", "src/NarInputFacade.rs: input", "src/NarProc.rs: narStep0, narStep1", "src/NarInfProcedural.rs: infGoalBelief", "src/OpLib.rs: nlpRel0"]}
{"id": "C116", "title": "Everything done serves something wanted", "statement": "The reasoner does nothing without a reason. Whatever a step executes, unless it just tries out an operator, serves a goal which the user gave: a chain of rules known to the reasoner leads from the executed operator to that goal. If no goal was given and trying out is switched off, nothing is ever executed. The operators of a known procedure should be executed in their order (they are not: of a rule with several operators only the last one is ever executed, at once, and the rule is blamed when the effect does not come).", "quantifier": "all histories of events, goals, rules, lines, steps and worker rounds, all operators which only report events, all random draws", "why_tests_cant": "An action without a reason would only show up in a particular history: goals are derived, forgotten, removed and put back over many steps, and any of them may be acted on later.", "anchors": ["src/NarProc.rs: narStep1 (600-1031)", "src/NarGoalSystem.rs: addEntry, sampleAndInference, limitMemory, event_occurred", "src/NarInfProcedural.rs: infGoalBelief", "src/Nar.rs: inputT2"]}
{"id": "C117", "title": "What was learned about one thing is done with another", "statement": "Experience is general. If a thing had a quality, an operator was applied to it and something followed, then later, when the same is wanted and another thing has the quality, the operator is applied to that other thing. More generally: if something is wanted under a condition with variables, and a recent event is an instance of the condition, the next step acts, and if nothing promises more, it executes the action for exactly the thing the event is about. This should also hold if the effect is one on the thing itself (it does not: the general rule is learned but never used, because a goal only makes use of rules whose effect is literally the goal).", "quantifier": "all names of things, qualities, effects and operators; all reached states of the procedural reasoner, all conditions with variables and all their instances, all random draws", "why_tests_cant": "The variable is given a random name, the things can be called anything and the action chosen depends on all other goals and rules; a test shows one thing with one name in one situation.", "anchors": ["src/NarProc.rs: narStep1 (600-865)", "src/NarGoalSystem.rs: selHighestExpGoalByState", "src/NarUnify.rs: unify, unifySubst", "src/NarProc.rs: matchandintro", "src/NarInfProcedural.rs: infGoalBelief"]}
{"id": "C118", "title": "The same life, later, is the same life", "statement": "The reasoner cares about what happened in which order and at which distances, not about when it was started. If a reasoner waits before anything happens and then lives through some history, it learns, wants and does exactly the same as one which waited longer, only later. More generally: at any moment, the clock could be put ahead together with everything remembered, and everything from then on would go the same. (It holds if the clock is put ahead by a multiple of 1313 steps and evidence numbered by the user does not meet evidence numbered by the clock. It fails otherwise: goals are put in order at certain times of the clock, and a goal which has the number of an observation seems to rest on it.)", "quantifier": "all histories of events, goals, rules and steps before and after, all waiting times, all draws, all operators which do not look at the clock (all library operators do not), all functions for the decay of usefulness", "why_tests_cant": "Time enters everywhere: stamps, ages, deadlines, windows, periodic cleaning. That nothing depends on the absolute time is a statement about pairs of runs of any length.", "anchors": ["src/NarProc.rs: narStep0 (537-598), narStep1 (600-865), narInit, mem_add_evidence", "src/NarGoalSystem.rs: limitMemory, event_occurred, sampleAndInference, selHighestExpGoalByState", "src/NarMem.rs: limitMemory", "src/NarStamp.rs: checkOverlap, merge", "src/Nar.rs: inputT"]}
{"id": "C119", "title": "Nothing is overlooked: when thinking has come to rest, what is known is exactly what can be deduced", "statement": "Statements may be put in at any time, and cycles and the worker may take turns in any way. Of two tasks which had their turn and have a term in common, one was combined with the other, whichever came first. When nothing is pending any more, every statement which the documented rules derive from what was put in, in any number of steps and never combining statements which rest on the same evidence, is among the tasks, with no other evidence than the derivation used. Nothing else is ever known: every task can be derived so, with no more evidence than it carries. (It holds as long as there are few enough tasks for each term and no trimming takes place, that is for fewer than 111 cycles; the second half for up to 120 pieces of evidence. Thinking does not come to rest if a relation was put in: its three forms are derived from each other with the same evidence again and again.)", "quantifier": "all histories of inputs, cycles, rounds of the worker and changes of the procedural memory; all pairs of tasks; all derivations by the documented rules, of any length; sessions of typed lines as well as calls", "why_tests_cant": "Completeness is about every derivation, and about every order in which the two premises of each step became known, were selected and were worked on.", "anchors": ["src/NarWorkingCycle.rs: createMem2 (worker body), reasonCycle, inference, infSinglePremise2, populateTaskByTermLookup, memAddTask", "src/Nar.rs: cycle, inputT2"]}
{"id": "C120", "title": "Questions are answered completely and soundly: after thinking, an answer comes exactly if one can be deduced", "statement": "When thinking has come to rest, each deducible statement without variables which fits a question (not about time) and has a part in common with it is remembered with a positive rating, and as soon as the question has its turn every handler gets an answer which fits and is rated at least as high. Conversely, whatever a handler is told at any time about such a question can be deduced from what was put in, with no more evidence than is given for it. For a new reasoner which is told a handful of facts and general rules, thinks to the end, and is then asked a statement which is not a rule, a handler hears an answer after one cycle, whatever is drawn, exactly if some fitting statement with a part in common with the question can be deduced. (As long as the memory has room.)", "quantifier": "all histories of inputs, cycles, rounds of the worker; all questions which are not about time; all derivations of any length; all handlers; all draws; sessions of typed lines as well as calls", "why_tests_cant": "Both directions speak about every derivation: that none is missed and that no answer lacks one, for all orders in which premises met and all states of the memory.", "anchors": ["src/NarWorkingCycle.rs: createMem2 (worker body), reasonCycle, inference, memAddTask, qaTryAnswer", "src/NarMem.rs: storeInConcepts2, ret_beliefs_of_concept", "src/Nar.rs: cycle, inputT2"]}
{"id": "C121", "title": "What is known in the end does not depend on order, timing or chance", "statement": "Two reasoners are told statements, asked questions, and think, in any arrangement. If the same statements are told to both (in any order, with any truth values), and both have thought until nothing is left to think about, they know the same statements, whatever was drawn and however the work was interleaved; and if one is told more than the other it knows at least as much. A question asked afterwards is answered by both or by neither. (As long as there was room.) What is believed about a statement, however, should not depend on the order either.", "quantifier": "all arrangements of telling, asking, cycles and rounds of the worker; all permutations of the statements; all truth values, draws, operators, environments; all questions; sessions of typed lines as well as calls", "why_tests_cant": "It compares every pair of schedules and random sequences; a test runs a few of them.", "anchors": ["src/Nar.rs: inputT2, cycle", "src/NarWorkingCycle.rs: reasonCycle, createMem2, inference, memAddTask", "src/NarMem.rs: storeInConcepts2"]}
{"id": "C122", "title": "What was told long ago is still put to use", "statement": "A statement which the reasoner was told, and still holds, can be combined with a statement it is told later, however much it has thought in between: sooner or later everything which follows from the two together is concluded, and is given as an answer when asked for.", "quantifier": "all histories of telling, asking, cycles and rounds of the worker; all continuations after any number of cycles; all draws", "why_tests_cant": "It is about every continuation of a history, without limit; a test which asks soon after telling sees nothing wrong.", "anchors": ["src/NarWorkingCycle.rs: reasonCycle, populateTaskByTermLookup, memAddTask, inference", "src/Nar.rs: inputT2, cycle"]}
{"id": "C123", "title": "Odd numbers in what is told do no harm later", "statement": "Whatever numbers are told as frequency and confidence, and however often and in whatever order, the reasoner can still be told anything else afterwards without crashing, and what it believes has truth values which are numbers; a statement never loses its chance of a turn because of the form of another one.", "quantifier": "all finite sequences of told statements with any truth values which can be read as numbers, including infinite ones and what is not a number; all lists of waiting tasks and of goals; all draws", "why_tests_cant": "Harm shows only later, with another statement which has a term in common, or in a 111th cycle; the numbers range over all values of a floating point type, including those which are not numbers.", "anchors": ["src/NarMem.rs: storeInConcepts2", "src/NarWorkingCycle.rs: memAddTask, memReviseBelief, divCreditByComplexity, taskSelByCreditRandom, taskCalcCredit", "src/Tv.rs: rev, calcExp, c2w, w2c", "src/NarseseParser.rs: parseNarseseRetTv", "src/NarGoalSystem.rs: limitMemory"]}
{"id": "C124", "title": "Unrelated matters do not interfere", "statement": "What the reasoner comes to know about a matter, and which questions about it are answered, depends only on what it was told about this matter: two reasoners which are told the same facts and general rules about it, and anything about other matters (with no name in common), in any order and with any questions, thinking and acting in between, know the same about it when nothing is left to think about, and answer the same questions about it. How much is believed should not depend on the other matters either (it does).", "quantifier": "all ways of sorting names into matters; all arrangements of telling, asking, cycles and rounds of the worker; all unrelated statements; all draws, operators and environments; all questions within the matter", "why_tests_cant": "It compares histories which differ by arbitrary unrelated input; unrelated statements change the timing of everything, and no test can go through all of them.", "anchors": ["src/NarWorkingCycle.rs: reasonCycle, memAddTask, inference", "src/Nar.rs: inputT2, cycle"]}
{"id": "C125", "title": "Saying something again is no news", "statement": "Saying again what was already said takes nothing away from what is known in the end, whatever is done meanwhile. However often things are said, nothing is ever known which does not follow by the rules from the statements told; and whatever follows, if each statement may be used again and again, is known in the end if each statement was told often enough. Saying something again should add nothing to what is known either (it does: the same statement then serves for several pieces of evidence).", "quantifier": "all courses of telling, asking, cycles and rounds of the worker; all repetitions at any place; all statements which follow; all draws, operators and environments", "why_tests_cant": "It compares all histories with all their repetitions, and needs the set of everything which follows, which is unbounded in the depth of derivations.", "anchors": ["src/NarWorkingCycle.rs: reasonCycle, memAddTask, inference", "src/NarStamp.rs: checkOverlap, merge", "src/Nar.rs: inputT2, cycle"]}
{"id": "C126", "title": "What must not be tried out is not done unprompted", "statement": "Whatever the acting side of the reasoner remembers, learns, wants and does is made up of the names in the events, goals and rules which were given to it (told, typed, found in a text, or reported by operators), of the name SELF and of the names of operators which it may try out. So an operator which must not be tried out is never executed unless somebody mentions it. It should not be executed either unless somebody tells something about its execution (it is: to be mentioned as a thing is enough).", "quantifier": "all histories of inputs, commands, cycles, steps and worker rounds; all operators, environments, draws and names", "why_tests_cant": "It is a negative statement about all histories: tests can show what was executed in one run, not what can never be executed however rules are learnt, generalised with variables, chained and instantiated again.", "anchors": ["src/NarProc.rs: narStep0, narStep1", "src/OpLib.rs: isBabbleable", "src/NarInfProcedural.rs: matchandintro_var1, infGoalDetach", "src/NarGoalSystem.rs: sampleAndInference", "src/Nar.rs: inputT2"]}
{"id": "C127", "title": "Acting does not change what is known", "statement": "While statements are told and thought about, things may happen, goals may be set and pursued, rules for acting may be told and learnt, operators registered and executed, and comments and listings typed, in any arrangement. As long as no operator reports relations, the statements known when nothing is left to think about are exactly those which can be deduced from the statements told; so they are the same whatever was done meanwhile. At no time is anything known which cannot be deduced. No answer rests on what happened or was wanted, and a question is answered in the end exactly if an instance of it can be deduced.", "quantifier": "all arrangements of telling, typing, asking, cycles, worker rounds and acting, all draws, any number of acting actions", "why_tests_cant": "Both sides share the counter of evidence numbers, the clocks and the memory of rules; that no interleaving of acting lets one leak into the other is a statement about all histories.", "anchors": ["src/Nar.rs: inputT2, cycle", "src/NarInputFacade.rs: input", "src/NarProc.rs: narStep0, narStep1", "src/NarWorkingCycle.rs: reasonCycle, memAddTask"]}
{"id": "C128", "title": "How much attention a statement gets", "statement": "Which of the statements waiting to be thought about a cycle takes depends only on amounts which can be told in advance. A statement has one point of credit when it is added and gets half a point in each cycle in which it waits, each time divided by its complexity; so its own credit is a fixed function of its complexity and its age, never zero and, for all but the simplest statements, never more than at first. Each question open adds, in each cycle, one point for every sub-term it shares with the statement, counted with multiplicity, divided likewise; as long as nothing was asked there is no such credit. A cycle takes a waiting statement of which none waiting has more credit after that. So, when nothing was asked, no simpler statement of the same age and factor is passed over.", "quantifier": "all histories of the reasoner (telling, typing, cycles, worker rounds, flushing, operators which report relations), all statements waiting, all questions, all decay functions without negative values, all draws", "why_tests_cant": "The amounts accumulate over any number of cycles and are looked up through an index by sub-term which is rebuilt and grows in between; a reference missing or counted twice shows only in the order in which statements are taken much later.", "anchors": ["src/NarWorkingCycle.rs: reasonCycle, memAddTask, divCreditByComplexity, taskCalcCredit"]}
{"id": "C129", "title": "Every statement gets its turn", "statement": "A statement which was told and accepted is thought about after some time, whatever else is said meanwhile. (The code violates this: as long as something simpler is said before each cycle, and nothing is asked, the cycle takes nothing more complex than what was said last, so a more complex statement told before never has its turn, however long this goes on; and if more than thirty-one statements wait when a clean-up is due, one of them is forgotten before its turn, for good. Left alone, each statement waiting has its turn within as many cycles as there are statements waiting, if at each clean-up in this time at most thirty others wait and each of them is worth more than a thousandth without questions.)", "quantifier": "all statements told first, all talks of any length with simpler statements, any number of worker rounds in between, all draws, all positive decay functions which do not increase with age; for what holds: all histories of the reasoner, all statements waiting", "why_tests_cant": "That a statement never has its turn is a claim about talks of every length; a test ends after some rounds and cannot tell being late from never.", "anchors": ["src/NarWorkingCycle.rs: reasonCycle, memAddTask, taskCalcCredit, divCreditByComplexity", "src/Nar.rs: inputT2, cycle"]}
{"id": "C130", "title": "What is asked about is thought about first", "statement": "Among statements of the same age and factor, one which is just what was asked is thought about before one which has nothing to do with any question. (The code violates this: the credit from questions is bounded, however long they are open, by what the statement has in common with them divided by its complexity less one, and counts a fifth; after something with complexity at most three was told no statement of complexity fifteen or more is taken unless it has more places in common with the questions than its complexity. It holds if the questions have at least two and a half places in common with the statement for each unit of its complexity, for example because it was asked several times.)", "quantifier": "all histories of the reasoner, all statements waiting, all questions, all positive decay functions which do not increase with age, all draws", "why_tests_cant": "Credit is given and divided anew in each cycle while questions stay open for ever; that it never exceeds a bound, so that waiting does not help, holds for histories of every length.", "anchors": ["src/NarWorkingCycle.rs: reasonCycle, divCreditByComplexity, taskCalcCredit"]}
{"id": "C131", "title": "A question is not answered over and over", "statement": "As long as nothing is put in and nothing is concluded, a question which was looked after in one cycle is not answered again in any later one, however many cycles follow (and, when thinking has come to rest, rounds of the worker), whatever the draws and whatever is forgotten in the regular clean-ups. Altogether no more answers are told than the product of the numbers of listeners, open questions and beliefs; so in an endless run of this kind there is a last answer.", "quantifier": "all histories of the reasoner, all numbers of cycles, all draws, all numbers of listeners and questions, endless runs; questions about what is and about what follows in time", "why_tests_cant": "That no answer is ever repeated is a claim about runs of every length, across the forgetting of tasks every 111 and of concepts every 173 cycles; a test sees some cycles of one memory.", "anchors": ["src/NarWorkingCycle.rs: reasonCycle, qaTryAnswer", "src/NarMem.rs: limitMemory, retBeliefsOfConcept", "src/Nar.rs: cycle"]}
