# Formal model of 20NAR1 - design

Target: the Rust sources in `/repo/src` at the pinned commit, read as text.
The model is written in Lean 4 (`/verif/lean/Verif/`), one file per source area.

## Conventions of the model

* Every model definition cites the Rust file and lines it models.
* `&mut` parameters become returned values. Shared `Arc<RwLock<..>>` cells are
  modelled by values, or by indices into a store where aliasing is observable.
* A panic (`unwrap` on `None`, slice index out of range, explicit `panic!`) is an
  explicit error: `Option`/`Except` results in the model. It is never totalised away.
* `f64` arithmetic is modelled over an exact linearly ordered field (`ℚ`, or any
  field where the statement is generic, or `ℝ` where `exp` is needed). IEEE rounding,
  NaN and infinities are outside the model; see the trusted base.
* `i64`/`usize` are modelled by `Int`/`Nat`; the properties are not about overflow.
* Random numbers are parameters: a theorem quantifies over every draw.
* Hash maps are modelled by association lists with unique keys; iteration order
  (unspecified in Rust) is the list order, and theorems quantify over all lists.
* Strings are `String`/`List Char`; byte/char confusion of the code is noted where it matters.

## Layout

* `Verif/Model/*.lean` - the model, function by function.
* `Verif/Spec/*.lean` - small independent specifications (where one is needed).
* `Verif/Lemmas/*.lean` - helper lemmas.
* `Verif/Props/*.lean` - the property theorems, each with a satisfiability example.

## Plan per property

The file is the one under `Verif/Props` with the theorems; `MANIFEST.json` lists them with status and notes.

| id | modelled | proof | file | status |
|----|----------|-------|------|--------|
| C01 | `checkEqTerm` | mutual structural induction: decides `=` | Term | proved |
| C02 | `unify2`, `unify`, `unifySubst` | induction on the pattern with an invariant on the threaded binding list | Unify | proved |
| C03 | same | induction, given an assignment; negation for targets with variables by witness | Unify | proved |
| C04 | same | invariant: keys distinct, keys occur in pattern, values occur in target | Unify | proved |
| C05 | `merge` | list lemmas on interleaving and truncation | Stamp | proved |
| C06 | `checkOverlap`, `checkSame` | characterised by membership | Stamp | proved |
| C07 | all of `Tv.rs`, `TvVec.rs` over an ordered field | field inequalities; fold by induction | Tv | proved |
| C08 | `rev` | field algebra in weight space | Tv | proved |
| C09 | `ded`, `abd`, `ind`, `int`, `comp`, `dedGoal` | field inequalities | Tv | proved |
| C10 | `inference2` | unfolding plus C05/C06 | Rules | proved |
| C11 | every rule function | per-rule case analysis on atoms | Rules | proved |
| C12 | every rule function | per-rule, uses C07 | Rules | proved |
| C13 | rules with explicit panics | per-rule; concrete crashing pair by evaluation | Rules | proved |
| C14 | `storeInConcepts2` | invariant by induction over op list | Mem | proved |
| C15 | `memReviseBelief`, `storeInConcepts2`, `limitMemory` | invariant by induction over op list | Mem | proved |
| C16 | `limitMemory` | sortedness and `take` | Mem | proved |
| C17 | `storeInConcepts2` | induction over sub-term list | Mem | proved |
| C18 | same as C15 | sortedness after store; negation by witness | Mem | partial |
| C19 | `qaTryAnswer` and its callers | fold over candidate list; characterised by maximum; histories | Task, Task2 | proved |
| C20 | `memAddTask` | invariant by induction over op list | Task, Task2 | proved |
| C21 | cleanup part of `reasonCycle` | sortedness, `take`, `filter` | Task | proved |
| C22 | selection helpers | argmax by induction; bounds | Task, Task2 | proved |
| C23 | `limitMemory` of the goal system | selection lemmas; rebuild via `addEntry2` | Goal | proved |
| C24 | `addEntry`, `addEntry2` | negation by witness history; partial for ops and first-of-group | Goal | partial |
| C25 | `addEntry2` | invariant by induction over op list | Goal | proved |
| C26 | `event_occurred`, `narStep0` | map lemma; negation by witness history | Goal, Proc | partial |
| C27 | `sample`, `binSearch` | index bounds; membership; exact distribution over the draws | Goal | proved |
| C28 | `infGoalBelief`, `infGoalDetach` | decision logic; histories of goals and rules | Goal, Proc | proved |
| C29 | `TraceDefault` | history invariant | Proc | proved |
| C30 | evidence update | invariant over histories | Proc | proved |
| C31 | `narStep0` | list/fold lemmas on a rule store with indices; negations by witness history | Proc | partial |
| C32 | decision part of `narStep1` | decision logic, argmax | Proc | proved |
| C33 | babbling part of `narStep1` | decision logic | Proc | proved |
| C34 | `findMinTableIdx` | induction | Proc | proved |
| C35 | `encodeOp`, `decodeOp` | case analysis | Proc | proved |
| C36 | `try_build_implSeq` | decision logic | Proc | proved |
| C37 | term parser, printer | soundness and completeness of the parser against an inductive grammar, mutual induction | Parser | proved |
| C38 | `parseNarsese` | exact set of accepted lines; negation for every term | Parser | partial |
| C39 | `inputT2` counter, whole reasoner | history invariant; collision by witness | Nar | partial |
| C40 | `inputT2` routing | case analysis with frames | Nar | partial |
| C41 | `input` dispatch | case analysis over all strings | Listing, Nar | partial |
| C42 | server message store + client counter | history invariant over interleavings | Server | partial |
| C43 | `simStep` | invariant over all histories; negations by witness history | Pong | partial |
| C44 | `Map2d`, `Map2dMachine` | index arithmetic, painting folds; refinement: 32 bit arithmetic which is right within its range computes the same under size limits, by a loop invariant | Map2d, Map2dMachine | partial |
| C45 | `ad.rs`, `Nn.rs` over `ℝ` | `HasDerivAt`; exact error of `div`, sigmoid and bias | Ad | partial |
| C46 | `tryMove`, winner test, game loop | list update lemmas, invariant over games | TicTacToe | proved |
| C47 | `classify_max`, `classify`, vision B-D | argmax induction, histories | Vision | proved |
| C48 | `intro_vars` helper | structural induction | VarIntro | proved |
| C49 | `create_random_varname` | negation by witness; exact characterisation of crashing draws | VarIntro | partial |
| C50 | `retSubterms`, `retUniqueSubterms`, `calcComplexity` | structural induction | Term | proved |
| C51 | `conv_rel_to_narsese` | via the parser model | Parser | partial |
| C52 | `calcUsageUsefulness` | field inequalities | Usage | proved |
| C53 | `inference2` and all two-premise rules | case analysis against a rule table (`Spec/Rules`), both directions | Rules | proved |
| C54 | all one-premise rules | same | Rules | proved |
| C55 | `infBinary`, `inference2` | case analysis; negation by witness | Rules | partial |
| C56 | declarative memory | totality by invariant over op lists; negation at confidence 1 | Mem | proved |
| C57 | `judgementTasksByTerm` | invariant: the index is sound and complete | Task | proved |
| C58 | whole declarative reasoner: cycle, worker, channel, line interface | all rules keep terms well-formed and truth values in range; totality of every function under the invariants; histories; negations by witness | Decl | partial |
| C59 | `secondaryElligable` and selection of partners | list lemmas | Task | proved |
| C60 | `Tv.rs` | field algebra | Tv | proved |
| C61 | goal system | totality by invariant over histories | Goal | proved |
| C62 | `sample` with accumulated weights | exact distribution; negations by witness | Goal | partial |
| C63 | whole procedural reasoner | totality under invariants; exact crash conditions; negations by witness | Safe | partial |
| C64 | storage worker of the procedural memory | exact effect of a message, induction | Proc | proved |
| C65 | `reasonCycle`, `work` | refinement to a list of elementary actions | Task2 | proved |
| C66 | procedural memory | invariants over whole-reasoner histories; negation for every state with a long table | Whole | partial |
| C67 | `parseNarsese` | exact crash condition | Parser | partial |
| C68 | `qaTryAnswer` with linked procedural memory, `main.rs`, server | invariant over histories, both directions | Nar, Server | partial |
| C69 | whole reasoner | inductive specification of derivability; invariant over histories | Nar | proved |
| C70 | `OpLib.rs` | structural induction over nested calls | Nar | partial |
| C71 | whole reasoner | simulation: each action decomposes into elementary actions of the parts | Whole | proved |
| C72 | server loop | histories; negation by witness | Server | partial |
| C73 | server loop | refinement to the reasoner | Server | proved |
| C74 | `mlutils.rs` | real analysis (Cauchy-Schwarz) | MlUtils | proved |
| C75 | convolution in `ModVisionB.rs` | sum rearrangement; exact part of the kernel that counts | Vision | partial |
| C76 | Gabor kernel | real analysis | Gabor | proved |
| C77 | classifiers | histories; negations by witness | Vision | partial |
| C78 | channel between `reasonCycle` and the worker thread | case analysis, history invariant | Channel | proved |
| C79 | locking skeletons of all functions, `parking_lot` semantics | ranked lock discipline as invariant, progress by a measure; hang by a schedule and an invariant | Locks | partial |
| C80 | `memAddTask` at the granularity of its locks, any number of threads | weakened invariant over all interleavings, refinement of the undisturbed addition; races by witness | Race | partial |
| C81 | random numbers, differentiation and training loop of `ModNlpA.rs` | dual numbers are exact because outputs are affine in each parameter; invariant over epochs | NlpNet | partial |
| C82 | tables of the sqlite storage as lists of rows | round trip by structural induction; permutation of rows | NlpNet | proved |
| C83 | tokens, encoding, network, choice of actions, files | exact result as an equivalence to an independent run; negations by witness | NlpNet | partial |
| C84 | reading of files, session, command line | refinement to histories of the reasoner, by induction | EverydayPrograms, Programs | partial |
| C85 | `Eval.rs` | equivalence by induction over the cycles; invariant that no question is asked | EverydayPrograms, Programs | partial |
| C86 | `ProcChaosEntry.rs` | every run fails: case analysis | Programs | partial |
| C87 | `Reasoner1Entry.rs`: reasoner and world of Pong | safety invariant over rounds; refinement to histories of reasoner and world; flight of the first ball | Programs | partial |
| C88 | tic-tac-toe program as phases | invariant over phases: games played so far and counters; negation by witness | Programs, Programs2 | partial |
| C89 | shared counters of use as named cells | uniqueness of cell names as invariant over histories; a cycle maps the counters; negation by witness | Counters | partial |
| C90 | tables of concepts, ranked and cut | a belief without use is sorted last; negation for all histories; list by expectation by the sorting | Counters | partial |
| C91 | truth functions with an abstract rounding after each operation; IEEE binary64 rounding as a computable function on rationals | monotonicity of rounding and machine numbers as bounds; binary64 shown to be such a rounding; witnesses by computation | TvMachine | partial |
| C92 | the same functions beside the exact ones | propagation of relative and absolute error bounds through each function; witness for the flipped choice | TvMachine | partial |
| C93 | the parser once more, counting the calls of the term reader (Model/ParserCost) | erasure by congruence; upper bounds by a potential of the text left, carried through each alternative; exact recurrences for two families of texts | ParserCost | partial |
| C94 | the storage worker and the main thread in single locked sections (Model/ProcRace) | invariants over all interleavings; a ledger of what each section counts; disappointments commute with visits; simulation of whole steps by sections | ProcRace | proved |
| C95 | the whole model under an injective replacement of names (Spec/Rename) | every function commutes with the replacement (Lemmas/Rename1-7), by induction on terms, lists and histories; replacements exist for any names by composing swaps; one evaluated run per dialogue then covers all words | Rename | proved |
| C96 | whole declarative reasoner and Reasoner (Model/Task, Model/Nar), quiet continuations (Spec/Thinks) | a cycle takes one pending task and all its partners in the lookup; induction over the cycles gives a permutation of the pending tasks, induction over the worker rounds deals with each message; question states only improve; counterexamples evaluated | Thinks | partial |
| C97 | declarative reasoner (Model/Task, Model/Rules, Model/Mem), spans of actions between cycles (Spec/Bounded, Spec/Bounded2) | count the rule calls of a worker round; invariant: partners at most 300, tables bounded, kept tasks at most 30 plus the load since the last trimming; induction over the spans; unlimited questions, concepts and waiting work by families of runs; lifted to the whole reasoner by simulation of each call and line | Bounded, Bounded2 | partial |
| C98 | procedural step (Model/Proc narStep1), ways through learned rules (Spec/Ways) | the best option of the search promises at least as much as each option met; the search meets the way for suitable draws (induction over the rules of the way); a sound best option becomes the only desired executable goal and is executed; counterexamples evaluated | Ways | partial |
| C99 | the whole reasoner (Model/Nar, Model/Task, Model/OpLib), pairs of actions which differ only in chance, perception, wishes and handlers (Spec/Chance) | two-run invariant: each declarative function commutes with forgetting how well questions were answered; each pair of actions keeps the two reasoners alike; induction over the two histories; limits by evaluated histories | Chance | proved |
| C100 | the whole reasoner (Model/Nar) with everyday actions (Spec/Everyday) | joint invariant of the declarative side (C58), of the procedural side (C63, kept when operators are registered later) and of the evidence trails; each action is total; relations of natural language are replaced by tellings; operators of the library are never executed unless mentioned (C126); limits by evaluated histories | Everyday, Everyday2 | partial |
| C101 | the server (Model/Server) with the ghost lists of lines handed over, lines returned and messages published (Spec/Service) | invariant over all histories which equates the lists exactly; answers only grow (C71), so the new ones are what is published; everyday service: the reasoner is total (C100), answers and questions are printable; draining by induction on the number of waiting lines | Service | partial |
| C102 | worlds, the meaning of terms in them, truth and falsity of statements (Spec/Meaning), independent of the reasoner; the rules (Spec/Rules, tied to the code by C53/C54) and the whole reasoner | substitution lemma for meanings; each deductive rule preserves truth (and falsity where its truth function needs it), the guessing rules give at most one unit of evidence from two observations; invariant over all histories: a sentence fits the world or its evidence is at most half a unit per observation; pooling adds both sides | Meaning | partial |
| C103 | the whole reasoner; which action gave out which number, and what follows from the statements with given numbers (Spec/Trail) | the invariant over all histories of C39/C71 sharpened: the number of a told statement is one of those given out by the action which tells it; merging keeps all numbers below the limit; properties kept by inference then hold of a belief as soon as they hold of the statements in its trail | Trail | partial |
| C104 | cycles of the whole reasoner and the selection of questions (Spec/Asked) | a cycle is decomposed into its parts, none but the question step touches questions and memory content; equal shares by the invariant that all questions have the same priority; what is told is filed under all its parts while tables have room (induction over the telling) | Asked | partial |
| C105 | whole reasoner; topics are any function on names, connection is the transitive closure of being told together (Spec/Topics) | invariant of all sentences: fact or general rule, within a topic; the two premises of every rule have a name in common, because a common part of facts names something and a name of a pattern occurs in what matches it; connection from topics by taking connected components | Topics | partial |
| C106 | printing of terms, sentences and answer messages; legible terms (Spec/Legible) | a reader for printed texts is written and proved to read back every legible term whatever follows it (induction over terms); the rules keep terms legible (invariant of the whole reasoner) | Legible | proved |
| C107 | whole reasoner; what is known under a term is read off memory (Spec/Lasting) | a relation between earlier and later memory (no concept and no belief lost, confidence not lower, unless full) which is reflexive, transitive and kept by adding a belief, forgetting and counting uses, lifted to histories (Lemmas/Journey); revision adds amounts of evidence | Lasting | partial |
| C108 | telling through the programming interface, declarative memory; pooled evidence as a sum (Spec/Pooled) | invariant of memory by induction over the statements told: under the term just the told statements, with pooled truth; revision of a pooled truth value pools; what is new is stored, because fewer than twenty are listed; acting leaves the memory alone (C127) | Pooled, Pooled2 | partial |
| C109 | `limit` | prefix and sortedness; negation by witness | Percept | partial |
| C110 | whole reasoner; memory with both lists of each concept (Spec/Agree) | relation between the memories before and after each action, closed under composition (Lemmas/Journey): adding a belief changes what all lists show in the same way; full lists stay full, so room at the end means room all the time | Agree | partial |
| C111 | whole reasoner; what each action asks for (Spec/Effort) | clocks: exact, by induction over actions; identifiers: invariant which charges each waiting message with the conclusions it can still bring (C97), so that the schedule does not matter | Effort | proved |
| C112 | procedural reasoner from perception to action | the samples of a window of three events are all the same rule; storing keeps it first in the concept of its condition (all stored rules have equal evidence, stable sort); then C98 | Taught | proved |
| C113 | line interface and programming interface of the whole reasoner | a line is related to the calls for which it stands (read by the parser, cycles unrolled, relations one by one); equality of the results by induction over the history; courses of telling, asking and thinking (C119-C121) carried over to typed sessions | Typed, Typing | proved |
| C114 | procedural reasoner with goals, rules and anticipations (Spec/GivenUp) | invariant over all histories: no candidate goal begins with an operator call, so that a decision always adopts an option whose rule is looked up at its present record; expectation above one half means confirmed in more than half of the observations; records without new observations only get worse | GivenUp | partial |
| C115 | whole reasoner (Spec/Deeds: which sentences and actions are for thinking only) | two runs in step: the procedural state and the number of identifiers handed out are functions of the actions for acting; cycles and rounds of the worker leave both alone; concrete run for the violation | Deeds | partial |
| C116 | goal system, procedural steps, whole reasoner (Spec/Serving: what is wanted because of what) | invariant of all stored goals over all histories: each is reached from a given goal over known rules; kept by adding, forgetting, derivation, satisfaction and adoption because rules only grow; concrete run for the violation | Serving | partial |
| C117 | variable introduction, goal system, procedural step, matching; whole reasoner | decision step: completeness of matching (C03) gives the option, the best option only improves over the search; complete histories by evaluation of one history, carried over to all names by the invariance under renaming (C95) | Transfer | partial |
| C118 | procedural reasoner with goal system; operators that do not look at the clock | equivariance: moving all times and renumbering evidence commutes with every function of the procedural reasoner, by induction over histories; the evidence number -1 and numbers from the future are never used (invariant); waiting only moves the clock (invariant); violations by evaluation, the waiting itself by the theorem | Later | partial |
| C119 | task system, worker, rules; whole reasoner | invariant over histories: every pair of selected tasks with a common term is handled in one of the two orders or waits in the queue, new tasks are pending; at rest the tasks are closed under the documented rules (C53, C54), induction over derivations; converse: invariant that every task and belief is derivable with no more evidence than it carries, that messages pair tasks with a common term and that beliefs are kept under terms they contain; relations: invariant that one form is always pending or waiting | Course, Rest, Typed | partial |
| C120 | task system, worker, memory, answering; whole reasoner | at rest every deducible statement is a task (C119); invariant over histories that every judgement task is a stored belief of equal or better rating while there is room; the answering routine reports the best stored instance (C73); soundness: invariant that stored beliefs and answers are deducible with at most the evidence they carry | Best, Course, Typed | partial |
| C121 | whole reasoner; telling, asking, cycles and rounds of the worker in any arrangement | every such course is a history of the task system whose inputs carry their numbers as evidence (simulation); at rest the known statements are the deducible ones (C119); a derivation stays one when its evidence is renamed injectively, so permuted statements give the same deducible ones; the violation by two concrete courses | Course, Typed | partial |
| C122 | whole reasoner and task system; any continuation after a 111th cycle | invariant over all actions: from then on only tasks pending at that cycle or added later are available or named by messages; facts contain no facts, so a belief found under a fact says the same; hence everything held later was held then or follows from pending and later statements alone; concrete violation for all continuations; old rules are still applied, from the exact description of the conclusions of the worker | Longago | partial |
| C123 | `MemNumbers`: memory and priorities over numbers with NaN and infinities | invariant over told statements: all beliefs have finite expectations, revision keeps this, so every sort succeeds; violations for all statements which share a term: what memory is after one or two statements, the only error of storing, and that the sort meets the NaN; choice with numbers refines the choice of the task system; simulation: for sane truth values the memory is that of the whole reasoner | MemNumbers | partial |
| C124 | whole reasoner; courses of telling, asking and thinking which agree on one topic | at rest the known statements are the deducible ones (C119); the premises of a conclusion from facts and rules have a name in common (C105), so a derivation about a topic uses only statements about it; evidence renamed injectively (C121); answers by C120; with acting in between by C127; violation by two concrete courses | Apart, Lives2 | partial |
| C125 | whole reasoner; courses with repetitions | derivations without regard to evidence; each is turned into a list of the statements used, as often as used, and becomes a derivation with disjoint evidence as soon as the list is among the statements told; known statements by C119, with acting in between by C127; violation by a concrete course | Again, Lives2 | partial |
| C126 | procedural reasoner and whole reasoner | invariant over all actions for an arbitrary property of names: all names in stored rules, worker queue, goals, trace and operators open to trying out have it; preserved by substitution, by introducing variables and by goal derivation; violation by a concrete history | Unprompted | partial |
| C127 | whole reasoner | every history is simulated by one of the declarative system in which acting only uses up evidence numbers; numbers of the statements renamed injectively, so that what can be deduced stays the same; then C119 and C120 | Lives, Lives2 | partial |
| C128 | whole reasoner: working cycle, task list, index of tasks by sub-term | invariants over all histories: how often the index lists a task under a sub-term is how often the sub-term occurs in it; the own credit is the function of complexity and age; without questions no credit from them. A cycle's effect on each task waiting in closed form; the one taken has most by C22; strict monotonicity of the own credit in the complexity | Attention, Attention2 | proved |
| C129 | the whole reasoner: telling, cycles, worker rounds | violation for talks of every length: the talk succeeds by C58, no question arises (invariant), what was just told waits with full factor and is the youngest, so by C128 and monotonicity of the own credit in complexity and age nothing more complex is taken; left alone: induction over the cycles, each of which takes one of those waiting, and a clean-up which keeps the others; forgotten: pigeonhole at the clean-up, and what is referred to nowhere stays so (invariant) | Turns | partial |
| C130 | working cycle, questions, the whole reasoner | invariant over all histories: credit from questions times complexity less one is at most what the statement has in common with the open questions (questions stay open and only grow in number); then the amounts of C128 are compared | Asking | partial |
| C131 | the whole reasoner, cycles only | invariant over the cycles: the best answer so far is at least as good as every belief listed under a sub-term of the question, and cycles change nothing in memory but counters of use and whole concepts lost; for the bound a measure which each answer decreases: the number of values of beliefs which would be better, summed over the questions | Flood | proved |

## Trusted base

* Lean 4.33.0's kernel. Theorems use at most the axioms `propext`, `Classical.choice` and `Quot.sound`;
  `AXIOMS.md` lists the axioms of every theorem (generated with `#print axioms`). No axioms were added.
* The reading of the Rust code into the model, cited by file and lines at each definition.
* The meaning given to library code: `nom` combinators, `Vec`, `HashMap`, `str` methods, channels.

### Modelled

| source | model | remarks |
|--------|-------|---------|
| Term.rs, TermUtils.rs, TermApi.rs | Model/Term | all functions used by the reasoner |
| NarUnify.rs | Model/Unify | |
| Tv.rs, TvVec.rs, Utils.rs | Model/Tv | exact arithmetic |
| NarStamp.rs | Model/Stamp | |
| NarSentence.rs | Model/Sentence, Parser | |
| NarMem.rs | Model/Mem, ProcMem | |
| NarWorkingCycle.rs | Model/Rules, Task | worker thread = atomic handler of one message |
| NarGoalSystem.rs, BinSearch.rs | Model/Goal | |
| NarInfProcedural.rs | Model/VarIntro, Goal, Proc | |
| NarProc.rs | Model/Proc, ProcRace | storage worker = atomic handler of one message (Proc), or one action per locked section (ProcRace) |
| NarseseParser.rs | Model/Parser, ParserCost | `nom` parsers as partial functions on text |
| Nar.rs, NarInputFacade.rs | Model/Nar | printed text only where it can crash or is returned |
| OpLib.rs | Model/OpLib | |
| NarServer.rs | Model/Server | sockets as lists of lines and messages |
| NarModuleNlp3.rs, ModNlpA.rs | Model/Nlp, NlpNet | exact arithmetic, the sine is a parameter, sqlite tables are lists of rows |
| EnvPong3.rs, Map2d.rs, ProcTicTacToe.rs | Model/Pong, Map2d, Map2dMachine, TicTacToe | |
| main.rs, NarInteractive.rs, NarUtilReadn.rs, Eval.rs, ProcChaosEntry.rs, Reasoner1Entry.rs, the program in ProcTicTacToe.rs | Model/Programs | files as lists of lines, printing left out |
| ModVisionB-D.rs | Model/Vision, Gabor | |
| `memAddTask` in single locked sections | Model/Race | each section atomic, any interleaving |
| all use of `RwLock`, `Mutex` and channels in the reasoner and the server | Model/Locks | locking skeleton of each function |
| Tv.rs with rounding | Model/TvMachine | every operation followed by a rounding; `rnd64` is that of `f64` |
| NarMem.rs 47-135, `memReviseBelief`, `memAddTask`, priorities of tasks, usefulness of goals with NaN and infinities | Model/MemNumbers | no rounding, no thinking in between |
| ad.rs, Nn.rs, mlutils.rs | Model/Ad, MlUtils | over the reals |

### Simplifications

* IEEE rounding, NaN and infinities: arithmetic is exact; operations which give NaN in the program (division by a zero
  weight) are errors in the model, and a number written as `nan` or `inf` in an input cannot be expressed there.  Such an error is
  not yet a crash of the program, which goes on with NaN.  Model/MemNumbers follows NaN and infinities on the way of told statements
  into memory, and in the priorities of tasks (C123). For the truth
  functions themselves Model/TvMachine has the rounded arithmetic: C91 says what remains true with rounding, C92 that the exact
  results are met up to 2^-46. The upper limit of the exponents is left out there; no truth function gets near it.
* Integer overflow is not modelled, except where the width decides a branch (`parse::<i64>`). For the clocks and the
  identifiers it is shown that it does not occur within 10^14 cycles, steps and sentences (C111_no_overflow); for pixel maps
  32 bit arithmetic is modelled (Model/Map2dMachine, C44).
* Threads: each round of a worker is atomic; rounds interleave arbitrarily with the actions of the main thread.  For the storage
  worker of the procedural reasoner Model/ProcRace splits the rounds into their locked sections (C94); there a filing section reads
  the expectations of the filed rules at once.
  Within a `!sN` line rounds of the declarative worker happen before each cycle, those of the storage worker only between the
  two halves of a step; single actions of a history cover the other interleavings. The program itself takes many short
  locks within a round: adding a task looks for an equal task, appends it and enters it in the lookup under three separate
  locks, so both threads may add the same task. Theorems over histories of single additions and offers (C14-C21) cover
  interleaving at that granularity, with the steps within one addition taken as one; Model/Race takes them apart, and C80 says
  what is left of C14-C21 then.
* Locks, guards and the bounded channels (capacity 4) are modelled in Model/Locks only, as locking skeletons without data; in
  the other models a full channel does not exist.
* The time of day, `sleep`, sockets and the console are not modelled; of the files only the network database and the log file of
  the language module.
* Exponential functions (decay of attention and of goals, similarity of maps) are parameters, with hypotheses where needed.

### Not modelled

* Not compiled into the crate (commented out in `lib.rs`): narPerception.rs, expRepresent0.rs, NarModuleNlp.rs,
  NarModuleNlp2.rs, NnTrain, Classifier.
* Rendering and printing for debugging, the test modules inside the sources; the structure `Vec2` of Misc.rs (no functions).

## Disagreements between intended property and code

Each is a theorem (named at the end of the line), together with a `_partial` theorem or an exact statement of what does hold.

Matching, evidence and truth
* A term with variables is not matched although an instance (C03_variable_target_not_matched).
* Evidence trails forget beyond 120 identifiers, so long chains may count evidence twice (C05_long_trails_forget), and a belief may
  rest on more than its trail says (C103_cut_trail).
* The test for same evidence depends on the order of identifiers (C06_same_is_order_sensitive).
* Revision is undefined at confidence 1 (C07_revision_undefined_at_one); an axiom told twice gives
  a truth value which is not a number (C56_axioms_break_revision, C58_axiom_gives_no_number, C100_axiom_gives_no_number).
* A question which names nothing (`<?x --> ?y>?`) is never answered from memory (C104_nameless_question,
  C104_who_is_what_unanswered).
* Two statements which have nothing but a dependent variable in common are compared as if it were the same thing: told that
  something is a cat and something is a ship, the reasoner believes that cats resemble ships (C105_variables_mix).
* Beliefs under a term are ranked by expectation, so a confident denial is displaced by twenty statements which say next to
  nothing (C107_confident_denial_forgotten).
* A conclusion drawn again with much more confidence is not remembered if it shares evidence with the one drawn first
  (C107_better_conclusion_ignored).
* The order in which statements are told matters once more than twenty mention a term: of twenty-one equally good ones the
  last is not listed (C108_order_matters_when_full). Pooling statements without evidence loses the frequency: it becomes 0
  (C108_without_evidence).
* Limiting attention to the top percepts keeps the first ones, whatever their salience (C109_most_salient_left_out).
* Once a list is full memory contradicts itself: one list of beliefs about `a` holds a statement with confidence 0.81, the
  other list about `a`, and the lists about its other terms, hold it with confidence 9/40
  (C110_contradicts_itself_when_full).
* Failures are spread over copies: every observation stores a rule several times, and a failure counts for one copy only. An
  operator which has worked once and failed three times is executed again (C114_failures_spread_over_copies).
* An unrelated statement can keep the reasoner from acting: it shifts the number of the next goal, which can then coincide with
  the time of an observation of a learned rule, and the rule is not used for the goal (C115_statement_stops_deed).
* Of a procedure with several operators only the last one is executed, without the ones before, and its effect is expected
  (C116_steps_skipped, C116_earlier_steps_left_out).
* General rules are learned, but if their effect has a variable they are not used to reach a goal about a
  particular thing: what was learned about the
  effect on one thing is not done with another (C117_effect_on_the_thing_not_transferred).
* What is done depends on when the reasoner was started: goals are put in order by usefulness only every thirteenth step of the clock, so
  the same history leads to another deed after twelve idle steps (C118_waiting_changes_deed); and the numbers of goals share the numbers of
  observations, so a goal can be taken to rest on an observation made at the time with its number (C118_waiting_brings_about_deed).
* Thinking about a relation never comes to rest: `(x * y) --> r`, `x --> (r /1 y)` and `y --> (r /2 x)` are derived from each other with
  the same evidence, and a conclusion is compared with pending tasks only, so every round makes new copies (C119_relations_never_rest,
  C119_one_relation_for_ever).
* What is believed depends on the order of telling (C121, `C121_truth_depends_on_order`): a statement told vaguely first and firmly after a conclusion was drawn leaves the conclusion at confidence 0.09, and the reasoner has nothing left to think about; told the other way round it is 0.81.
* Old facts are not combined with new ones (C122, `C122_old_fact_never_combined`): every 111th cycle the lookup of partners is rebuilt from the waiting tasks only (NarWorkingCycle.rs 1936-1959), so a fact which had its turn is never a premise again.  After `<a --> b>` and 111 cycles, `<b --> c>` never gives `<a --> c>`, whatever is told or asked and however long the reasoner thinks; one cycle earlier it does.
* A statement may never have its turn (C129, `C129_never_its_turn`): if before each cycle something simpler is said, and nothing is asked, the cycle takes nothing more complex than what was said last, however long this goes on; the more complex statement told before is never thought about. If more than thirty-one statements wait when the 111th cycle comes, one of them is forgotten for good before its turn (`C129_forgotten_before_its_turn`).
* What is asked about does not come first (C130, `C130_asked_but_not_next`, `C130_small_talk_wins`, `C130_asked_in_vain`): a statement of complexity 15 which was told and then asked in the same words is passed over for an unrelated short statement told at the same time, and again for each short statement told later: the credit from questions is divided by the complexity in each cycle and counts a fifth.
* A circle of radius 32767 or more overflows 32 bits: a program which checks its arithmetic crashes (C44_large_circle_crashes), one which does not colours the corner of the surrounding square (C44_large_circle_strays). A map of 65536 times 65536 pixels gets none at all (C44_large_map_has_no_pixels).
* A truth value which is not a number harms what is told later (C123).  `{nan 0.9}` is accepted as a truth value; the next other
  statement which shares a term with it crashes the reasoner, because beliefs are sorted with `partial_cmp(..).unwrap()`
  (NarMem.rs 80; C123_nan_crashes, C123_infinity_crashes, C123_poisoned_term_crashes).  Confidence 1 is enough: told twice, the pooled
  truth value is not a number (C123_certainty_crashes).  A goal with such a truth value crashes the regular limiting of goals as
  soon as there is another goal (NarGoalSystem.rs 462; C123_goal_without_usefulness, C123_no_number_crashes_goals).
* The work which waits for the background worker is not limited: told one statement per cycle while the worker gets no turn, the reasoner has n pieces of work waiting after n cycles (C97_waiting_work_without_limit).
* A remark about something else changes what is believed (C124, `C124_remark_changes_belief`): told `<a --> b>` with confidence 0.1, a rule from it to `<c --> d>`, and after one cycle `<a --> b>` with confidence 0.9, the reasoner answers for ever that `c` is a `d` with confidence 0.09; if it is told `<x --> y>` first, it answers with confidence 0.81.
* Saying something again is news (C125, `C125_repetition_is_news`): every input gets a new number as its evidence, so a repeated statement counts as independent.  Told `<a --> b>` and `<b --> c>` the reasoner thinks to the end without concluding `<c --> b>`; told `<a --> b>` a second time, it does.
* To be mentioned is enough to be executed (C126, `C126_mentioned_is_executed`): if the name of an operator was itself seen as a thing, the variable introduced for the thing also replaces the operator in the learnt rule.  Any other name which is then seen in the place of the thing is executed, if it is the name of an operator, although nobody told anything about its execution and it must not be tried out.
* Seeing a call can crash the reasoner later (C100, `C100_library_operator_crashes`): a call of the relation operator on a relation of only one thing, told as an event, is harmless; but when the reasoner has learnt from it and repeats the call to reach a goal, the step crashes.
* Questions crash inference in one order of premises, image questions always (C13_question_crashes_in_one_order,
  C13_image_question_crashes); the reasoner never reaches these cases, as C58 shows.
* Abduction swaps the terms but not the truth values, so its strength depends on the order of the premises
  (C55_abduction_truth_depends_on_order).
* In `f64` a revision can give confidence exactly one from confidences below one, and the next revision NaN
  (C91_confidence_one); it can lower a confidence by rounding (C91_confidence_lost) and is not associative
  (C91_not_associative).
* Goal deduction compares rounded confidences and may take the other candidate (C92_goal_choice_flips).
* Some conclusions do not follow: a disjunction is taken apart like a conjunction, the third element of a product is dropped,
  the denial of a disjunction is believed of each part, and a dependent variable shared by two statements is taken for one
  thing (C102_disjunction_taken_apart, C102_third_dropped, C102_denial_taken_apart, C102_something_confused).

Declarative memory and attention
* Beliefs without evidence trail break "one belief per statement" (C15_needs_evidence_trail).
* Revised beliefs are appended without sorting, so tables are not ranked any more (C18_revision_breaks_ranking).
* The use of a pooled belief is not seen in most tables which list it (C89_use_of_pooled_belief_is_lost).
* A full list by use takes no new statement (C90_full_list_takes_no_statement).
* Random selection from no tasks crashes (C22_random_selection_empty).
* A product of one element ends the worker thread for ever; the next cycle crashes (C58_short_product_crashes, C78).
* An empty compound has a priority which is not a number (C58_empty_compound_gives_no_number,
  C123_empty_compound_has_no_priority).  While it waits, the last task is taken instead of one by priority
  (C123_no_number_ends_choice), and if it waits together with others in a 111th cycle the reasoner crashes
  (C123_no_number_crashes_trimming).
* The list of tasks (`!dt`) reads the tasks while it already reads them and can hang for ever (C79_listing_hangs).
* Two threads which add the same judgement at once both list it (C80_duplicate_by_race); independent evidence added at once is
  not pooled (C80_two_beliefs_by_race).

Goals
* Executable goals count twice against the capacity (C23_executable_goals_count_twice).
* The second goal of a statement is stored twice (C24_second_goal_stored_twice).
* Only the newest event between two steps satisfies goals (C26_earlier_event_ignored).
* A goal may never be sampled whatever is drawn, satisfied goals are still sampled (C62_goal_starves,
  C62_satisfied_goals_still_sampled).
* An executable goal given by the user is never executed, and keeps the reasoner from doing anything else
  (C98_told_operator_goal_blocks, C98_told_goal_stops_all); a fulfilled executable goal keeps the same one from being pursued
  again (C98_fulfilled_goal_in_the_way); fulfilled goals are still pursued (C98_fulfilled_goal_pursued).

Procedural learning
* An effect in time is missed if two other events follow it before the next step (C31_effect_missed); one of four stored
  copies of a rule is told of a failure (C31_only_one_copy_disappointed).
* The learned delay may be shorter than the observed one, so the effect is expected too early (C34_expected_too_early).
* Variable names draw one of 16 from 15 characters: the draw 15 crashes the storage worker (C49_crashes_on_fifteen,
  C63_draw_kills_worker).
* Evidence of rules and goals collide, so a goal can be blind for a rule (C39_rule_and_goal_confused); a rule counts an
  observation twice (C39_rule_counts_twice).
* Told temporal rules without the expected parts crash (C63_told_rule_crashes, C63_told_rule_kills_worker,
  C63_told_rule_without_operator); a thing named like an operator crashes (C63_operator_named_thing);
  an action with an empty compound crashes when it is printed (C63_empty_compound_crashes); with no operators per
  rule allowed the selection never ends (C63_selection_endless).
* A told rule cuts the tables to 20 entries (C66_told_rule_cuts, C66_told_rule_forgets).

Language and line interface
* Printed compounds cannot be read back (C37_printed_compounds_are_rejected); text after the term is dropped
  (C38_text_after_the_term_is_dropped).
* A line of 20 opening parentheses takes more than 10^18 calls of the term reader, and accepted lines with nested conjunctions
  take exponentially many (C93_open_parentheses, C93_nested_conjunctions, C93_not_polynomial).
* Characters outside ASCII and malformed numbers crash (C67_crashes_iff, C67_characters_outside_ascii_crash).
* Eternal questions are dropped (C40_eternal_question_dropped).
* `!spA` and `!spB` do a whole step (C41_half_steps_are_whole_steps); a bad number crashes (C41_bad_number_crashes), and so
  does a wide second character (C41_second_character_crashes).
* Negation of relations is ignored, other arities crash (C51_negation_is_ignored, C51_other_arities_crash).
* Every sentence in natural language after the first one or after a training crashes (C83_second_sentence_crashes,
  C83_training_blocks_sentences); unknown words, long sentences and networks which do not finish crash (C83_crashes,
  C83_crash_by_network). A listed sample is not trained
  (C81_sentence_not_trained), and taught sentences of two kinds enter nothing (C83_taught_but_ignored).
* `^nlpRel0` crashes for short products and cuts long ones (C70_short_product_crashes, C70_long_product_cut).
* Rules are not consulted for questions by servers (C68_server_never_answers, C68_answer_withheld).

Programs
* The end of the input does not end a session (C84_end_of_input_repeats).
* The shipped benchmark cannot succeed, as its questions are not marked as events (C85_unmarked_questions).
* The stress test always crashes (C86_always_crashes).
* The Pong program panics at its end if nothing was stored (C87_slow_worker_crash).
* The tic-tac-toe program plays one game too many and keeps moves decided too early (C88_one_game_more, C88_stale_move).

Server
* The last message is sent again with each line (C42_last_message_again); answers are stored without limit
  (C42_answers_unlimited); a crashing line ends the service for all (C72_crash_ends_service).

Worlds and vision
* Pong: the bat leaves the field, the left columns cannot be covered, fast balls escape (C43_bat_leaves_field,
  C43_left_always_missed, C43_fast_ball_escapes).
* Circles have the square root of their radius; lines are a dot (C44_circle_too_small, C44_line_is_a_dot).
* The derivatives of division, sigmoid and bias are wrong (C45_division_wrong, C45_sigmoid_wrong,
  C45_bias_derivative_wrong).
* Odd convolution kernels lose their last row and column (C75_odd_kernel_cut).
* Stimuli with degrees are never recognised; a stimulus without evidence matches anything (C77_unsure_never_recognised,
  C77_nothing_matches_anything).

## Testing the theorems

`seeded/LOG.jsonl` records the edits made to scratch copies of the model, with the theorems which failed for each, and the
theorems which were tightened because an edit went unnoticed.
