import Verif.Lemmas.Decl4
import Verif.Props.Channel
/-!
# The declarative side never crashes on sane statements

A statement is sane if its compounds have enough parts (products and conjunctions two, other compounds one), its frequency is
in [0, 1] and its confidence in [0, 1).  Every statement which can be typed has compounds with enough parts.
-/
namespace Nar.Props
open Nar Nar.Term

/-! ## C58 -/

/-- C58: the declarative system, fed with sane statements and any questions, never crashes: neither when something is added,
nor in a cycle, nor in the worker, in whatever order they take turns. -/
theorem C58_system_never_crashes (cfg : Cfg) (ops : List SysOp) (h : ∀ op ∈ ops, op.Sane) : ∃ s, runSys cfg ops = .ok s :=
  let ⟨s, hs, _⟩ := runSys_total h
  ⟨s, hs⟩

/-- two statements, a question, and turns of the cycle and the worker -/
def shortSystem : List SysOp := [.newStampId,
  .input (newEternalSentenceByTv (.Stmt .INH (.Name "a") (.Name "b")) .JUGEMENT ⟨1, 9/10⟩ ⟨[0]⟩) true 1 0,
  .input (newEternalSentenceByTv (.Stmt .INH (.Name "b") (.Name "c")) .JUGEMENT ⟨1, 9/10⟩ ⟨[1]⟩) true 1 0,
  .input (newEternalSentenceByTv (.Stmt .INH (.QVar "x") (.Name "c")) .QUESTION ⟨1, 9/10⟩ ⟨[2]⟩) true 1 0,
  .cycle (1/2) 1, .work, .cycle (1/2) 2, .work, .flush, .cycle 0 3]

theorem shortSystem_sane : ∀ op ∈ shortSystem, op.Sane := by
  have hw : ∀ c (x y : String), WellFormed (.Stmt c (.Name x) (.Name y)) := fun c x y => by
    refine wf_stmt.2 ⟨wf_iff.2 ⟨trivial, by simp [parts]⟩, wf_iff.2 ⟨trivial, by simp [parts]⟩⟩
  have ht : Tv.Sane ⟨1, 9/10⟩ := by decide +kernel
  intro op hop
  simp only [shortSystem, List.mem_cons, List.not_mem_nil, or_false] at hop
  rcases hop with rfl | rfl | rfl | rfl | rfl | rfl | rfl | rfl | rfl | rfl <;>
    first
      | trivial
      | exact fun _ => ⟨_, rfl, hw _ _ _, ht⟩
      | (intro h; cases h)

example : ∃ s, runSys ⟨64, 20, 0, fun _ => 1⟩ shortSystem = .ok s := C58_system_never_crashes _ _ shortSystem_sane
example : (runSys ⟨64, 20, 0, fun _ => 1⟩ shortSystem).map (fun s => (s.sh.heap.length, s.sh.mem.length, s.log.length)) =
    .ok (3, 6, 0) := by decide +kernel

/-- C58: in the whole reasoner, as long as only sane statements are told, the worker of the declarative memory never dies of
its own, whatever happens otherwise. -/
theorem C58_worker_survives (env : Env) (ops : List NarOp) (r : Reasoner) (h : runNar env ops = .ok r)
    (hs : SaneTelling env ops) (hl : NarOp.workerLost ∉ ops) : r.workerAlive = true := (runNar_safe h hs).2 hl

/-- C58: the work which waits is done without crash: each round with work to do takes effect. -/
theorem C58_work_is_done (env : Env) (ops : List NarOp) (r : Reasoner) (h : runNar env ops = .ok r)
    (hs : SaneTelling env ops) (m : Msg) (hm : m ∈ r.queue) : ∃ sh calls, work (r.cfg env) r.sh m = .ok (sh, calls) := by
  obtain ⟨sh, calls, h1, _⟩ := work_total (runNar_safe h hs).1.decl ((runNar_safe h hs).1.queue m hm)
  exact ⟨sh, calls, h1⟩

/-- C58: after any such history a reasoning cycle succeeds. -/
theorem C58_cycle_succeeds (env : Env) (ops : List NarOp) (r : Reasoner) (h : runNar env ops = .ok r)
    (hs : SaneTelling env ops) (hl : NarOp.workerLost ∉ ops) (v : Rat) : ∃ r', cycle env r v = .ok r' :=
  cycle_total (runNar_safe h hs).1 (.inl ((runNar_safe h hs).2 hl)) v

/-- C58: after any such history declarative use of the reasoner succeeds: telling something sane, asking, reporting an event,
cycles, rounds of the workers, comments, settings, text which is no sentence. -/
theorem C58_use_succeeds (env : Env) (ops : List NarOp) (r : Reasoner) (h : runNar env ops = .ok r)
    (hs : SaneTelling env ops) (hl : NarOp.workerLost ∉ ops) (op : NarOp) (hop : SafeUse env op) :
    ∃ r', op.run env r = .ok r' :=
  NarOp.run_total (runNar_safe h hs).1 ((runNar_safe h hs).2 hl) hop

/-- C58: a reasoner which is only used declaratively never crashes. -/
theorem C58_declarative_use_never_crashes (env : Env) (ops : List NarOp) (h : ∀ op ∈ ops, SafeUse env op) :
    ∃ r, runNar env ops = .ok r ∧ r.workerAlive = true := by
  have hl : NarOp.workerLost ∉ ops := fun hm => h _ hm
  suffices hr : ∃ r, runNar env ops = .ok r by
    obtain ⟨r, hr⟩ := hr
    exact ⟨r, hr, C58_worker_survives env ops r hr (SafeUse.telling h) hl⟩
  induction ops using List.reverseRecOn with
  | nil => exact ⟨_, rfl⟩
  | append_singleton ops op ih =>
    have h' : ∀ op ∈ ops, SafeUse env op := fun x hx => h x (by simp [hx])
    have hl' : NarOp.workerLost ∉ ops := fun hm => hl (by simp [hm])
    obtain ⟨r, hr⟩ := ih h' hl'
    obtain ⟨r', hr'⟩ := C58_use_succeeds env ops r hr (SafeUse.telling h') hl' op (h op (by simp))
    exact ⟨r', moreNar_append.2 ⟨r, hr, foldlM_cons_ok.2 ⟨r', hr', foldlM_nil_ok.2 rfl⟩⟩⟩

/-- C58: whatever can be typed has compounds with enough parts, and can be printed; so a typed statement is sane as soon as
its truth value is. -/
theorem C58_typed_terms_are_sane (pf : List Char → Option Rat) (s : List Char) (term : Term) (tv : Tv) (punct : Punct)
    (isEvent : Bool) (h : parseNarsese pf s = .ok (some (term, tv, punct, isEvent))) :
    WellFormed term ∧ ∃ txt, convTermToStr term = some txt :=
  ⟨(parseNarsese_ok h).2.1.wf, (parseNarsese_ok h).2.1.printable⟩

/-- lines with statements, a question, junk, a comment and cycles -/
def typed : List NarOp := [ln "<a --> b>.", ln "<(a*b) --> c>.", ln "<{b} --> [c]>.", ln "<a --> ?x>? :|:", ln "junk", ln "// c",
  ln "!s2", .declWork, ln "!s3"]

theorem typed_safe : ∀ op ∈ typed, SafeUse env0 op := by
  have narsese : ∀ s : List Char, ∀ x, dispatch s = .ok .narsese → parseNarsese env0.pf s = .ok x →
      (∀ term tv punct isEvent, x = some (term, tv, punct, isEvent) →
          (punct = .JUGEMENT → isEvent = false → ¬ IsTemporal term ∧ Tv.Sane tv) ∧ (punct = .GOAL → isEvent = false)) →
      SafeLine env0 s := by
    intro s x h1 h2 h3
    exact ⟨.narsese, h1, ⟨x, h2⟩, fun term tv punct e h => h3 term tv punct e (by rw [h2] at h; cases h; rfl)⟩
  have stmt : ∀ (s : List Char) t, dispatch s = .ok .narsese →
      parseNarsese env0.pf s = .ok (some (t, ⟨1, 9/10⟩, .JUGEMENT, false)) → ¬ IsTemporal t → SafeLine env0 s := by
    intro s t h1 h2 h3
    refine narsese s _ h1 h2 ?_
    rintro term tv punct e h
    cases h
    exact ⟨fun _ _ => ⟨h3, by decide +kernel⟩, (fun h => by cases h)⟩
  intro op hop
  simp only [typed, List.mem_cons, List.not_mem_nil, or_false] at hop
  rcases hop with rfl | rfl | rfl | rfl | rfl | rfl | rfl | rfl | rfl
  · exact stmt _ (.Stmt .INH (.Name "a") (.Name "b")) (by decide +kernel) (by decide +kernel) (by rintro ⟨a, b, h⟩; cases h)
  · exact stmt _ (.Stmt .INH (.Prod [.Name "a", .Name "b"]) (.Name "c")) (by decide +kernel) (by decide +kernel)
      (by rintro ⟨a, b, h⟩; cases h)
  · exact stmt _ (.Stmt .INH (.SetExt [.Name "b"]) (.SetInt [.Name "c"])) (by decide +kernel) (by decide +kernel)
      (by rintro ⟨a, b, h⟩; cases h)
  · refine narsese _ (some (.Stmt .INH (.Name "a") (.QVar "x"), ⟨1, 9/10⟩, .QUESTION, true)) (by decide +kernel)
      (by decide +kernel) ?_
    rintro term tv punct e h
    cases h
    exact ⟨(fun h => by cases h), (fun h => by cases h)⟩
  · exact narsese _ none (by decide +kernel) (by decide +kernel) (by intro _ _ _ _ h; cases h)
  · exact ⟨.comment, by decide +kernel, trivial⟩
  · exact ⟨.cycles ['2'], by decide +kernel, .inr ⟨2, by decide +kernel⟩⟩
  · trivial
  · exact ⟨.cycles ['3'], by decide +kernel, .inr ⟨3, by decide +kernel⟩⟩

example : ∃ r, runNar env0 typed = .ok r ∧ r.workerAlive = true := C58_declarative_use_never_crashes _ _ typed_safe
example : (runNar env0 typed).map (fun r => (r.sh.heap.length, r.answers.length, r.queue.length)) = .ok (12, 0, 1) := by
  decide +kernel

/-- one piece of work waits after these lines, and is done without crash -/
example : ∃ r m, runNar env0 typed = .ok r ∧ m ∈ r.queue ∧ SaneTelling env0 typed ∧ NarOp.workerLost ∉ typed ∧
    ∃ sh calls, work (r.cfg env0) r.sh m = .ok (sh, calls) := by
  obtain ⟨r, hr, _⟩ := C58_declarative_use_never_crashes _ _ typed_safe
  have h : (runNar env0 typed).map (fun r => r.queue.length) = .ok 1 := by decide +kernel
  rw [hr] at h
  have hl : r.queue.length = 1 := Except.ok.inj h
  obtain ⟨m, hm⟩ := List.length_eq_one_iff.1 hl
  have hs := SafeUse.telling typed_safe
  exact ⟨r, m, hr, by simp [hm], hs, fun hw => typed_safe _ hw, C58_work_is_done env0 _ r hr hs m (by simp [hm])⟩

/-! ## where it does crash -/

/-- C58, violated for statements told by a program: a product of one element kills the worker in its next round, and then
the next cycle with work to hand over. -/
theorem C58_short_product_crashes : ∃ r, runNar env0 [shortProduct, .cycle 0, .declWork, ln "<c --> d>."] = .ok r ∧
    r.workerAlive = false ∧ ∀ v, ∃ e, cycle env0 r v = .error e := by
  have h : (runNar env0 [shortProduct, .cycle 0, .declWork, ln "<c --> d>."]).map
      (fun r => (r.workerAlive, decide (r.sh.judgementTasks = []))) = .ok (false, false) := by decide +kernel
  obtain ⟨r, hr, h⟩ := R.map_ok.1 h
  simp only [Prod.mk.injEq, decide_eq_false_iff_not] at h
  exact ⟨r, hr, h.1, fun v => C78_crash_is_noticed env0 r v h.1 h.2⟩

theorem error_of_map {α β : Type} {f : α → β} {x : R α} {e : Err} (h : x.map f = .error e) : x = .error e := by
  cases x with
  | error e' => simp only [Except.map, Except.error.injEq] at h; rw [h]
  | ok a => simp [Except.map] at h

/-- C58, violated for axioms: telling the same statement twice with confidence 1 gives a truth value which is not a number (an error
in this model; the program goes on until the next statement about the same thing crashes it, C123_certainty_crashes). -/
theorem C58_axiom_gives_no_number : ∃ op : NarOp, op = .tell (.Stmt .INH (.Name "a") (.Name "b")) .JUGEMENT ⟨1, 1⟩ false [] ∧
    runNar env0 [op, op] = .error .nan := ⟨_, rfl, error_of_map (f := fun _ => ()) (by decide +kernel)⟩

/-- C58, violated for empty compounds: telling one gives a priority which is not a number (an error in this model; the program goes
on until the tasks are sorted, C123_no_number_crashes_trimming). -/
theorem C58_empty_compound_gives_no_number :
    runNar env0 [.tell (.SetExt []) .JUGEMENT ⟨1, 9/10⟩ false []] = .error .nan :=
  error_of_map (f := fun _ => ()) (by decide +kernel)

end Nar.Props
