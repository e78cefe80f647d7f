import Verif.Lemmas.EverydayPrograms
import Verif.Props.Service
import Verif.Props.Programs
/-! # Everyday use of the programs (C84, C85)

The interactive program and the benchmark never crash on lines of everyday use (C100), whatever the schedule of the workers. -/
namespace Nar.Props
open Nar Nar.Term

/-- C84: a session of everyday lines, from files and typed, never crashes and keeps both workers alive, whatever files are
missing and however the workers are scheduled. -/
theorem C84_everyday_session_partial (env : Env) (names : List String) (files : List (Option (List Read))) (typed : List Read)
    (hf : ∀ lines, some lines ∈ files → ∀ l ∈ lines, EverydayRead env (nops names) l)
    (ht : ∀ l ∈ repeated typed, EverydayRead env (nops names) l) :
    ∃ r q, interactive env files typed = .ok (r, q) ∧ r.workerAlive = true ∧ r.proc.workerAlive = true := by
  have hall : ∀ l ∈ (files.filterMap id).flatten ++ repeated typed, EverydayRead env (nops names) l := by
    intro l hl
    rcases List.mem_append.1 hl with k | k
    · obtain ⟨lines, h1, h2⟩ := List.mem_flatten.1 k
      obtain ⟨f, h3, h4⟩ := List.mem_filterMap.1 h1
      have h4 : f = some lines := h4
      exact hf lines (h4 ▸ h3) l h2
    · exact ht l k
  obtain ⟨r, h1, h2, h3⟩ := C100_never_crashes_partial env names
    (.link :: readOps ((files.filterMap id).flatten ++ repeated typed)) (by
      intro op ho
      rcases List.mem_cons.1 ho with rfl | ho
      · trivial
      · exact (reads_everyday hall).1 op ho)
  rw [C84_interactive, h1]
  exact ⟨r, _, rfl, h2, h3⟩

/-- C85: the benchmark of a file of everyday lines always comes to a result, whatever is drawn and however the workers are
scheduled. -/
theorem C85_everyday_files_partial (env : Env) (names : List String) (file : Option (List Read)) (draws : Nat → EvalDraws)
    (hf : ∀ lines, file = some lines → ∀ l ∈ lines, EverydayRead env (nops names) l)
    (hd : ∀ i, (∀ w ∈ (draws i).before, w.Fair) ∧ ∀ w ∈ (draws i).after, w.Fair) :
    ∃ res, evalFile env file draws = .ok res := by
  have key : ∃ r q, readNarseseFile env createNar file = .ok (r, q) ∧ EverydayState env (nops names) r := by
    cases file with
    | none => exact ⟨createNar, false, rfl, [], rfl, (fun op ho => by cases ho), fun hm => by cases hm⟩
    | some lines =>
      obtain ⟨h1, h2⟩ := reads_everyday (hf lines rfl)
      obtain ⟨r, k1, _⟩ := C100_never_crashes_partial env names (readOps lines) h1
      refine ⟨r, lines.any Read.quits, ?_, readOps lines, k1, h1, h2⟩
      show readLines env createNar lines = _
      rw [readLines_eq]
      show (runNar env (readOps lines)).map _ = _
      rw [k1]
      rfl
  obtain ⟨r, q, h1, h2⟩ := key
  obtain ⟨r1, _, e, _, h3⟩ := h2.more (nops_nop names) (op := .handlers (r.nGlobal + 1)) trivial (by intro e; cases e)
  have e : { r with nGlobal := r.nGlobal + 1 } = r1 := Except.ok.inj e
  obtain ⟨r', x, h4, _⟩ := evalLoop_everyday (nops_nop names) draws hd r.answers.length 180 0 h3
  refine ⟨x, ?_⟩
  unfold evalFile
  refine R.bind_ok.2 ⟨(r, q), h1, R.bind_ok.2 ⟨(r', x), ?_, rfl⟩⟩
  unfold evalRun
  rw [e]
  exact h4

/-- a statement and a marked question are everyday lines -/
theorem reads_fine : ∀ l ∈ [typedLine "<a --> b>.", typedLine "<a --> c>? :|:"], EverydayRead env0 (nops []) l := by
  intro l hl
  refine ⟨?_, ?_⟩
  · simp only [List.mem_cons, List.not_mem_nil, or_false] at hl
    rcases hl with rfl | rfl <;> intro w hw <;> cases hw
  · simp only [List.mem_cons, List.not_mem_nil, or_false] at hl
    rcases hl with rfl | rfl
    · refine ⟨.narsese, by decide +kernel, ⟨some (.Stmt .INH (.Name "a") (.Name "b"), ⟨1, 9/10⟩, .JUGEMENT, false), by decide +kernel⟩, ?_⟩
      intro term tv punct e h
      have k : parseNarsese env0.pf (trimNewline (typedLine "<a --> b>.").line) =
        .ok (some (.Stmt .INH (.Name "a") (.Name "b"), ⟨1, 9/10⟩, .JUGEMENT, false)) := by decide +kernel
      rw [k] at h
      cases h
      intro _
      simp only [Bool.false_eq_true, if_false]
      exact ⟨(by rintro ⟨a, b, h⟩; cases h), (by decide +kernel)⟩
    · refine ⟨.narsese, by decide +kernel, ⟨some (.Stmt .INH (.Name "a") (.Name "c"), ⟨1, 9/10⟩, .QUESTION, true), by decide +kernel⟩, ?_⟩
      intro term tv punct e h
      have k : parseNarsese env0.pf (trimNewline (typedLine "<a --> c>? :|:").line) =
        .ok (some (.Stmt .INH (.Name "a") (.Name "c"), ⟨1, 9/10⟩, .QUESTION, true)) := by decide +kernel
      rw [k] at h
      cases h
      intro h
      cases h

example (draws : Nat → EvalDraws) (hd : ∀ i, (∀ w ∈ (draws i).before, w.Fair) ∧ ∀ w ∈ (draws i).after, w.Fair) :
    ∃ res, evalFile env0 (some [typedLine "<a --> b>.", typedLine "<a --> c>? :|:"]) draws = .ok res :=
  C85_everyday_files_partial env0 [] _ draws (fun lines h => by cases h; exact reads_fine) hd

example : ∃ r q, interactive env0 [some [typedLine "<a --> b>.", typedLine "<a --> c>? :|:"], none] [] = .ok (r, q) ∧
    r.workerAlive = true ∧ r.proc.workerAlive = true := by
  refine C84_everyday_session_partial env0 [] _ _ ?_ (fun l hl => by cases hl)
  intro lines hm
  simp only [List.mem_cons, List.not_mem_nil, or_false, Option.some.injEq, reduceCtorEq] at hm
  subst hm
  exact reads_fine

end Nar.Props
