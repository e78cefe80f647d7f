import Verif.Spec.Typed
import Verif.Lemmas.Typing
import Verif.Lemmas.Decl4
import Verif.Lemmas.Thinks5
/-! # Helper lemmas: a typed course is a course -/
namespace Nar
open Term

theorem IsLecture.run {env : Env} {op : NarOp} {a : Lecture} (h : IsLecture op a) (hf : a.Fine) (r : Reasoner) :
    op.run env r = a.op.run env r := by
  cases h with
  | told t tv rng =>
    have hn : isTemporalQuestion t = false := isTemporalQuestion_not (hf.2.1 rfl rfl).1
    simp only [Lecture.op, NarOp.run, inputT2, inputEternalT, Bool.false_eq_true, if_false]
    rw [show isTemporalQuestion (newEternalSentenceByTv t .JUGEMENT tv ⟨[r.sh.stampIdCounter]⟩).term = false from hn]
    simp only [Bool.false_eq_true, if_false]
  | asked q tv rng => rfl
  | cycle v => rfl
  | work => rfl

theorem isLecture_run {env : Env} {ops : List NarOp} {as : List Lecture} (h : List.Forall₂ IsLecture ops as) (hf : ∀ a ∈ as, a.Fine)
    (r : Reasoner) : moreNar env r ops = moreNar env r (as.map Lecture.op) := by
  induction h generalizing r with
  | nil => rfl
  | cons h _ ih =>
    rw [List.map_cons, moreNar_cons, moreNar_cons, h.run (hf _ (by simp)) r]
    congr 1
    funext x
    exact ih (fun a ha => hf a (by simp [ha])) x

theorem TypedCourse.run {env : Env} {ops : List NarOp} {as : List Lecture} (h : TypedCourse env ops as) (hf : ∀ a ∈ as, a.Fine)
    (r : Reasoner) : moreNar env r ops = moreNar env r (as.map Lecture.op) := by
  obtain ⟨css, h1, h2⟩ := h
  rw [asCalls_run h1, isLecture_run h2 hf]

theorem TypedCourse.course {env : Env} {ops : List NarOp} {as : List Lecture} (h : TypedCourse env ops as) (hf : ∀ a ∈ as, a.Fine)
    (k : Nat) : runNar env (.handlers k :: ops) = runNar env (course k as) := by
  unfold runNar Nar.course
  rw [moreNar_cons, moreNar_cons]
  congr 1
  funext x
  exact h.run hf x

theorem TypedCourse.append {env : Env} {ops ops' : List NarOp} {as as' : List Lecture} (h : TypedCourse env ops as)
    (h' : TypedCourse env ops' as') : TypedCourse env (ops ++ ops') (as ++ as') := by
  obtain ⟨css, h1, h2⟩ := h
  obtain ⟨css', h1', h2'⟩ := h'
  refine ⟨css ++ css', List.rel_append h1 h1', ?_⟩
  rw [List.flatten_append]
  exact List.rel_append h2 h2'

/-- calls stand for themselves -/
theorem TypedCourse.calls {env : Env} (as : List Lecture) : TypedCourse env (as.map Lecture.op) as := by
  refine ⟨(as.map Lecture.op).map (fun op => [op]), ?_, ?_⟩
  · induction as with
    | nil => exact .nil
    | cons a as ih => exact .cons (.same _) ih
  · induction as with
    | nil => exact .nil
    | cons a as ih =>
      refine .cons ?_ ih
      cases a with
      | tell f => exact .told _ _ _
      | ask q => exact .asked _ _ _
      | cycle v => exact .cycle _
      | work => exact .work

/-- the worker has nothing to do -/
theorem idle_workers {env : Env} {r : Reasoner} (hq : r.queue = []) (n : Nat) : moreNar env r (List.replicate n .declWork) = .ok r := by
  induction n with
  | zero => rfl
  | succ n ih =>
    rw [List.replicate_succ, moreNar_cons]
    have : NarOp.run env r .declWork = .ok r := by
      have h : declWork env r = r := by unfold declWork; rw [hq]; split <;> rfl
      show (Except.ok (declWork env r) : R Reasoner) = _
      rw [h]
    rw [this]
    exact ih

/-- a question asked when there is no work to do: rounds of the worker change nothing -/
theorem ask_idle {env : Env} {r r' : Reasoner} {q : Term} {v : Rat} (hq : r.queue = []) (n : Nat)
    (h : moreNar env r [askFor q, .cycle v] = .ok r') : moreNar env r (askFor q :: (List.replicate n .declWork ++ [.cycle v])) = .ok r' := by
  obtain ⟨r1, h1, h2⟩ := foldlM_cons_ok.1 h
  refine foldlM_cons_ok.2 ⟨r1, h1, moreNar_append.2 ⟨r1, idle_workers ?_ n, h2⟩⟩
  obtain ⟨sh', _, e⟩ := inputT2_question h1
  rw [e]
  exact hq

end Nar
