import Verif.Lemmas.Flood2
import Verif.Props.Whole
/-! # C131: a question is not answered over and over -/
namespace Nar.Props
open Nar Term

/-- However long a reasoner runs while nothing is put in and nothing is concluded: altogether no more answers are told than the product of the
numbers of listeners (the handlers for all questions, and the one who asked), of open questions and of beliefs. -/
theorem C131_no_flood (env : Env) (r r' : Reasoner) (vs : List Rat) (h : moreNar env r (vs.map .cycle) = .ok r') :
    ∃ new, r'.answers = r.answers ++ new ∧ new.length ≤ (r.nGlobal + 1) * (r.sh.questionTasks.length * r.beliefs.length) := by
  obtain ⟨⟨new, hn⟩, h2⟩ := cycles_better (E := valuesOf r.beliefs) h
    (fun b hb e he => mem_valuesOf (List.mem_append_left _ hb) he) (fun b hb e he => mem_valuesOf (List.mem_append_right _ hb) he)
  refine ⟨new, hn.symm, ?_⟩
  rw [← hn, List.length_append] at h2
  have h3 : betterAll (valuesOf r.beliefs) r.sh.questionTasks ≤ r.sh.questionTasks.length * r.beliefs.length :=
    (betterAll_le _ _).trans (Nat.mul_le_mul_left _ (valuesOf_card _))
  have h4 := Nat.mul_le_mul_left (r.nGlobal + 1) h3
  omega

/-- So in an endless run of this kind there is a last answer. -/
theorem C131_last_answer (env : Env) (run : Nat → Reasoner) (draw : Nat → Rat) (h : ∀ n, cycle env (run n) (draw n) = .ok (run (n + 1))) :
    ∃ n, ∀ m, n ≤ m → (run m).answers = (run n).answers := by
  have hrun : ∀ n k, moreNar env (run n) (((List.range k).map fun i => draw (n + i)).map .cycle) = .ok (run (n + k)) := by
    intro n k
    induction k with
    | zero => rfl
    | succ k ih =>
      rw [List.range_succ, List.map_append, List.map_append]
      exact moreNar_append.2 ⟨_, ih, foldlM_cons_ok.2 ⟨_, h (n + k), rfl⟩⟩
  have hmono : ∀ n k, (run n).answers <+: (run (n + k)).answers := by
    intro n k
    obtain ⟨new, hn, _⟩ := C131_no_flood env _ _ _ (hrun n k)
    exact ⟨new, hn.symm⟩
  have hbound : ∀ k, (run k).answers.length ≤ (run 0).answers.length +
      ((run 0).nGlobal + 1) * ((run 0).sh.questionTasks.length * (run 0).beliefs.length) := by
    intro k
    obtain ⟨new, hn, hl⟩ := C131_no_flood env _ _ _ (hrun 0 k)
    rw [Nat.zero_add] at hn
    rw [hn, List.length_append]
    omega
  by_contra hno
  push Not at hno
  have hgrow : ∀ k, ∃ n, k ≤ (run n).answers.length := by
    intro k
    induction k with
    | zero => exact ⟨0, Nat.zero_le _⟩
    | succ k ih =>
      obtain ⟨n, hn⟩ := ih
      obtain ⟨m, hm, hne⟩ := hno n
      obtain ⟨d, rfl⟩ := Nat.exists_eq_add_of_le hm
      refine ⟨n + d, ?_⟩
      have hlt : (run n).answers.length < (run (n + d)).answers.length := by
        rcases Nat.lt_or_ge (run n).answers.length (run (n + d)).answers.length with hlt | hge
        · exact hlt
        · exact absurd ((hmono n d).eq_of_length_le hge).symm hne
      omega
  obtain ⟨n, hn⟩ := hgrow ((run 0).answers.length + ((run 0).nGlobal + 1) * ((run 0).sh.questionTasks.length * (run 0).beliefs.length) + 1)
  have := hbound n
  omega

/-- Once a question was looked after in a cycle, it is not answered again in any later one, as long as nothing is put in and nothing is
concluded. -/
theorem C131_looked_after_once (env : Env) (ops : List NarOp) (r r1 r2 r3 : Reasoner) (v w : Rat) (vs : List Rat) (i : Nat)
    (h : runNar env ops = .ok r) (hne : r.sh.questionTasks ≠ []) (hi : task2SelByCreditRandom v r.sh.questionTasks = .ok i)
    (h1 : cycle env r v = .ok r1) (h2 : moreNar env r1 (vs.map .cycle) = .ok r2)
    (hi2 : task2SelByCreditRandom w r2.sh.questionTasks = .ok i) (h3 : cycle env r2 w = .ok r3) : r3.answers = r2.answers := by
  obtain ⟨q, hq, hs⟩ := cycle_settles h1 (C71_memory env ops r h).1 hi hne
  obtain ⟨q2, hq2, hs2⟩ := cycles_settled h2 hq hs
  exact settled_silent h3 hi2 hq2 hs2

/-- When thinking has come to rest (nothing waits for its turn, the worker has nothing to do), this holds with the worker running as well:
after the first cycle which looks after a question, that question is not answered again, whatever cycles and worker rounds there are. -/
theorem C131_at_rest (env : Env) (ops more : List NarOp) (r r1 r2 r3 : Reasoner) (v w : Rat) (i : Nat)
    (h : runNar env ops = .ok r) (hj : r.sh.judgementTasks = []) (hw : r.queue = []) (hne : r.sh.questionTasks ≠ [])
    (hi : task2SelByCreditRandom v r.sh.questionTasks = .ok i) (h1 : cycle env r v = .ok r1)
    (hk : ∀ op ∈ more, op = .declWork ∨ ∃ v, op = .cycle v) (h2 : moreNar env r1 more = .ok r2)
    (hi2 : task2SelByCreditRandom w r2.sh.questionTasks = .ok i) (h3 : cycle env r2 w = .ok r3) : r3.answers = r2.answers := by
  have hm : moreNar env r [.cycle v] = .ok r1 := foldlM_cons_ok.2 ⟨r1, h1, rfl⟩
  obtain ⟨_, j1, q1⟩ := rest_cycles (by simp) h hj hw hm
  obtain ⟨e, _⟩ := rest_cycles hk (moreNar_append.2 ⟨r, h, hm⟩ : runNar env (ops ++ [.cycle v]) = .ok r1) j1 q1 h2
  exact C131_looked_after_once env ops r r1 r2 r3 v w _ i h hne hi h1 e hi2 h3

/-- The same, said of the draws: a draw picks a question by falling into its share of the interval from 0 to 1 (see C104). -/
theorem C131_at_rest_by_share (env : Env) (ops more : List NarOp) (r r1 r2 r3 : Reasoner) (v w : Rat) (i : Nat)
    (h : runNar env ops = .ok r) (hj : r.sh.judgementTasks = []) (hw : r.queue = [])
    (hi : FallsOn v r.sh.questionTasks.length i) (h1 : cycle env r v = .ok r1)
    (hk : ∀ op ∈ more, op = .declWork ∨ ∃ v, op = .cycle v) (h2 : moreNar env r1 more = .ok r2)
    (hi2 : FallsOn w r2.sh.questionTasks.length i) (h3 : cycle env r2 w = .ok r3) : r3.answers = r2.answers := by
  have hr2 : runNar env (ops ++ (.cycle v :: more)) = .ok r2 :=
    moreNar_append.2 ⟨r, h, foldlM_cons_ok.2 ⟨r1, h1, h2⟩⟩
  have hne : r.sh.questionTasks ≠ [] := by
    intro h0
    have := hi.1
    simp [h0] at this
  have hne2 : r2.sh.questionTasks ≠ [] := by
    intro h0
    have := hi2.1
    simp [h0] at this
  exact C131_at_rest env ops more r r1 r2 r3 v w i h hj hw hne (falls_selected h hi h1 hne) h1 hk h2 (falls_selected hr2 hi2 h3 hne2) h3

/-! ## Concrete cases -/

/-- two beliefs about birds, the question what is a bird, and two who listen for answers -/
def flood1 : List NarOp := [.handlers 2, .tell (.Stmt .INH (.Name "a") (.Name "bird")) .JUGEMENT ⟨1, 1/2⟩ false [],
  .tell (.Stmt .INH (.Name "b") (.Name "bird")) .JUGEMENT ⟨1, 9/10⟩ false [],
  .tell (.Stmt .INH (.QVar "x") (.Name "bird")) .QUESTION ⟨1, 9/10⟩ true []]

/-- before: one question, the two beliefs, listed under their three terms in two ways each, no answer -/
example : (runNar env0 flood1).map (fun r => (r.sh.questionTasks.length, r.beliefs.length, r.answers.length, r.nGlobal)) =
    .ok (1, 12, 0, 2) := by decide +kernel
/-- the first cycle tells both the better one, and that is all -/
example : (runNar env0 (flood1 ++ [.cycle 0])).map (fun r => r.answers.map fun c => c.answer.term) =
    .ok [.Stmt .INH (.Name "b") (.Name "bird"), .Stmt .INH (.Name "b") (.Name "bird")] := by decide +kernel
example : (runNar env0 (flood1 ++ List.replicate 20 (.cycle 0))).map (fun r => r.answers.length) = .ok 2 := by decide +kernel
/-- the same question is taken each time -/
example : (runNar env0 (flood1 ++ List.replicate 20 (.cycle 0))).bind (fun r => task2SelByCreditRandom 0 r.sh.questionTasks) = .ok 0 := by
  decide +kernel
/-- at rest: the two were thought about, and the worker has done its work; asked then, it answers once -/
def flood2 : List NarOp := flood1.take 3 ++ [.cycle 0, .cycle 0, .cycle 0, .cycle 0, .declWork, .declWork, .cycle 0, .cycle 0, .cycle 0, .cycle 0, .cycle 0,
  .declWork, .declWork, .declWork, .declWork, .declWork, .declWork, .cycle 0, .cycle 0, .cycle 0, .cycle 0, .cycle 0, .cycle 0, .declWork, .declWork, .declWork,
  .declWork, .declWork, .declWork] ++ flood1.drop 3
example : (runNar env0 flood2).map (fun r => (r.sh.judgementTasks, r.queue.length, r.sh.questionTasks.length, r.answers.length, r.sh.heap.length)) =
    .ok ([], 0, 1, 0, 10) := by decide +kernel
example : (runNar env0 (flood2 ++ [.cycle 0, .declWork, .cycle 0, .declWork, .cycle 0])).map (fun r => (r.answers.length, r.sh.questionTasks.length)) =
    .ok (2, 1) := by decide +kernel
/-- every positive draw falls on the only question -/
example : FallsOn (1/3) 1 0 ∧ (runNar env0 (flood2 ++ [.cycle (1/3), .declWork, .cycle (1/2), .declWork, .cycle 1])).map (fun r => r.answers.length) = .ok 2 := by
  refine ⟨by unfold FallsOn; norm_num, ?_⟩
  decide +kernel

/-- something better is told: it is an answer -/
example : (runNar env0 (flood1 ++ [.cycle 0, .tell (.Stmt .INH (.Name "c") (.Name "bird")) .JUGEMENT ⟨1, 95/100⟩ false [], .cycle 0, .cycle 0])).map
    (fun r => r.answers.length) = .ok 4 := by decide +kernel

end Nar.Props
