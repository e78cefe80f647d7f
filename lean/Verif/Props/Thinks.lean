import Verif.Lemmas.Thinks5
import Verif.Props.Task2
import Verif.Props.Nar
/-! # Property theorems: everything told is thought through (C96) -/
namespace Nar.Props
open Nar Term

/-! ## C96: whose turn it is -/

/-- Cycles during which nothing comes in take the pending tasks one by one: every task at most once, none which is not
pending, and after as many cycles as there were pending tasks there is none left.  If the lookup is not trimmed in the
meantime every pending task has had its turn exactly once. -/
theorem C96_every_task_once (cfg : Cfg) (ops : List SysOp) (s s' : Sys) (vs : List (Rat × Int)) (hr : runSys cfg ops = .ok s)
    (h : moreSys cfg s (quiet vs) = .ok s') :
    ∃ msgs : List Msg, s'.queue = s.queue ++ msgs ∧
      (msgs.map (·.primary) ++ s'.sh.judgementTasks).Subperm s.sh.judgementTasks ∧
      (s.sh.judgementTasks.length ≤ vs.length → s'.sh.judgementTasks = []) ∧
      (NoTrim s.sh s.sh.judgementTasks.length →
        (msgs.map (·.primary) ++ s'.sh.judgementTasks).Perm s.sh.judgementTasks) := by
  obtain ⟨h1, h2⟩ := quiet_calm vs
  obtain ⟨msgs, q1, q2, q3, q4⟩ := calm_taken (runSys_inv hr) h1 h
  rw [h2] at q3
  exact ⟨msgs, q1, q2, q3, fun hn => (q4 hn).1⟩

/-- three statements are told; two cycles take two of them, and the third is still pending -/
def threeTold : List SysOp :=
  [.input (jdg "a" "b" 1 (9/10) 1) true 1 0, .input (jdg "b" "c" 1 (9/10) 2) true 1 0, .input (jdg "c" "d" 1 (9/10) 3) true 1 0]

example : ((runSys cfg1 threeTold).bind (fun s => moreSys cfg1 s (quiet [(1/2, 1), (1/2, 2)]))).map
    (fun s => (s.queue.map (·.primary), s.queue.map (·.secondary), s.sh.judgementTasks)) =
    .ok ([0, 2], [[0, 1], [2, 1]], [1]) := by decide +kernel
example : (runSys cfg1 threeTold).map (fun s => (s.sh.judgementTasks, s.sh.cycleCounter)) = .ok ([0, 1, 2], 0) := by decide +kernel

/-! ## C96: what becomes of it -/

/-- After as many cycles as there are pending tasks, and as many rounds of the worker, everything which follows from one
pending task alone has been dealt with; and if there is room also everything which follows from two pending tasks which have
a term in common. -/
theorem C96_thought_through (cfg : Cfg) (ops : List SysOp) (s s' : Sys) (vs : List (Rat × Int)) (n : Nat)
    (hr : runSys cfg ops = .ok s) (hq : s.queue = []) (h : moreSys cfg s (quiet vs ++ worked n) = .ok s')
    (hv : s.sh.judgementTasks.length ≤ vs.length) (hn : s.sh.judgementTasks.length ≤ n)
    (hnt : NoTrim s.sh s.sh.judgementTasks.length) (a : Nat) (ha : a ∈ s.sh.judgementTasks) (ta : Task)
    (hta : s.sh.heap[a]? = some ta) :
    (∀ c w, FollowsAlone ta.sentence c w → DealtWith cfg s s' c) ∧
    (Room s.sh → ∀ b ∈ s.sh.judgementTasks, ∀ tb, s.sh.heap[b]? = some tb →
      (∃ x, IsSubterm x ta.sentence.term ∧ IsSubterm x tb.sentence.term) →
      ∀ c w, Follows ta.sentence tb.sentence c w → DealtWith cfg s s' c) := by
  obtain ⟨h1, h2⟩ := quiet_calm vs
  exact thought_through (runSys_inv hr) hq h1 h (by rw [h2]; exact hv) hn hnt ha hta

/-- from `a --> b` and `b --> c` follows `a --> c`, which is then a task -/
example : ((runSys cfg1 threeTold).bind (fun s => moreSys cfg1 s (quiet [(1/2, 1), (1/2, 2), (1/2, 3)] ++ worked 3))).map
    (fun s => decide (Term.Stmt .INH (.Name "a") (.Name "c") ∈ s.sh.heap.map (·.sentence.term))) = .ok true := by decide +kernel
example : (inference (jdg "a" "b" 1 (9/10) 1) (jdg "b" "c" 1 (9/10) 2)).map (fun x => x.1.map (·.1.term)) =
    .ok [.Stmt .INH (.Name "a") (.Name "c")] := by decide +kernel

/-- The same for a whole reasoner in any state it can be in: the cycles and the rounds of the worker cannot fail, and
everything which follows from the pending tasks has been dealt with. -/
theorem C96_whole_reasoner (env : Env) (ops : List NarOp) (r : Reasoner) (vs : List Rat) (n : Nat)
    (hr : runNar env ops = .ok r) (hs : SaneTelling env ops) (hl : NarOp.workerLost ∉ ops) (hq : r.queue = [])
    (hv : r.sh.judgementTasks.length ≤ vs.length) (hn : r.sh.judgementTasks.length ≤ n)
    (hnt : NoTrim r.sh r.sh.judgementTasks.length) :
    ∃ r', moreNar env r (thinkAbout vs n) = .ok r' ∧
      ∀ a ∈ r.sh.judgementTasks, ∀ ta, r.sh.heap[a]? = some ta →
        (∀ c w, FollowsAlone ta.sentence c w → DealtWith (r.cfg env) r.sys r'.sys c) ∧
        (Room r.sh → ∀ b ∈ r.sh.judgementTasks, ∀ tb, r.sh.heap[b]? = some tb →
          (∃ x, IsSubterm x ta.sentence.term ∧ IsSubterm x tb.sentence.term) →
          ∀ c w, Follows ta.sentence tb.sentence c w → DealtWith (r.cfg env) r.sys r'.sys c) := by
  obtain ⟨s1, s2⟩ := runNar_safe hr hs
  exact whole_thought_through s1 (s2 hl) hq hv hn hnt

/-- A new reasoner with `k` handlers is asked some questions and told a handful of different statements.  Then it is given as
many cycles as there were statements, and its worker as many rounds.  Nothing of this can fail.  Every conclusion from one
of the statements, or from two which have a term in common, is then among its tasks if it is simple enough; and if the
conclusion answers a question all handlers got an answer to this question which is at least as good. -/
theorem C96_new_reasoner (env : Env) (k : Nat) (qs : List Term) (sts : List (Term × Tv)) (vs : List Rat) (n : Nat)
    (hq : ∀ q ∈ qs, Printable q ∧ calcComplexity q ≤ 64) (hs : Handful sts) (hv : sts.length ≤ vs.length) (hn : sts.length ≤ n) :
    ∃ r, runNar env (.handlers k :: (askAll qs ++ tellAll sts ++ thinkAbout vs n)) = .ok r ∧
      ∀ i A, sts[i]? = some A → ∀ c w,
        (FollowsAlone (toldAs (qs.length + i) A) c w ∨
         ∃ j B, sts[j]? = some B ∧ (∃ x, IsSubterm x A.1 ∧ IsSubterm x B.1) ∧
          Follows (toldAs (qs.length + i) A) (toldAs (qs.length + j) B) c w) →
        c.punct = .JUGEMENT →
        (calcComplexity c.term ≤ 64 → HasTask r.sh c) ∧
        ∀ q ∈ qs, (unify q c.term).isSome = true → ∀ e, Expectation c e → 0 < e → ∀ hd < k,
          ∃ call ∈ r.answers, call.handler = .global hd ∧ call.question = q ∧ (unify q call.answer.term).isSome = true ∧
            ∃ e', e ≤ e' ∧ Expectation call.answer e' := by
  obtain ⟨r, h1, h2, h3, h4⟩ := asked_told (env := env) (k := k) hq hs
  obtain ⟨r', g1, g2⟩ := h2.thought_through h3 h4 hs hv hn
  refine ⟨r', ?_, g2⟩
  rw [← List.cons_append]
  exact moreNar_append.2 ⟨r, h1, g1⟩

/-- `a --> b`, `b --> c` and the question `?x --> c` -/
def twoPremises : List (Term × Tv) :=
  [(.Stmt .INH (.Name "a") (.Name "b"), ⟨1, 9/10⟩), (.Stmt .INH (.Name "b") (.Name "c"), ⟨1, 9/10⟩)]

example : Handful twoPremises where
  differ := by decide
  safe := by
    intro st hst
    simp only [twoPremises, List.mem_cons, List.not_mem_nil, or_false] at hst
    rcases hst with rfl | rfl <;>
    · refine ⟨⟨_, rfl⟩, fun _ _ => ⟨(by rintro ⟨a, b, e⟩; cases e), ?_, ?_⟩, fun h => by cases h⟩
      · exact wf_stmt.2 ⟨wf_iff.2 ⟨trivial, by simp [parts]⟩, wf_iff.2 ⟨trivial, by simp [parts]⟩⟩
      · unfold Tv.Sane; decide +kernel
  small := by decide

example : (runNar env0 (.handlers 1 :: (askAll [.Stmt .INH (.QVar "x") (.Name "c")] ++ tellAll twoPremises ++ thinkAbout [1/2, 1/2] 2))).map
    (fun r => (r.sh.heap.map (·.sentence.term), r.answers.map (·.answer.term))) =
    .ok ([.Stmt .INH (.Name "a") (.Name "b"), .Stmt .INH (.Name "b") (.Name "c"), .Stmt .INH (.Name "a") (.Name "c"), .Stmt .INH (.Name "a") (.Name "c")],
      [.Stmt .INH (.Name "b") (.Name "c")]) := by decide +kernel

/-! ## C96: where it fails -/

/-- Only the first 51 tasks which use a term are looked at. -/
theorem C96_only_the_first_51 (cfg : Cfg) (ops : List SysOp) (s s' : Sys) (vs : List (Rat × Int)) (hr : runSys cfg ops = .ok s)
    (hq : s.queue = []) (hnt : NoTrim s.sh s.sh.judgementTasks.length) (h : moreSys cfg s (quiet vs) = .ok s') (m : Msg)
    (hm : m ∈ s'.queue) (p : Task) (hp : s.sh.heap[m.primary]? = some p) (b : Nat) (hb : b ∈ m.secondary) :
    ∃ x refs, IsSubterm x p.sentence.term ∧ lookupRefs s.sh.judgementTasksByTerm x = some refs ∧ b ∈ refs.take 51 := by
  obtain ⟨h1, h2⟩ := quiet_calm vs
  obtain ⟨msgs, q1, q2, q3, q4⟩ := calm_taken (runSys_inv hr) h1 h
  rw [hq, List.nil_append] at q1
  rw [q1] at hm
  exact (q4 hnt).2.2 m hm p hp b hb

/-- 52 statements about `x`, then `z --> x` -/
def crowded : List SysOp :=
  (List.range 52).map (fun (i : Nat) => SysOp.input (jdg "x" (toString i) 1 (9/10) i) true 1 0) ++
    [.input (jdg "z" "x" 1 (9/10) 1000) true 1 0]

/-- what is needed of the state: pending tasks, counter, waiting messages, the last two statements, what follows from them,
and the entries of their terms in the lookup -/
def crowdedView (s : Sys) : List Nat × Int × Nat × Option Term × Option Term × Option (R (List Term)) × List (Option (List Nat)) :=
  (s.sh.judgementTasks, s.sh.cycleCounter, s.queue.length, s.sh.heap[51]?.map (·.sentence.term), s.sh.heap[52]?.map (·.sentence.term),
    s.sh.heap[52]?.bind (fun b => s.sh.heap[51]?.map (fun a => (inference b.sentence a.sentence).map (fun x => x.1.map (·.1.term)))),
    [Term.Stmt .INH (.Name "x") (.Name "51"), .Name "x", .Name "51", .Stmt .INH (.Name "z") (.Name "x"), .Name "z"].map
      (lookupRefs s.sh.judgementTasksByTerm))

set_option maxRecDepth 100000 in
set_option synthInstance.maxSize 2000 in
theorem crowded_state : (runSys cfg1 crowded).map crowdedView =
    .ok (List.range 53, 0, 0, some (.Stmt .INH (.Name "x") (.Name "51")), some (.Stmt .INH (.Name "z") (.Name "x")),
      some (.ok [.Stmt .INH (.Name "z") (.Name "51")]),
      [some [51], some (List.range 53), some [51], some [52], some [52]]) := by decide +kernel

/-- Two statements which have a term in common and from which something follows are never brought together if 51 other
statements about this term came first, however long the reasoner thinks about it. -/
theorem C96_crowded_out : ∃ s a b ta tb c w, runSys cfg1 crowded = .ok s ∧ a ∈ s.sh.judgementTasks ∧ b ∈ s.sh.judgementTasks ∧
    s.sh.heap[a]? = some ta ∧ s.sh.heap[b]? = some tb ∧
    (∃ x, IsSubterm x ta.sentence.term ∧ IsSubterm x tb.sentence.term) ∧
    Follows ta.sentence tb.sentence c w ∧
    ∀ vs s', moreSys cfg1 s (quiet vs) = .ok s' → ∀ m ∈ s'.queue,
      ¬ (m.primary = a ∧ b ∈ m.secondary) ∧ ¬ (m.primary = b ∧ a ∈ m.secondary) := by
  obtain ⟨s, hs, hv⟩ := R.map_ok.1 crowded_state
  unfold crowdedView at hv
  simp only [Prod.mk.injEq, List.map_cons, List.map_nil, List.cons.injEq, and_true, Option.map_eq_some_iff] at hv
  obtain ⟨v1, v2, v3, ⟨ta, a1, a2⟩, ⟨tb, b1, b2⟩, v4, l1, l2, l3, l4, l5⟩ := hv
  rw [b1, a1] at v4
  have v5 : (inference tb.sentence ta.sentence).map (fun x => x.1.map (·.1.term)) = .ok [.Stmt .INH (.Name "z") (.Name "51")] :=
    Option.some.inj v4
  obtain ⟨⟨cs, ap⟩, f1, f2⟩ := R.map_ok.1 v5
  obtain ⟨⟨c, w⟩, hcw, _⟩ := List.mem_map.1 (show Term.Stmt .INH (.Name "z") (.Name "51") ∈ cs.map (·.1.term) by rw [f2]; simp)
  have hsub : ∀ {x : Term} {u v : String}, IsSubterm x (.Stmt .INH (.Name u) (.Name v)) →
      x = .Stmt .INH (.Name u) (.Name v) ∨ x = .Name u ∨ x = .Name v := by
    intro x u v h
    have := (mem_retSubterms _ _).2 h
    simpa [retSubterms] using this
  refine ⟨s, 52, 51, tb, ta, c, w, hs, by rw [v1]; decide, by rw [v1]; decide, b1, a1, ⟨.Name "x", ?_, ?_⟩, ⟨cs, ap, f1, hcw⟩, ?_⟩
  · rw [b2]; exact .inside (c := .Name "x") (by simp [parts]) (.refl _)
  · rw [a2]; exact .inside (c := .Name "x") (by simp [parts]) (.refl _)
  · intro vs s' h m hm
    have hnt : NoTrim s.sh s.sh.judgementTasks.length := by
      intro k h1 h2
      rw [v1, List.length_range] at h2
      rw [v2]; omega
    have key := C96_only_the_first_51 cfg1 crowded s s' vs hs (List.length_eq_zero_iff.1 v3) hnt h m hm
    constructor
    · rintro ⟨rfl', hb⟩
      obtain ⟨x, refs, k1, k2, k3⟩ := key tb (by rw [rfl']; exact b1) 51 hb
      rw [b2] at k1
      rcases hsub k1 with rfl | rfl | rfl
      · rw [l4] at k2; cases k2; simp at k3
      · rw [l5] at k2; cases k2; simp at k3
      · rw [l2] at k2; cases k2; revert k3; decide
    · rintro ⟨rfl', hb⟩
      obtain ⟨x, refs, k1, k2, k3⟩ := key ta (by rw [rfl']; exact a1) 52 hb
      rw [a2] at k1
      rcases hsub k1 with rfl | rfl | rfl
      · rw [l1] at k2; cases k2; simp at k3
      · rw [l2] at k2; cases k2; revert k3; decide
      · rw [l3] at k2; cases k2; simp at k3

/-- 110 cycles without anything to do, then 32 statements, then a cycle -/
def lateTold : List SysOp :=
  quiet (List.replicate 110 (1/2, 0)) ++
    (List.range 32).map (fun (i : Nat) => SysOp.input (jdg "x" (toString i) 1 (9/10) i) true 1 0) ++ [.cycle (1/2) 0]

set_option maxRecDepth 100000 in
theorem late_state : (runSys cfg1 lateTold).map (fun s => (s.sh.heap.length, s.queue.map (·.primary), s.sh.judgementTasks.length,
      decide (30 ∈ s.sh.judgementTasks))) = .ok (32, [0], 30, false) := by decide +kernel

/-- A statement may be dropped before its turn: every 111th cycle keeps only 30 pending tasks.  The one but last is then never
selected, however long the reasoner thinks. -/
theorem C96_dropped_before_its_turn : ∃ s t, runSys cfg1 lateTold = .ok s ∧ s.sh.heap[30]? = some t ∧
    ∀ vs s', moreSys cfg1 s (quiet vs) = .ok s' → ∀ m ∈ s'.queue, m.primary ≠ 30 := by
  obtain ⟨s, hs, hv⟩ := R.map_ok.1 late_state
  simp only [Prod.mk.injEq, decide_eq_false_iff_not] at hv
  obtain ⟨v1, v2, v3, v4⟩ := hv
  refine ⟨s, s.sh.heap[30]'(by omega), hs, List.getElem?_eq_getElem _, ?_⟩
  intro vs s' h m hm e
  obtain ⟨msgs, q1, q2, _⟩ := C96_every_task_once cfg1 lateTold s s' vs hs h
  rw [q1] at hm
  rcases List.mem_append.1 hm with hm | hm
  · have := List.mem_map_of_mem (f := (·.primary)) hm
    rw [v2, e] at this
    simp at this
  · exact v4 (q2.subset (List.mem_append_left _ (e ▸ List.mem_map_of_mem (f := (·.primary)) hm)))

end Nar.Props
