import Verif.Lemmas.Attention
import Verif.Props.Task2
/-! # C128: how much attention a statement gets -/
namespace Nar.Props
open Nar Term

/-- After any history: a statement still waiting to be taken, which was added `k` cycles ago, has exactly the own credit of its
complexity and this age. -/
theorem C128_own_credit (cfg : Cfg) (ops : List SysOp) (s : Sys) (h : runSys cfg ops = .ok s) (hp : ∀ op ∈ ops, op.Pays)
    (i : Nat) (hi : i ∈ s.sh.judgementTasks) (t : Task) (ht : s.sh.heap[i]? = some t) :
    ∃ k : Nat, s.sh.cycleCounter = t.derivTime + k ∧ t.credit = ownCredit (calcComplexity t.sentence.term) k :=
  (runSys_aged h hp i hi t ht).2

/-- It is never zero, and, but for the simplest statements, never more than what the statement had at first. -/
theorem C128_own_credit_bounds (cfg : Cfg) (ops : List SysOp) (s : Sys) (h : runSys cfg ops = .ok s) (hp : ∀ op ∈ ops, op.Pays)
    (i : Nat) (hi : i ∈ s.sh.judgementTasks) (t : Task) (ht : s.sh.heap[i]? = some t) :
    0 < t.credit ∧ (2 ≤ calcComplexity t.sentence.term → t.credit ≤ 1 / (calcComplexity t.sentence.term : Rat)) := by
  obtain ⟨h0, k, _, hk⟩ := runSys_aged h hp i hi t ht
  rw [hk]
  exact ⟨ownCredit_pos (Nat.pos_of_ne_zero h0) k, fun h2 => ownCredit_le h2 k⟩

/-- A cycle from any reached state: each statement waiting gets half a point of its own, and from each question one point for every
sub-term they have in common; then both are divided by its complexity. Nothing else about its credit changes. -/
theorem C128_questions_attract (cfg : Cfg) (ops : List SysOp) (s s' : Sys) (v : Rat) (now : Int) (h : runSys cfg ops = .ok s)
    (hc : SysOp.run cfg s (.cycle v now) = .ok s') (i : Nat) (hi : i ∈ s.sh.judgementTasks) (t : Task) (ht : s.sh.heap[i]? = some t) :
    ∃ t', s'.sh.heap[i]? = some t' ∧ t'.sentence.term = t.sentence.term ∧ t'.mulCredit = t.mulCredit ∧ t'.derivTime = t.derivTime ∧
      t'.credit = (t.credit + 1/2) / (calcComplexity t.sentence.term : Rat) ∧
      t'.qaCredit = (t.qaCredit + (((s.sh.questionTasks.map fun q => inCommon q.sentence.term t.sentence.term).sum : Nat) : Rat)) /
        (calcComplexity t.sentence.term : Rat) := by
  obtain ⟨⟨sh, msg, calls⟩, g1, g⟩ := R.bind_ok.1 hc
  rw [← Except.ok.inj g]
  obtain ⟨t', k1, k2, _, k3, k4, _, k5, k6⟩ := reasonCycle_credit g1 (runSys_inv h) hi ht
  refine ⟨t', k1, k2, k3, k4, k5, ?_⟩
  rw [k6]
  congr 2
  have hcount := runSys_counted h i hi t ht
  have hsh := runSys_shares h
  generalize s.sh.questionTasks = qs at hsh ⊢
  induction qs with
  | nil => simp
  | cons q qs ih =>
    rw [List.map_cons, List.sum_cons, List.map_cons, List.sum_cons, ih (fun q hq => hsh q (List.mem_cons_of_mem _ hq)),
      hsh q List.mem_cons_self, mul_one, Nat.cast_add]
    simp only [hcount, inCommon]

/-- As long as nothing was asked no statement has credit from questions. -/
theorem C128_unasked (cfg : Cfg) (ops : List SysOp) (s : Sys) (h : runSys cfg ops = .ok s) (hq : s.sh.questionTasks = []) :
    ∀ t ∈ s.sh.heap, t.qaCredit = 0 := runSys_unasked h hq

/-- The statement a cycle takes was waiting, and none of those waiting has more credit after what this cycle has given. -/
theorem C128_taken_has_most (cfg : Cfg) (ops : List SysOp) (s s' : Sys) (v : Rat) (now : Int) (m : Msg) (h : runSys cfg ops = .ok s)
    (hs : ∀ op ∈ ops, op.CreditSane) (hd : ∀ d, 0 ≤ cfg.decay d)
    (hc : SysOp.run cfg s (.cycle v now) = .ok s') (hm : s'.queue = s.queue ++ [m]) :
    m.primary ∈ s.sh.judgementTasks ∧ ∃ t, s'.sh.heap[m.primary]? = some t ∧
      ∀ i ∈ s.sh.judgementTasks, ∀ u, s'.sh.heap[i]? = some u →
        creditAt cfg.decay u s'.sh.cycleCounter ≤ creditAt cfg.decay t s'.sh.cycleCounter := by
  obtain ⟨⟨sh, msg, calls⟩, g1, g⟩ := R.bind_ok.1 hc
  rw [← Except.ok.inj g] at hm ⊢
  have hmsg : msg = some m := by
    have := List.append_cancel_left hm
    cases msg with
    | none => cases this
    | some x => exact congrArg some (List.cons.inj this).1
  obtain ⟨tops, ht, hsane⟩ := runSys_history h hs
  have hcr : CreditOk s.sh := (runTasks_inv (fun st => CreditOk st.1) ht (by simp [CreditOk, createShared])
    (fun _ hop _ _ _ _ _ hP hrun => by have := TaskOp.run_credit hrun hP (hsane _ hop); exact this)).2
  simpa only [C22_credit] using reasonCycle_best g1 (runSys_inv h) hcr hd hmsg

/-- When nothing was asked the simplest is taken: no statement waiting, added in the same cycle with the same factor, is simpler than
the one taken. -/
theorem C128_simplest_taken (cfg : Cfg) (ops : List SysOp) (s s' : Sys) (v : Rat) (now : Int) (m : Msg) (h : runSys cfg ops = .ok s)
    (hp : ∀ op ∈ ops, op.Pays) (hs : ∀ op ∈ ops, op.CreditSane) (hd : ∀ d, 0 < cfg.decay d) (hq : s.sh.questionTasks = [])
    (hc : SysOp.run cfg s (.cycle v now) = .ok s') (hm : s'.queue = s.queue ++ [m])
    (t u : Task) (ht : s.sh.heap[m.primary]? = some t) (i : Nat) (hi : i ∈ s.sh.judgementTasks) (hu : s.sh.heap[i]? = some u)
    (hage : u.derivTime = t.derivTime) (hmul : u.mulCredit = t.mulCredit) (hpos : 0 < t.mulCredit) :
    calcComplexity t.sentence.term ≤ calcComplexity u.sentence.term := by
  obtain ⟨hmem, t', ht', hbest⟩ := C128_taken_has_most cfg ops s s' v now m h hs (fun d => (hd d).le) hc hm
  obtain ⟨t1, a1, _, a3, a4, a5, a6⟩ := C128_questions_attract cfg ops s s' v now h hc _ hmem t ht
  rw [a1] at ht'; cases ht'
  obtain ⟨u1, b1, _, b3, b4, b5, b6⟩ := C128_questions_attract cfg ops s s' v now h hc _ hi u hu
  have hle := hbest i hi u1 b1
  obtain ⟨ht0, k, hk, hkc⟩ := runSys_aged h hp _ hmem t ht
  obtain ⟨hu0, l, hl, hlc⟩ := runSys_aged h hp _ hi u hu
  have hkl : l = k := by rw [hage] at hl; rw [hk] at hl; omega
  subst hkl
  have hqt := runSys_unasked h hq t (List.mem_of_getElem? ht)
  have hqu := runSys_unasked h hq u (List.mem_of_getElem? hu)
  by_contra hlt
  rw [not_le] at hlt
  have hanti := ownCredit_anti (Nat.pos_of_ne_zero hu0) hlt (l + 1)
  have e1 : t'.credit = ownCredit (calcComplexity t.sentence.term) (l + 1) := by rw [a5, hkc]; rfl
  have e2 : u1.credit = ownCredit (calcComplexity u.sentence.term) (l + 1) := by rw [b5, hlc]; rfl
  have e3 : t'.qaCredit = 0 := by rw [a6, hqt, hq]; simp
  have e4 : u1.qaCredit = 0 := by rw [b6, hqu, hq]; simp
  unfold creditAt at hle
  rw [e1, e2, e3, e4, a3, a4, b3, b4, hage, hmul] at hle
  have hw := mul_pos (hd (s'.sh.cycleCounter - t.derivTime)) hpos
  simp only [zero_div, add_zero, mul_assoc] at hle
  exact absurd (lt_of_mul_lt_mul_right (lt_of_le_of_lt hle (mul_lt_mul_of_pos_right hanti hw)) hw.le) (lt_irrefl _)


/-! ## concrete cases -/

/-- an implication, and a simpler judgement -/
def att1 : List SysOp :=
  [.input { jdg "a" "b" 1 (9/10) 1 with term := .Stmt .IMPL (.Stmt .INH (.Name "a") (.Name "b")) (.Stmt .INH (.Name "a") (.Name "c")) } true 1 0,
   .input (jdg "b" "c" 1 (9/10) 2) true 1 0]


/-- complexities, own credits; both are waiting -/
example : (runSys cfg1 att1).map (fun s => (s.sh.judgementTasks, s.sh.questionTasks.length,
    s.sh.heap.map fun t => (calcComplexity t.sentence.term, t.credit))) = .ok ([0, 1], 0, [(7, 1/7), (3, 1/3)]) := by decide +kernel
example : (runSys cfg1 att1).map (fun s => s.sh.heap.map fun t => (t.derivTime, t.mulCredit)) = .ok [(0, 1), (0, 1)] := by decide +kernel
/-- the simpler one is taken, though it was put in later -/
example : (runSys cfg1 (att1 ++ [.cycle 0 1])).map (fun s => (s.sh.judgementTasks, s.sh.heap.map (·.credit), s.queue.map (·.primary))) =
    .ok ([0], [9/98, 5/18], [1]) := by decide +kernel
example : ownCredit 7 1 = 9/98 ∧ ownCredit 3 1 = 5/18 ∧ ownCredit 3 2 = 7/27 := by decide +kernel
example : (∀ op ∈ att1, op.Pays) ∧ (∀ op ∈ att1, op.CreditSane) ∧ ∀ d, 0 < cfg1.decay d := by
  refine ⟨?_, ?_, fun _ => one_pos⟩ <;>
  · intro op hop
    simp only [att1, List.mem_cons, List.not_mem_nil, or_false] at hop
    rcases hop with rfl | rfl <;> simp [SysOp.Pays, SysOp.CreditSane]
/-- `<?x --> c>?` has one sub-term in common with `b --> c` and none with `a --> b`: the former is taken -/
example : (runSys cfg1 (sys1.take 3)).map (fun s => (s.sh.judgementTasks, s.sh.heap.map fun t => (t.credit, t.qaCredit,
      s.sh.questionTasks.map fun q => inCommon q.sentence.term t.sentence.term))) =
    .ok ([0, 1], [(1/3, 0, [0]), (1/3, 0, [1])]) := by decide +kernel
example : (runSys cfg1 (sys1.take 4)).map (fun s => (s.sh.judgementTasks, s.sh.heap.map fun t => (t.credit, t.qaCredit), s.queue.map (·.primary))) =
    .ok ([0], [(5/18, 0), (5/18, 1/3)], [1]) := by decide +kernel
/-- two cycles later, with a derived statement, the statement waiting is of age two -/
example : (runSys cfg1 sys1).map (fun s => (s.sh.judgementTasks, s.sh.cycleCounter, s.sh.heap.map fun t => (t.credit, t.derivTime))) =
    .ok ([0], 2, [(7/27, 0), (5/18, 0), (5/18, 1)]) := by decide +kernel
example : ∀ op ∈ sys1, op.Pays := by
  intro op hop
  simp only [sys1, List.mem_cons, List.not_mem_nil, or_false] at hop
  rcases hop with rfl | rfl | rfl | rfl | rfl | rfl | rfl <;> simp [SysOp.Pays]

end Nar.Props
