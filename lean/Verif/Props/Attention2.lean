import Verif.Lemmas.Attention2
import Verif.Props.Attention
import Verif.Props.Nar
/-! # C128 for the whole reasoner: told and typed to in any way, with operators which report relations -/
namespace Nar.Props
open Nar Term

/-- Whatever has been done with the reasoner: a statement still waiting has exactly the own credit of its complexity and age. -/
theorem C128_reasoner_own_credit (env : Env) (ops : List NarOp) (r : Reasoner) (h : runNar env ops = .ok r)
    (i : Nat) (hi : i ∈ r.sh.judgementTasks) (t : Task) (ht : r.sh.heap[i]? = some t) :
    0 < t.credit ∧ ∃ k : Nat, r.sh.cycleCounter = t.derivTime + k ∧ t.credit = ownCredit (calcComplexity t.sentence.term) k := by
  obtain ⟨h0, k, hk, hc⟩ := runNar_aged h i hi t ht
  exact ⟨by rw [hc]; exact ownCredit_pos (Nat.pos_of_ne_zero h0) k, k, hk, hc⟩

/-- What a cycle gives to each statement waiting, and what the statement pays for its complexity. -/
theorem C128_reasoner_questions_attract (env : Env) (ops : List NarOp) (r r' : Reasoner) (v : Rat) (h : runNar env ops = .ok r)
    (hc : cycle env r v = .ok r') (i : Nat) (hi : i ∈ r.sh.judgementTasks) (t : Task) (ht : r.sh.heap[i]? = some t) :
    ∃ t', r'.sh.heap[i]? = some t' ∧ t'.sentence.term = t.sentence.term ∧ t'.mulCredit = t.mulCredit ∧ t'.derivTime = t.derivTime ∧
      t'.credit = (t.credit + 1/2) / (calcComplexity t.sentence.term : Rat) ∧
      t'.qaCredit = (t.qaCredit + (((r.sh.questionTasks.map fun q => inCommon q.sentence.term t.sentence.term).sum : Nat) : Rat)) /
        (calcComplexity t.sentence.term : Rat) := by
  obtain ⟨sh, msg, calls, g1, g2, _⟩ := cycle_parts hc
  obtain ⟨e1, e2, e3, e4, _⟩ := look_fields r
  obtain ⟨t', k1, k2, _, k3, k4, _, k5, k6⟩ := reasonCycle_credit g1 (look_inv (runNar_WDecl h).inv) (i := i) (t := t)
    (by rw [e2]; exact hi) (by rw [e1]; exact ht)
  refine ⟨t', by rw [g2]; exact k1, k2, k3, k4, k5, ?_⟩
  rw [k6, e3, e4]
  congr 2
  have hcount := runNar_counted h i hi t ht
  have hsh := runNar_shares h
  generalize r.sh.questionTasks = qs at hsh ⊢
  induction qs with
  | nil => simp
  | cons q qs ih =>
    rw [List.map_cons, List.sum_cons, List.map_cons, List.sum_cons, ih (fun q hq => hsh q (List.mem_cons_of_mem _ hq)),
      hsh q List.mem_cons_self, mul_one, Nat.cast_add]
    simp only [hcount, inCommon]

/-- As long as nothing was asked no statement has credit from questions. -/
theorem C128_reasoner_unasked (env : Env) (ops : List NarOp) (r : Reasoner) (h : runNar env ops = .ok r) (hq : r.sh.questionTasks = []) :
    ∀ t ∈ r.sh.heap, t.qaCredit = 0 := runNar_unasked h hq

/-- The statement a cycle takes was waiting, and none of those waiting has more credit after what this cycle has given. -/
theorem C128_reasoner_taken_has_most (env : Env) (ops : List NarOp) (r r' : Reasoner) (v : Rat) (m : Msg) (h : runNar env ops = .ok r)
    (hd : ∀ d, 0 ≤ env.decay d) (hc : cycle env r v = .ok r') (hm : r'.queue = r.queue ++ [m]) :
    m.primary ∈ r.sh.judgementTasks ∧ ∃ t, r'.sh.heap[m.primary]? = some t ∧
      ∀ i ∈ r.sh.judgementTasks, ∀ u, r'.sh.heap[i]? = some u →
        creditAt env.decay u r'.sh.cycleCounter ≤ creditAt env.decay t r'.sh.cycleCounter := by
  obtain ⟨sh, msg, calls, g1, g2, g3⟩ := cycle_parts hc
  obtain ⟨e1, e2, e3, e4, _⟩ := look_fields r
  have hmsg : msg = some m := by
    have := List.append_cancel_left (g3.symm.trans hm)
    cases msg with
    | none => cases this
    | some x => exact congrArg some (List.cons.inj this).1
  have hcr : CreditOk r.look := by unfold CreditOk; rw [e1, e4]; exact runNar_credit h
  have := reasonCycle_best g1 (look_inv (runNar_WDecl h).inv) hcr hd hmsg
  rw [e2] at this
  rw [g2]
  simp only [C22_credit] at this
  exact this

/-- A cycle with a statement waiting takes one. -/
theorem C128_reasoner_takes_one (env : Env) (ops : List NarOp) (r r' : Reasoner) (v : Rat) (h : runNar env ops = .ok r)
    (hc : cycle env r v = .ok r') : r.sh.judgementTasks ≠ [] ↔ ∃ m, r'.queue = r.queue ++ [m] := by
  obtain ⟨sh, msg, calls, g1, g2, g3⟩ := cycle_parts hc
  obtain ⟨_, e2, _⟩ := look_fields r
  obtain ⟨_, _, _, _, h5⟩ := reasonCycle_taken g1 (look_inv (runNar_WDecl h).inv)
  rw [e2] at h5
  rw [g3]
  rcases h5 with ⟨hn, hmsg, _⟩ | ⟨m, l, hmsg, hp, _⟩
  · rw [hmsg, hn]; simp
  · rw [hmsg]
    refine ⟨fun _ => ⟨m, rfl⟩, fun _ he => ?_⟩
    rw [he] at hp
    exact absurd hp.length_eq (by simp)

/-- When nothing was asked no simpler statement of the same age and factor is passed over. -/
theorem C128_reasoner_simplest_taken (env : Env) (ops : List NarOp) (r r' : Reasoner) (v : Rat) (m : Msg) (h : runNar env ops = .ok r)
    (hd : ∀ d, 0 < env.decay d) (hq : r.sh.questionTasks = []) (hc : cycle env r v = .ok r') (hm : r'.queue = r.queue ++ [m])
    (t u : Task) (ht : r.sh.heap[m.primary]? = some t) (i : Nat) (hi : i ∈ r.sh.judgementTasks) (hu : r.sh.heap[i]? = some u)
    (hage : u.derivTime = t.derivTime) (hmul : u.mulCredit = t.mulCredit) (hpos : 0 < t.mulCredit) :
    calcComplexity t.sentence.term ≤ calcComplexity u.sentence.term := by
  obtain ⟨hmem, t', ht', hbest⟩ := C128_reasoner_taken_has_most env ops r r' v m h (fun d => (hd d).le) hc hm
  obtain ⟨t1, a1, _, a3, a4, a5, a6⟩ := C128_reasoner_questions_attract env ops r r' v h hc _ hmem t ht
  rw [a1] at ht'; cases ht'
  obtain ⟨u1, b1, _, b3, b4, b5, b6⟩ := C128_reasoner_questions_attract env ops r r' v h hc _ hi u hu
  have hle := hbest i hi u1 b1
  obtain ⟨ht0, k, hk, hkc⟩ := runNar_aged h _ hmem t ht
  obtain ⟨hu0, l, hl, hlc⟩ := runNar_aged h _ hi u hu
  have hkl : l = k := by rw [hage] at hl; rw [hk] at hl; omega
  subst hkl
  have hqt := runNar_unasked h hq t (List.mem_of_getElem? ht)
  have hqu := runNar_unasked h hq u (List.mem_of_getElem? hu)
  by_contra hlt
  rw [not_le] at hlt
  have hanti := ownCredit_anti (Nat.pos_of_ne_zero hu0) hlt (l + 1)
  have e1 : t'.credit = ownCredit (calcComplexity t.sentence.term) (l + 1) := by rw [a5, hkc]; rfl
  have e2 : u1.credit = ownCredit (calcComplexity u.sentence.term) (l + 1) := by rw [b5, hlc]; rfl
  have e3 : t'.qaCredit = 0 := by rw [a6, hqt, hq]; simp
  have e4 : u1.qaCredit = 0 := by rw [b6, hqu, hq]; simp
  unfold creditAt at hle
  rw [e1, e2, e3, e4, a3, a4, b3, b4, hage, hmul] at hle
  have hw := mul_pos (hd (r'.sh.cycleCounter - t.derivTime)) hpos
  simp only [zero_div, add_zero, mul_assoc] at hle
  exact absurd (lt_of_mul_lt_mul_right (lt_of_le_of_lt hle (mul_lt_mul_of_pos_right hanti hw)) hw.le) (lt_irrefl _)

/-! ## a concrete case -/

/-- an implication and a simpler statement are told -/
def att2 : List NarOp :=
  [.tell (.Stmt .IMPL (.Stmt .INH (.Name "a") (.Name "b")) (.Stmt .INH (.Name "a") (.Name "c"))) .JUGEMENT ⟨1, 9/10⟩ false [],
   .tell (.Stmt .INH (.Name "b") (.Name "c")) .JUGEMENT ⟨1, 9/10⟩ false []]

example : (runNar env0 att2).map (fun r => (r.sh.judgementTasks, r.sh.questionTasks.length,
    r.sh.heap.map fun t => (calcComplexity t.sentence.term, t.credit))) = .ok ([0, 1], 0, [(7, 1/7), (3, 1/3)]) := by decide +kernel
example : (runNar env0 att2).map (fun r => r.sh.heap.map fun t => (t.derivTime, t.mulCredit)) = .ok [(0, 1), (0, 1)] := by decide +kernel
example : (runNar env0 (att2 ++ [.cycle 0])).map (fun r => (r.sh.judgementTasks, r.sh.heap.map (·.credit), r.queue.map (·.primary))) =
    .ok ([0], [9/98, 5/18], [1]) := by decide +kernel
/-- the implication, as a question; questions must be put with the mark of events -/
def att3 : NarOp :=
  .tell (.Stmt .IMPL (.Stmt .INH (.Name "a") (.Name "b")) (.Stmt .INH (.Name "a") (.Name "c"))) .QUESTION ⟨1, 9/10⟩ true []
/-- asked once the implication gains, but not enough; asked twice it comes first -/
example : (runNar env0 (att2 ++ [att3, .cycle 0])).map (fun r => (r.sh.judgementTasks, r.sh.heap.map (·.qaCredit), r.queue.map (·.primary))) =
    .ok ([0], [9/7, 2/3], [1]) := by decide +kernel
example : (runNar env0 (att2 ++ [att3, att3, .cycle 0])).map (fun r => (r.sh.judgementTasks, r.sh.heap.map (·.qaCredit), r.queue.map (·.primary))) =
    .ok ([1], [18/7, 4/3], [0]) := by decide +kernel

end Nar.Props
