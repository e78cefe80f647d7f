import Verif.Lemmas.Later4
import Verif.Lemmas.Rename6
import Verif.Model.OpLib
/-! # Later: waiting -/
namespace Nar
open Term

theorem Fresh.unused {p : Proc} (h : Fresh p) : PUnused p := by
  obtain ⟨h1, -, h3⟩ := h
  refine ⟨fun b hb => ?_, fun m hm => ?_⟩
  · rw [h1] at hb; cases hb
  · rw [h3] at hm; cases hm

theorem limitMemoryP_empty (n : Nat) : limitMemoryP PMem.empty n = .ok PMem.empty := by
  unfold limitMemoryP
  exact if_pos (Nat.zero_le n)

theorem empty_entries (n d : Int) : retEntries (makeGoalSystem n d) = [] := by
  unfold retEntries makeGoalSystem
  simp

theorem empty_limit (decay : Int → Rat) {n d : Int} (hn : 0 ≤ n) (t : Int) :
    goalLimitMemory decay (makeGoalSystem n d) t = .ok (makeGoalSystem n d) := by
  unfold goalLimitMemory
  rw [empty_entries, show (makeGoalSystem n d).activeSet = [] from rfl, show (makeGoalSystem n d).nMaxEntries = n from rfl]
  show (if n < 0 then (Except.error .index : R GoalSystem) else _) = _
  rw [if_neg (by omega), show List.map (fun x : Rat × Entry => x.2) (sortDesc (List.map (fun e : Entry => (e.utility, e)) [].reverse)) = [] from rfl,
    List.take_nil]
  rfl

theorem empty_batch (v : Rat) (k : Nat) (sum : Rat) : selBatchLoop v (List.replicate k []) sum [] = [] := by
  induction k generalizing sum with
  | zero => rfl
  | succ k ih =>
    simp only [List.replicate_succ, selBatchLoop, List.length_nil, gt_iff_lt, lt_irrefl, if_false]
    split
    · rfl
    · exact ih _

theorem empty_inference {n d : Int} (hd : 0 < d) (t : Int) (m : PMem) (d1 d2 : Rat) (rng : List Nat) :
    sampleAndInference (makeGoalSystem n d) t m d1 d2 rng = .ok (makeGoalSystem n d) := by
  have h : goalSample (makeGoalSystem n d) d1 d2 = .ok none := by
    unfold goalSample selBatch
    rw [show (makeGoalSystem n d).batchesByDepth = List.replicate d.toNat [] from rfl]
    obtain ⟨k, hk⟩ : ∃ k, d.toNat = k + 1 := ⟨d.toNat - 1, by omega⟩
    have h0 : indexAt (List.replicate d.toNat ([] : List Group)) 0 = .ok [] := by rw [hk]; rfl
    rw [h0]
    show (if (selBatchLoop _ _ 0 []).length = 0 then (Except.ok none : R _) else _) = _
    rw [empty_batch]
    rfl
  unfold sampleAndInference
  rw [h]
  rfl

theorem foldlM_still {α σ} {f : σ → α → R σ} {s : σ} (h : ∀ a, f s a = .ok s) (l : List α) : l.foldlM f s = .ok s := by
  induction l with
  | nil => rfl
  | cons a l ih => rw [List.foldlM_cons, h a]; exact ih

theorem Started.satisfyLast {p : Proc} (h : Started p) : satisfyLast p = p.goals := by
  unfold Nar.satisfyLast
  rw [h.trace]
  rfl

theorem Started.step0 {p : Proc} (h : Started p) (draws : Nat → SampleDraws) : narStep0 p draws = .ok p := by
  obtain ⟨h1, h2, h3⟩ := h.fresh
  unfold narStep0
  have hc : (List.range p.perceptWindow).foldlM (confirm p) p.anticipated = .ok p.anticipated := by
    refine foldlM_still (fun i => ?_) _
    unfold confirm recentEvent
    rw [h.trace]
    rfl
  rw [hc]
  show (negConfirmAll p.mem.heap p.t p.anticipated >>= _) = _
  unfold negConfirmAll
  rw [h2]
  show traceStep _ draws = _
  unfold traceStep
  simp only
  rw [h.trace]
  show (Except.ok _ : R Proc) = _
  congr 1
  have hs : Nar.satisfyLast { p with mem := { p.mem with heap := p.mem.heap }, anticipated := [], trace := [] } = p.goals := rfl
  obtain ⟨a1, a2, a3, a4, a5, a6, a7, a8, a9, a10, mem, trace, ant, ops, t, goals, queue, alive⟩ := p
  have ht := h.trace
  simp only at h2 ht ⊢
  subst h2 ht
  rfl

theorem Started.decide {p : Proc} (h : Started p) (hb : p.enBabbling = false) (rng : List Nat) :
    decideAction p rng = .ok (p, none, rng) := by
  obtain ⟨n, d, hn, hd, hg⟩ := h.goals
  unfold decideAction
  have h1 : (List.range p.perceptWindow).foldlM (bestByState p) none = .ok none := by
    refine foldlM_still (fun i => ?_) _
    unfold bestByState recentEvent
    rw [h.trace]
    rfl
  have h2 : predictAll p none rng = .ok (none, rng) := by
    unfold predictAll retLastEvents
    rw [h.trace]
    rfl
  have h3 : bestActive p = .ok none := by
    unfold bestActive
    rw [hg]
    rfl
  have h4 : babble p none rng = .ok (none, rng) := by
    unfold babble
    simp [hb]
  have h5 : adoptBest p none = .ok p := rfl
  have h6 : pickAction p none = .ok (p, none) := rfl
  simp only [h1, h2, h3, h4, h5, h6, R.ok_then]

theorem Started.step1 {p : Proc} (h : Started p) (hb : p.enBabbling = false) (call : Call) (decay : Int → Rat) (rng : List Nat)
    (infs : List (Rat × Rat × List Nat)) : narStep1 call decay p rng infs = .ok ({ p with t := p.t + 1 }, none) := by
  obtain ⟨n, d, hn, hd, hg⟩ := h.goals
  obtain ⟨f1, f2, f3⟩ := h.fresh
  unfold narStep1
  rw [h.decide hb]
  show (limitAll decay p >>= _) = _
  have hl : limitAll decay p = .ok p := by
    unfold limitAll
    have m : limitMem p = .ok p.mem := by
      unfold limitMem
      split
      · rw [f1]; exact limitMemoryP_empty _
      · rfl
    have g : limitGoals decay p = .ok p.goals := by
      unfold limitGoals
      split
      · rw [hg]; exact empty_limit decay hn _
      · rfl
    rw [m]
    show (limitGoals decay p >>= _) = _
    rw [g]
    show (Except.ok { p with trace := traceLimit p.trace, mem := p.mem, goals := p.goals } : R Proc) = _
    rw [show traceLimit p.trace = p.trace by rw [h.trace]; rfl]
  rw [hl]
  show (inferGoals p infs >>= _) = _
  have hi : inferGoals p infs = .ok p := by
    unfold inferGoals
    have : infs.foldlM (fun g d => sampleAndInference g p.t p.mem d.1 d.2.1 d.2.2) p.goals = .ok p.goals := by
      refine foldlM_still (fun a => ?_) _
      rw [hg]
      exact empty_inference hd _ _ _ _ _
    rw [this]
    rfl
  rw [hi]
  rfl

theorem Started.later {p : Proc} (h : Started p) (n : Nat) : Started { p with t := p.t + n } :=
  ⟨h.fresh, h.trace, h.alive, by have := h.time; show 0 ≤ p.t + (n : Int); omega, h.table, h.goals, h.weights⟩

theorem Started.waits {p : Proc} (h : Started p) (hb : p.enBabbling = false) (call : Call) (decay : Int → Rat) {ops : List ProcOp}
    (ho : ∀ op ∈ ops, op.Waits) : runProc call decay p ops = .ok { p with t := p.t + stepsTaken ops } := by
  unfold runProc
  induction ops generalizing p with
  | nil =>
    show (Except.ok p : R Proc) = .ok { p with t := p.t + ((0 : Nat) : Int) }
    simp
  | cons o ops ih =>
    rw [List.foldlM_cons]
    have hw := ho o (.head _)
    have ho' : ∀ op ∈ ops, op.Waits := fun x hx => ho x (.tail _ hx)
    cases o with
    | event t => exact absurd hw (by simp [ProcOp.Waits])
    | goal t tv id => exact absurd hw (by simp [ProcOp.Waits])
    | rule t tv id n rng => exact absurd hw (by simp [ProcOp.Waits])
    | step0 draws =>
      simp only [ProcOp.run]
      rw [h.step0]
      exact ih h hb ho'
    | step1 rng infs =>
      simp only [ProcOp.run]
      rw [h.step1 hb]
      have := ih (h.later 1) hb ho'
      show ops.foldlM (ProcOp.run call decay) { p with t := p.t + ((1 : Nat) : Int) } = _
      rw [this]
      simp only [stepsTaken, Nat.cast_add, Nat.cast_one]
      congr 2
      omega
    | worker rng =>
      have e : workerStep p rng = p := by
        unfold workerStep
        rw [h.fresh.2.2]
        split <;> rfl
      simp only [ProcOp.run]
      rw [e]
      exact ih h hb ho'
    | flush =>
      have e : traceFlush p = p := by
        have ht := h.trace
        obtain ⟨a1, a2, a3, a4, a5, a6, a7, a8, a9, a10, mem, trace, ant, ops, t, goals, queue, alive⟩ := p
        simp only at ht
        subst ht
        rfl
      simp only [ProcOp.run]
      rw [e]
      exact ih h hb ho'

theorem Started.delayed {p : Proc} (h : Started p) (δ : Delay) : δ.proc p = { p with t := p.t + δ.shift } := by
  obtain ⟨n, d, hn, hd, hg⟩ := h.goals
  obtain ⟨f1, f2, f3⟩ := h.fresh
  have ht := h.trace
  have e : δ.goals p.goals = p.goals := by
    rw [hg]
    simp [Delay.goals, makeGoalSystem]
  unfold Delay.proc
  rw [e, f1, f2, f3, ht]
  obtain ⟨a1, a2, a3, a4, a5, a6, a7, a8, a9, a10, mem, trace, ant, ops, t, goals, queue, alive⟩ := p
  simp only at f1 f2 f3 ht
  subst f1 f2 f3 ht
  rfl

theorem waitingMore_regular {start : Int} (h0 : 0 ≤ start) (k : Nat) : (waitingMore start (1313 * k)).Regular start where
  start_nonneg := h0
  goals_round := ⟨101 * k, by show 1313 * k = _; omega⟩
  mem_round := ⟨13 * k, by show 1313 * k = _; omega⟩
  nothing := if_pos (by omega)
  now t ht := if_neg (by omega)

theorem waitingMore_told {start : Int} (shift : Nat) {o : ProcOp} (h : o.ToldBefore start) : (waitingMore start shift).procOp o = o := by
  have e : ∀ i, i < start → (waitingMore start shift).id i = i := fun i hi => if_pos hi
  cases o with
  | goal t tv id => simp only [Delay.procOp, e id h]
  | rule t tv id n rng => simp only [Delay.procOp, e id h]
  | _ => rfl

/-- the operators of the library report what they are told to report -/
theorem libCall_oblivious : Oblivious libCall := by
  refine ⟨fun ops name args => (opEffects ops name args).map fun effs => effs.filterMap fun
    | .inject e => some e
    | .relate _ => none, ?_⟩
  intro name args p
  unfold libCall
  simp only
  cases opEffects p.ops name args with
  | error e => rfl
  | ok effs =>
    simp only [R.ok_then, Except.map]
    congr 1
    induction effs generalizing p with
    | nil => simp
    | cons a effs ih =>
      rw [List.foldl_cons, ih]
      cases a with
      | inject e => simp [applyInject, eventHappened]
      | relate t => simp [applyInject]

end Nar
