import Verif.Lemmas.ProcRace2
import Verif.Props.Proc
/-! # Property theorems about the storage worker and the main thread at work on the same rules (C94)

Histories are lists of `StoreOp`: single locked sections of the storage worker and of the main thread, in any order. -/
namespace Nar.Props
open Nar Term

/-! ## concrete things for the examples -/

/-- the observation that `b` followed the action `^go` in `a`, with the given evidence -/
def seen (ids : List Int) : Sentence :=
  { term := rule (.Name "a") [encodeOp [selfTerm] "^go"] (.Name "b"), punct := .JUGEMENT, stamp := ⟨ids⟩, t := none,
    expDt := some 1, evi := some (.CNT 1 1), usage := ⟨0, 0, []⟩ }

/-- the first observation is stored; while the worker visits the stored rules with a second one, two of the rules are disappointed -/
def storeThenRevise : List StoreOp :=
  [.send (seen [1, 2, 3]) 0, .worker [], .worker [], .worker [], .worker [], .send (seen [4, 5, 6]) 1, .worker [], .worker [],
   .disappoint 0, .forget 0, .worker [], .disappoint 1, .disappoint 0, .worker [], .worker [], .worker [], .forget 1]

/-- what counts in the examples: positive observations and all observations of each rule, number of concepts -/
def storeView (x : StoreRace) : List (Option Evidence) × Nat := (x.mem.heap.map (·.evi), x.mem.concepts.length)

def storeSplit : List StoreOp × List StoreOp := (storeThenRevise.take 7, (storeThenRevise.drop 7).take 8)

example : (runStore 100 .start storeThenRevise).map storeView =
    .ok ([some (.CNT 2 4), some (.CNT 2 3), some (.CNT 2 2), some (.CNT 2 2)], 1) := by decide +kernel

theorem seen_sane (ids : List Int) : SaneRule (seen ids) := ⟨⟨_, _, _, rfl⟩, rfl, 1, 1, rfl, by decide, by decide, by decide⟩

theorem storeThenRevise_sane : ∀ op ∈ storeThenRevise, op.Sane 100 := by
  intro op hop
  simp only [storeThenRevise, List.mem_cons, List.not_mem_nil, or_false] at hop
  rcases hop with rfl | rfl | rfl | rfl | rfl | rfl | rfl | rfl | rfl | rfl | rfl | rfl | rfl | rfl | rfl | rfl | rfl <;>
    first | exact seen_sane _ | trivial

/-! ## C94 -/

/-- C94: whatever the order in which the two threads act, the memory of rules stays sane: one concept per term, tables within their
limit, references to existing rules, sane counters. -/
theorem C94_memory_stays_sane (N n : Nat) (hn : n ≤ N) (hN : 1 ≤ N) (ops : List StoreOp) (hops : ∀ op ∈ ops, op.Sane N)
    (x : StoreRace) (h : runStore n .start ops = .ok x) : SaneRules N x.mem := by
  obtain ⟨hx, _⟩ := runStore_sane hn hN (.start N) hops h
  exact ⟨hx.tab.once, hx.tab.bounded, hx.refs, hx.heap⟩

example : ∃ x, runStore 100 .start storeThenRevise = .ok x ∧ SaneRules 100 x.mem := by
  have h : (runStore 100 .start storeThenRevise).map (fun _ => ()) = .ok () := by decide +kernel
  obtain ⟨x, hx, _⟩ := R.map_ok.1 h
  exact ⟨x, hx, C94_memory_stays_sane 100 100 (by omega) (by omega) _ storeThenRevise_sane x hx⟩

/-- C94: no update is lost, whatever the order in which the two threads act: the counters of a rule are those it had, and what each
action since then counted. -/
theorem C94_no_update_lost (N n : Nat) (hn : n ≤ N) (hN : 1 ≤ N) (ops more : List StoreOp)
    (hops : ∀ op ∈ ops ++ more, op.Sane N) (x x' : StoreRace) (h : runStore n .start ops = .ok x)
    (h' : runStore n x more = .ok x') (r : Nat) (b : Sentence) (pos cnt : Int) (hb : x.mem.heap[r]? = some b)
    (hc : Counts b pos cnt) :
    ∃ p c b', Gains n r x more p c ∧ x'.mem.heap[r]? = some b' ∧ Counts b' (pos + p) (cnt + c) := by
  obtain ⟨hx, _⟩ := runStore_sane hn hN (.start N) (fun o ho => hops o (by simp [ho])) h
  obtain ⟨p, c, hg, b', hb', hc'⟩ := gains_of hn hN hx (fun o ho => hops o (by simp [ho])) h' hb hc
  exact ⟨p, c, b', hg, hb', hc'⟩

/-- C94: and what is counted is well defined. -/
theorem C94_gains_unique (n r : Nat) (x : StoreRace) (ops : List StoreOp) (p c p' c' : Int) (h : Gains n r x ops p c)
    (h' : Gains n r x ops p' c') : p = p' ∧ c = c' := Gains.unique h h'

/-- the observation and two disappointments were counted in the first rule -/
example : ∃ x x', runStore 100 .start storeSplit.1 = .ok x ∧ runStore 100 x storeSplit.2 = .ok x' ∧ Gains 100 0 x storeSplit.2 1 3 := by
  have h : (runStore 100 .start storeSplit.1).map (fun x => (storeView x, (runStore 100 x storeSplit.2).map storeView)) =
    .ok (([some (.CNT 1 1), some (.CNT 1 1), some (.CNT 1 1), some (.CNT 1 1)], 2),
      .ok ([some (.CNT 2 4), some (.CNT 2 3), some (.CNT 2 2), some (.CNT 2 2)], 2)) := by decide +kernel
  obtain ⟨x, hx, h⟩ := R.map_ok.1 h
  obtain ⟨h1, h2⟩ := Prod.mk.inj h
  obtain ⟨x', hx', h2⟩ := R.map_ok.1 h2
  have first : ∀ (y : StoreRace) e l k, storeView y = (some e :: l, k) → ∃ b, y.mem.heap[0]? = some b ∧ b.evi = some e := by
    intro y e l k hy
    have := (Prod.mk.inj hy).1
    match hh : y.mem.heap with
    | [] => rw [hh] at this; cases this
    | b :: bs => rw [hh] at this; exact ⟨b, rfl, (List.cons.inj this).1⟩
  obtain ⟨b, hb, hc⟩ := first x _ _ _ h1
  obtain ⟨b2, hb2, hc2⟩ := first x' _ _ _ h2
  have hops : ∀ op ∈ storeSplit.1 ++ storeSplit.2, op.Sane 100 := fun op hop => storeThenRevise_sane op (by
    rcases List.mem_append.1 hop with hop | hop
    · exact List.mem_of_mem_take hop
    · exact List.mem_of_mem_drop (List.mem_of_mem_take hop))
  obtain ⟨p, c, b', hg, hb', hc'⟩ := C94_no_update_lost 100 100 (by omega) (by omega) _ _ hops x x' hx hx' 0 b 1 1 hb hc
  rw [hb2] at hb'; cases hb'
  unfold Counts at hc'
  rw [hc2] at hc'
  simp only [Option.some.injEq, Evidence.CNT.injEq] at hc'
  obtain ⟨e1, e2⟩ := hc'
  obtain rfl : p = 1 := by omega
  obtain rfl : c = 3 := by omega
  exact ⟨x, x', hx, hx', hg⟩

/-- C94: while the worker visits the rules with an observation, negative evidence may be added to any of them, at any moment: the
result is the same as if it had been added before, and then the worker had visited all rules at once.  The tables do not change. -/
theorem C94_as_if_before (n : Nat) (x x' : StoreRace) (ops : List StoreOp) (s : Sentence) (time : Int) (todo : List Nat) (add : Bool)
    (hx : x.phase = .visiting s time todo add) (hw : workerActs ops = todo.length) (h : runStore n x ops = .ok x')
    (hd : x'.phase ≠ .dead) :
    ∃ heap add', (disappointments ops).foldlM negConfirm x.mem.heap = .ok heap ∧
      workerVisits s todo (heap, add) = ((x'.mem.heap, add'), none) ∧ x'.phase = .visiting s time [] add' ∧
      x'.mem.concepts = x.mem.concepts := visits_serial hx hw h hd

/-- C94: so each visited rule which the observation supports counts it exactly once, the others do not, and every disappointment counts
once, whatever the order. -/
theorem C94_counted_once (n : Nat) (x x' : StoreRace) (ops : List StoreOp) (s : Sentence) (time : Int) (todo : List Nat) (add : Bool)
    (hs : s.stamp.ids ≠ []) (k j : Int) (hsc : Counts s k j)
    (hx : x.phase = .visiting s time todo add) (hw : workerActs ops = todo.length) (h : runStore n x ops = .ok x')
    (hd : x'.phase ≠ .dead) (r : Nat) (b : Sentence) (pos cnt : Int) (hb : x.mem.heap[r]? = some b) (hc : Counts b pos cnt) :
    ∃ b', x'.mem.heap[r]? = some b' ∧
      (r ∈ todo ∧ Supports b s → Counts b' (pos + k) (cnt + j + ((disappointments ops).map (·.evi)).count r)) ∧
      (¬ (r ∈ todo ∧ Supports b s) → Counts b' pos (cnt + ((disappointments ops).map (·.evi)).count r)) :=
  visits_counts hs hsc hx hw h hd hb hc

/-- the worker is about to visit four rules, and two of them are disappointed meanwhile -/
example : ∃ x x' s time, runStore 100 .start storeSplit.1 = .ok x ∧ x.phase = .visiting s time [0, 1, 2, 3] true ∧
    workerActs storeSplit.2 = 4 ∧ disappointments storeSplit.2 = [⟨0, 0⟩, ⟨1, 0⟩, ⟨0, 0⟩] ∧
    runStore 100 x storeSplit.2 = .ok x' ∧ x'.phase ≠ .dead := by
  have h : (runStore 100 .start storeSplit.1).map (fun x => ((match x.phase with
      | .visiting _ _ todo true => todo
      | _ => []), (runStore 100 x storeSplit.2).map (fun x' => match x'.phase with
      | .dead => true
      | _ => false))) = .ok ([0, 1, 2, 3], .ok false) := by decide +kernel
  obtain ⟨x, hx, h⟩ := R.map_ok.1 h
  obtain ⟨h1, h2⟩ := Prod.mk.inj h
  obtain ⟨x', hx', h2⟩ := R.map_ok.1 h2
  have hd : x'.phase ≠ .dead := by intro e; rw [e] at h2; cases h2
  match hp : x.phase with
  | .visiting s time todo true => rw [hp] at h1; exact ⟨x, x', s, time, hx, by rw [hp, ← h1], by decide, by decide, hx', hd⟩
  | .visiting s time todo false | .waiting | .adding _ _ | .versions _ _ | .dead => rw [hp] at h1; cases h1

/-- C94: if nothing comes between them, the sections of a round do what the round does at once, as long as the worker survives; and if
the worker does not survive the round, it does not survive the sections. -/
theorem C94_round_at_once (p : Proc) (rng : List Nat) (ha : p.workerAlive = true) :
    ∃ k x, runStore p.nConceptBeliefs p.storeRace (List.replicate k (.worker rng)) = .ok x ∧
      ((workerStep p rng).workerAlive = true → x = (workerStep p rng).storeRace) ∧
      ((workerStep p rng).workerAlive = false → x.phase = .dead ∧ x.queue = (workerStep p rng).queue) := round_at_once ha

example : ∃ p, runProc noEffect (fun _ => 1) agent (learnLB.take 4) = .ok p ∧ p.queue.length = 4 ∧ p.workerAlive = true ∧
    (workerStep p []).workerAlive = true ∧ (workerStep p []).mem.heap.length = 4 := by
  have h : (runProc noEffect (fun _ => 1) agent (learnLB.take 4)).map (fun p => (p.queue.length, p.workerAlive,
    (workerStep p []).workerAlive, (workerStep p []).mem.heap.length)) = .ok (4, true, true, 4) := by decide +kernel
  obtain ⟨p, hp, e⟩ := R.map_ok.1 h
  simp only [Prod.mk.injEq] at e
  exact ⟨p, hp, e⟩

/-- C94: everything a reasoner does to its rules is done by such actions: every history of whole steps, inputs and rounds of the worker
which the worker survives is one of the histories above.  So they hold for it, with any of the sections in between. -/
theorem C94_covers_histories (call : Call) (hcall : OnlyReports call) (decay : Int → Rat) (p p' : Proc) (hist : List ProcOp)
    (h : runProc call decay p hist = .ok p') (ha : p'.workerAlive = true) :
    ∃ ops, runStore p.nConceptBeliefs p.storeRace ops = .ok p'.storeRace := (runProc_storeOps hcall h ha).2.2

/-- a history with learning, pursuing a goal and a disappointment is such a history -/
example : ∃ p' ops, runProc noEffect (fun _ => 1) agent disappointed = .ok p' ∧ p'.mem.heap.length = 4 ∧
    runStore agent.nConceptBeliefs agent.storeRace ops = .ok p'.storeRace := by
  have h : (runProc noEffect (fun _ => 1) agent disappointed).map (fun p => (p.mem.heap.length, p.workerAlive)) = .ok (4, true) := by
    decide +kernel
  obtain ⟨p', hp, e⟩ := R.map_ok.1 h
  obtain ⟨e1, e2⟩ := Prod.mk.inj e
  obtain ⟨ops, ho⟩ := C94_covers_histories noEffect noEffect_reports _ agent p' disappointed hp e2
  exact ⟨p', ops, hp, e1, ho⟩

end Nar.Props
