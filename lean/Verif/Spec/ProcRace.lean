import Verif.Model.ProcRace
import Verif.Spec.Proc
/-! # Specification vocabulary for the storage worker and the main thread at work on the same rules -/
namespace Nar
open Term

/-- what the two threads can do to the memory of rules -/
inductive StoreOp
  /-- the next locked section of the storage worker, with the draws for variable names -/
  | worker (rng : List Nat)
  /-- the main thread sends an observation -/
  | send (s : Sentence) (time : Int)
  /-- the main thread adds negative evidence to a rule -/
  | disappoint (r : Nat)
  /-- the main thread stores a told rule, or a version of it -/
  | store (s : Sentence) (nBeliefs : Nat) (time : Int)
  /-- the main thread forgets concepts -/
  | forget (nConcepts : Nat)

/-- perform one action; the worker was created with room for `n` rules per concept -/
def StoreOp.run (n : Nat) (x : StoreRace) : StoreOp → R StoreRace
  | .worker rng => .ok (x.workerAct n rng)
  | .send s time => x.send s time
  | .disappoint r => x.disappoint r
  | .store s nBeliefs time => x.store s nBeliefs time
  | .forget nConcepts => x.forget nConcepts

/-- perform actions of both threads in the given order -/
def runStore (n : Nat) (x : StoreRace) (ops : List StoreOp) : R StoreRace := ops.foldlM (StoreOp.run n) x

/-- no more than `N` rules per table are asked for, and everything sent or told is a rule with sane counters -/
def StoreOp.Sane (N : Nat) : StoreOp → Prop
  | .send s _ => SaneRule s
  | .store s nBeliefs _ => SaneRule s ∧ nBeliefs ≤ N
  | _ => True

/-- one concept per term, tables of at most `N` rules, references to existing rules, rules with sane counters -/
def SaneRules (N : Nat) (m : PMem) : Prop :=
  (m.concepts.map (·.name)).Nodup ∧ (∀ c ∈ m.concepts, c.byExp.length ≤ N ∧ c.byUsage.length ≤ N) ∧ m.RefsValid ∧
    ∀ b ∈ m.heap, SaneRule b

/-- the observation which the worker is going to hold against the rule `r` next -/
def StoreRace.Visits (x : StoreRace) (r : Nat) (s : Sentence) : Prop :=
  ∃ time todo add, x.phase = .visiting s time (r :: todo) add

/-- What an action adds to the counters of the rule `r`: an observation which the worker holds against the rule counts as it says if
it supports the rule; a disappointment counts one, against the rule. -/
inductive Gain (x : StoreRace) (r : Nat) : StoreOp → Int → Int → Prop
  | supported {rng s b n k} : x.Visits r s → x.mem.heap[r]? = some b → Supports b s → Counts s n k → Gain x r (.worker rng) n k
  | unsupported {rng} : (∀ s b, x.Visits r s → x.mem.heap[r]? = some b → ¬ Supports b s) → Gain x r (.worker rng) 0 0
  | disappointed : Gain x r (.disappoint r) 0 1
  | otherRule {r'} : r' ≠ r → Gain x r (.disappoint r') 0 0
  | send {s time} : Gain x r (.send s time) 0 0
  | store {s n time} : Gain x r (.store s n time) 0 0
  | forget {n} : Gain x r (.forget n) 0 0

/-- what a history adds to the counters of the rule `r` -/
inductive Gains (n r : Nat) : StoreRace → List StoreOp → Int → Int → Prop
  | nil {x} : Gains n r x [] 0 0
  | cons {x x' op ops pos cnt pos' cnt'} : op.run n x = .ok x' → Gain x r op pos cnt → Gains n r x' ops pos' cnt' →
      Gains n r x (op :: ops) (pos + pos') (cnt + cnt')

/-- at the start nothing is known and the worker waits -/
def StoreRace.start : StoreRace := ⟨PMem.empty, [], .waiting⟩

/-- the disappointments of a history, in order -/
def disappointments : List StoreOp → List Anticipation
  | [] => []
  | .disappoint r :: ops => ⟨r, 0⟩ :: disappointments ops
  | _ :: ops => disappointments ops

/-- how often the worker acts in a history -/
def workerActs : List StoreOp → Nat
  | [] => 0
  | .worker _ :: ops => workerActs ops + 1
  | _ :: ops => workerActs ops

/-- the memory, messages and worker of a procedural reasoner between two rounds of its worker -/
def Proc.storeRace (p : Proc) : StoreRace := ⟨p.mem, p.queue, if p.workerAlive then .waiting else .dead⟩

end Nar
