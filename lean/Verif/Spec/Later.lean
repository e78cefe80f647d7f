import Verif.Spec.Proc
/-! # Specification vocabulary: the same life, later

A `Delay` says by how much the clock is ahead, and which number a piece of evidence has then.  Everything that contains times or numbers of
evidence is moved by moving those; terms, truth values, counts and references stay. -/
namespace Nar

/-- the clock shows `shift` more, and evidence has other numbers; different evidence stays different -/
structure Delay where
  shift : Nat
  id : Int → Int
  id_inj : ∀ a b, id a = id b → a = b

namespace Delay
variable (δ : Delay)

def sentence (s : Sentence) : Sentence :=
  { s with stamp := ⟨s.stamp.ids.map δ.id⟩, usage := { s.usage with cell := s.usage.cell.map δ.id } }

def pmem (m : PMem) : PMem := { m with heap := m.heap.map δ.sentence }

def goal (e : Entry) : Entry := { e with sentence := δ.sentence e.sentence, createTime := e.createTime + δ.shift }

def group (g : Group) : Group := { g with entries := g.entries.map δ.goal }

def goals (g : GoalSystem) : GoalSystem :=
  { g with
    activeSet := g.activeSet.map δ.goal
    batchesByDepth := g.batchesByDepth.map (List.map δ.group)
    entriesByTerm := g.entriesByTerm.map fun p => (p.1, p.2.map δ.sentence) }

def event (e : Event) : Event := { e with evi := δ.id e.evi, occT := e.occT + δ.shift }

def anticipation (a : Anticipation) : Anticipation := { a with deadline := a.deadline + δ.shift }

def proc (p : Proc) : Proc :=
  { p with
    t := p.t + δ.shift
    mem := δ.pmem p.mem
    trace := p.trace.map δ.event
    anticipated := p.anticipated.map δ.anticipation
    goals := δ.goals p.goals
    queue := p.queue.map fun m => (δ.sentence m.1, m.2 + δ.shift) }

/-- the same input; what the user tells has another number -/
def procOp : ProcOp → ProcOp
  | .event t => .event t
  | .goal t tv id => .goal t tv (δ.id id)
  | .rule t tv id n rng => .rule t tv (δ.id id) n rng
  | .step0 draws => .step0 draws
  | .step1 rng infs => .step1 rng infs
  | .worker rng => .worker rng
  | .flush => .flush

/-- The delay is a whole number of rounds in which memory is cleared (13 and 101 steps); what is observed from time `start` on has the number
of its time, as always; and the number which stands for no evidence stays. -/
structure Regular (start : Int) : Prop where
  start_nonneg : 0 ≤ start
  goals_round : 13 ∣ δ.shift
  mem_round : 101 ∣ δ.shift
  nothing : δ.id (-1) = -1
  now : ∀ t, start ≤ t → δ.id t = t + δ.shift

end Delay

/-- What an operator reports depends on the registered operators, its name and its arguments alone, and happens when it is reported. -/
def Oblivious (call : Call) : Prop :=
  ∃ reported : List Op → String → List Term → R (List Term), ∀ name args p,
    call name args p = (reported p.ops name args).map fun ts => { p with trace := p.trace ++ ts.map fun t => ⟨t, p.t, p.t⟩ }

/-- nothing but time passes -/
def ProcOp.Waits : ProcOp → Prop
  | .step0 _ | .step1 _ _ | .worker _ | .flush => True
  | .event _ | .goal .. | .rule .. => False

/-- how many steps are taken -/
def stepsTaken : List ProcOp → Nat
  | [] => 0
  | .step1 _ _ :: ops => stepsTaken ops + 1
  | _ :: ops => stepsTaken ops

/-- the numbers the user's goals and rules are given are below `start` -/
def ProcOp.ToldBefore (start : Int) : ProcOp → Prop
  | .goal _ _ id | .rule _ _ id _ _ => id < start
  | _ => True

/-- The delay of someone who waits `shift` steps more: what was told before time `start` has the number it had; what is observed from then
on has the number of its time. -/
def waitingMore (start : Int) (shift : Nat) : Delay where
  shift := shift
  id i := if i < start then i else i + shift
  id_inj a b h := by
    split at h <;> split at h <;> omega

end Nar
