import Verif.Model.Nar
import Verif.Spec.Task2
/-! # Specification vocabulary for the reasoner as a whole -/
namespace Nar
open Term

/-- What can happen to a reasoner, in any order and interleaving. -/
inductive NarOp
  /-- a line of the line interface -/
  | line (l : List Char) (d : LineDraws)
  /-- a sentence is told through the programming interface -/
  | tell (term : Term) (punct : Punct) (tv : Tv) (isEvent : Bool) (rng : List Nat)
  /-- a reasoning cycle through the programming interface -/
  | cycle (selVal : Rat)
  /-- the worker of the declarative memory does a round -/
  | declWork
  /-- the worker of the procedural memory does a round -/
  | procWork (rng : List Nat)
  /-- so many global question handlers are registered -/
  | handlers (n : Nat)
  /-- verbosity is set -/
  | verbosity (v : Int)
  /-- a question handler panics in the worker of the declarative memory, whose thread ends -/
  | workerLost
  /-- the program using the reasoner makes the learned rules available to question answering, as the interactive program
  does when it starts -/
  | link

/-- perform one action -/
def NarOp.run (env : Env) (r : Reasoner) : NarOp → R Reasoner
  | .line l d => (input env r l d).map (·.1)
  | .tell term punct tv isEvent rng => inputT2 env r term punct tv isEvent rng
  | .cycle selVal => Nar.cycle env r selVal
  | .declWork => .ok (Nar.declWork env r)
  | .procWork rng => .ok (Nar.procWork r rng)
  | .handlers n => .ok { r with nGlobal := n }
  | .verbosity v => .ok { r with verbosity := v }
  | .workerLost => .ok { r with workerAlive := false }
  | .link => .ok { r with linked := true }

/-- continue a history -/
def moreNar (env : Env) (r : Reasoner) (ops : List NarOp) : R Reasoner := ops.foldlM (NarOp.run env) r

/-- a history of a reasoner, from its creation -/
def runNar (env : Env) (ops : List NarOp) : R Reasoner := moreNar env createNar ops

/-- the sentence is known: it is a task or a belief of the declarative memory -/
def Holds (r : Reasoner) (s : Sentence) : Prop :=
  (∃ t ∈ r.sh.heap, t.sentence = s) ∨ ∃ t, BeliefUnder r.sh.mem t s

/-- the rule is known to the procedural reasoner -/
def KnowsRule (r : Reasoner) (s : Sentence) : Prop :=
  ∃ c ∈ r.proc.mem.concepts, ∃ ref, (ref ∈ c.byExp ∨ ref ∈ c.byUsage) ∧ r.proc.mem.heap[ref]? = some s

/-- the rule is stored in procedural memory under the term -/
def RuleStored (r : Reasoner) (t : Term) (s : Sentence) : Prop :=
  ∃ c, r.proc.mem.get t = some c ∧ ∃ ref, (ref ∈ c.byExp ∨ ref ∈ c.byUsage) ∧ r.proc.mem.heap[ref]? = some s

/-- number of evidence identifiers handed out so far -/
def idsGiven (r : Reasoner) : Int := r.sh.stampIdCounter

/-- the sentence rests on at least one and at most 120 identified observations, none counted twice, all handed out -/
def WellStamped (r : Reasoner) (s : Sentence) : Prop :=
  s.stamp.ids ≠ [] ∧ s.stamp.ids.length ≤ 120 ∧ s.stamp.ids.Nodup ∧ ∀ id ∈ s.stamp.ids, 0 ≤ id ∧ id < idsGiven r

/-- The command which a line stands for: a comment, a procedural step, declarative cycles with the number, and so on; all
other lines are read as sentences. -/
def commandOf (s : List Char) : Command :=
  if "//".toList.isPrefixOf s then .comment
  else if "!sp".toList.isPrefixOf s then .step
  else if "!s".toList.isPrefixOf s then .cycles (s.drop 2)
  else if s = "!dtf".toList then .flush
  else if "!por ".toList.isPrefixOf s then .register (s.drop 5)
  else if s = "!pse".toList then .showEvidence
  else if s = "!peb 0".toList then .babbleOff
  else if s = "!peb 1".toList then .babbleOn
  else if "!.nlp ".toList.isPrefixOf s ∧ s ≠ "!.nlp ".toList then .nlp (s.drop 6)
  else if s = "!dt".toList then .debugTasks
  else if s = "!dmd".toList then .debugMemory
  else if s = "!QQ".toList then .quit
  else if s = [] then .empty
  else .narsese

/-- The procedural step of line "!sp" executes an action which reports the relation `rel`: perception, then the rounds of
the storage worker in between, then the decision for the action `act`. -/
def StepReports (env : Env) (r : Reasoner) (d : LineDraws) (rel : Term) : Prop :=
  ∃ p0 p1 p2 act args name effs, narStep0 r.proc d.perceive = .ok p0 ∧ d.between.foldl workerStep p0 = p1 ∧
    narStep1 libCall env.goalDecay p1 d.decide d.infs = .ok (p2, some act) ∧ decodeOp act = some (args, name) ∧
    opEffects p1.ops name args = .ok effs ∧ OpEffect.relate rel ∈ effs

/-- A statement which an action tells to the declarative reasoner in the given state, with its truth value: told through
the programming interface; read from a line; stated by a relation found by the language module; or reported by an operator
executed in a procedural step. -/
def Told (env : Env) (r : Reasoner) : NarOp → Term → Tv → Prop
  | .tell t p v e _, term, tv => p = .JUGEMENT ∧ e = false ∧ t = term ∧ v = tv ∧ ¬ IsTemporal term
  | .line l d, term, tv =>
    (dispatch (trimNewline l) = .ok .narsese ∧
      parseNarsese env.pf (trimNewline l) = .ok (some (term, tv, .JUGEMENT, false)) ∧ ¬ IsTemporal term) ∨
    ((∃ text, dispatch (trimNewline l) = .ok (.nlp text)) ∧ ∃ rel ∈ d.rels, ∃ txt, convRelToNarsese env.sf rel = .ok txt ∧
      parseNarsese env.pf txt = .ok (some (term, tv, .JUGEMENT, false)) ∧ ¬ IsTemporal term) ∨
    (dispatch (trimNewline l) = .ok .step ∧ tv = ⟨1, 9/10⟩ ∧ StepReports env r d term)
  | _, _, _ => False

/-- What follows from the statements told in a history: the statements themselves, each with an evidence id of its own;
the revision of two beliefs about the same statement which rest on different evidence; conclusions of one or of two
premises.  How often a belief was used does not matter. -/
inductive Derivable (env : Env) (ops : List NarOp) : Sentence → Prop
  | told {pre post : List NarOp} {op : NarOp} {r : Reasoner} {term : Term} {tv : Tv} : ops = pre ++ op :: post →
      runNar env pre = .ok r → Told env r op term tv → (id : Int) →
      Derivable env ops (newEternalSentenceByTv term .JUGEMENT tv ⟨[id]⟩)
  | pool {cell : List Int} {b s r : Sentence} : Derivable env ops b → Derivable env ops s → SameStatement b s → ¬ SharesEvidence b s →
      revisedBelief cell b s = .ok r → Derivable env ops r
  | two {p s c : Sentence} {w : Rat} : Derivable env ops p → Derivable env ops s → Follows p s c w → Derivable env ops c
  | alone {p c : Sentence} {w : Rat} : Derivable env ops p → FollowsAlone p c w → Derivable env ops c
  | used {s : Sentence} (u : Usage) : Derivable env ops s → Derivable env ops { s with usage := u }

/-- at some time in the history the procedural reasoner knew the rule -/
def WasRule (env : Env) (ops : List NarOp) (s : Sentence) : Prop :=
  ∃ pre post r, ops = pre ++ post ∧ runNar env pre = .ok r ∧ KnowsRule r s

/-- The effects of an operation, given as a term: of the registered operator with that name, none if the term is no operation
or names no registered operator.  (The operation is printed before, which only matters if printing crashes.) -/
def operationEffects (ops : List Op) (t : Term) : R (List OpEffect) :=
  match decodeOp t with
  | none => .ok []
  | some (args, name) =>
    if (∃ o ∈ ops, o.name = name) then
      match t.convTermToStr with
      | some _ => opEffects ops name args
      | none => .error .index
    else .ok []

end Nar
