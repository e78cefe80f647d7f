import Verif.Spec.Task2
import Verif.Spec.Nar
import Verif.Spec.Decl
/-! # Specification vocabulary for "everything told is thought through" -/
namespace Nar
open Term

/-- continue a history of the system from a state -/
def moreSys (cfg : Cfg) (s : Sys) (ops : List SysOp) : R Sys := ops.foldlM (SysOp.run cfg) s

/-- cycles during which nothing comes in, each with its random draw and its clock -/
def quiet (vs : List (Rat × Int)) : List SysOp := vs.map (fun v => SysOp.cycle v.1 v.2)

/-- the worker gets round to `n` messages -/
def worked (n : Nat) : List SysOp := List.replicate n SysOp.work

/-- none of the next `n` cycles is one which trims the working list and the lookup -/
def NoTrim (sh : Shared) (n : Nat) : Prop := ∀ k : Nat, 1 ≤ k → k ≤ n → (sh.cycleCounter + k) % 111 ≠ 0

/-- there are few enough tasks for all partners to be looked at: no term has more than 51 entries in the lookup, and there are
at most 300 tasks -/
structure Room (sh : Shared) : Prop where
  perTerm : ∀ s refs, lookupRefs sh.judgementTasksByTerm s = some refs → refs.length ≤ 51
  total : sh.heap.length ≤ 300

/-- between the two states all handlers of the question got an answer which is at least as good as `e` -/
def Reported (cfg : Cfg) (s s' : Sys) (q : Task2) (e : Rat) : Prop :=
  ∀ hd, Registered cfg.nGlobal q hd →
    ∃ call ∈ s'.log.drop s.log.length, call.handler = hd ∧ call.question = q.sentence.term ∧ CanAnswer q call.answer ∧
      ∃ e', e ≤ e' ∧ Expectation call.answer e'

/-- statement and evidence are among the tasks -/
def HasTask (sh : Shared) (c : Sentence) : Prop :=
  ∃ t ∈ sh.heap, t.sentence.term = c.term ∧ t.sentence.stamp = c.stamp

/-- Between the two states the conclusion has been dealt with: if it is simple enough it is a task, and all handlers of every
question which it answers better than the best answer so far got an answer which is at least as good. -/
def DealtWith (cfg : Cfg) (s s' : Sys) (c : Sentence) : Prop :=
  (c.punct = .JUGEMENT → (calcComplexity c.term : Int) ≤ cfg.maxComplexity → HasTask s'.sh c) ∧
  ∀ q ∈ s.sh.questionTasks, CanAnswer q c → ∀ e, Expectation c e → q.bestAnswerExp < e → Reported cfg s s' q e

/-- the declarative part of a reasoner with its waiting messages and the answers given so far -/
def Reasoner.sys (r : Reasoner) : Sys := ⟨r.sh, r.queue, r.answers⟩

/-- cycles of a reasoner while nothing comes in, then rounds of the worker of the declarative memory -/
def thinkAbout (vs : List Rat) (n : Nat) : List NarOp := vs.map NarOp.cycle ++ List.replicate n NarOp.declWork

/-- number of parts of a term, the term itself included, repetitions counted -/
def Term.size (t : Term) : Nat := (retSubterms t).length

/-- the questions are asked through the programming interface -/
def askAll (qs : List Term) : List NarOp := qs.map (fun q => NarOp.tell q .QUESTION ⟨1, 1/2⟩ true [])

/-- the statements are told through the programming interface -/
def tellAll (sts : List (Term × Tv)) : List NarOp := sts.map (fun st => NarOp.tell st.1 .JUGEMENT st.2 false [])

/-- the told statement with its number as its evidence -/
def toldAs (n : Nat) (st : Term × Tv) : Sentence := newEternalSentenceByTv st.1 .JUGEMENT st.2 ⟨[(n : Int)]⟩

/-- statements which may be told to a new reasoner together: all different, printable, sane, not temporal, of at most 51
parts altogether -/
structure Handful (sts : List (Term × Tv)) : Prop where
  differ : (sts.map (·.1)).Nodup
  safe : ∀ st ∈ sts, SafeInput st.1 .JUGEMENT st.2 false
  small : (sts.map (fun st => Term.size st.1)).sum ≤ 51

end Nar
