import Verif.Model.Race
import Verif.Spec.Task
import Verif.Spec.Decl
/-! # Specification vocabulary for additions which run at the same time -/
namespace Nar
open Term

/-- what happens: thread `k` begins an addition, or does the next section of the one it is busy with; or any other action on
the shared state happens -/
inductive RaceOp
  | begin (k : Nat) (s : Sentence) (calcCredit : Bool) (mulCredit : Rat) (now : Int)
  | next (k : Nat)
  | other (op : TaskOp)

/-- perform it; a thread which is busy cannot begin, an idle one has no next section -/
def RaceOp.run (cfg : Cfg) (st : Race) : RaceOp → R Race
  | .begin k s cc mc now =>
    match st.adding k with
    | none => .ok (st.put st.sh k (beginAdding cfg s cc mc now))
    | some _ => .ok st
  | .next k =>
    match st.adding k with
    | none => .ok st
    | some a => do
      let r ← a.step cfg st.sh
      .ok (st.put r.1 k r.2)
  | .other op => do
    let r ← op.run cfg st.sh
    .ok { st with sh := r.1 }

/-- go on with a history -/
def moreRace (cfg : Cfg) (st : Race) (ops : List RaceOp) : R Race := ops.foldlM (fun st op => op.run cfg st) st

/-- the history of any number of threads which add at the same time -/
def runRace (cfg : Cfg) (ops : List RaceOp) : R Race := moreRace cfg ⟨createShared, fun _ => none⟩ ops

/-- the task is listed under every sub-term of its statement -/
def Filed (sh : Shared) (r : Nat) (t : Task) : Prop :=
  ∀ s, IsSubterm s t.sentence.term → ∃ refs, lookupRefs sh.judgementTasksByTerm s = some refs ∧ r ∈ refs

/-- some thread has put the task into the working list and goes on to list it by its terms -/
def AboutToFile (st : Race) (r : Nat) : Prop :=
  ∃ k a term todo, st.adding k = some a ∧ a.stage = .file r term todo

/-- a judgement with well-formed statement and a truth value in range which is not axiomatic -/
def SaneJudgement (s : Sentence) : Prop := s.punct = .JUGEMENT ∧ ∃ tv, s.evi = some (.TV tv) ∧ SaneStatement s.term tv

/-- the action brings in sane judgements only; rules of the procedural memory have an expectation -/
def RaceOp.Sane : RaceOp → Prop
  | .begin _ s _ _ _ => s.punct = .JUGEMENT → SaneJudgement s
  | .next _ => True
  | .other (.add s _ _ _) => s.punct = .JUGEMENT → SaneJudgement s
  | .other (.offer c) => SaneJudgement c
  | .other (.procMem m) =>
      ∀ c ∈ m, (∀ b ∈ c.beliefsByExp, ∃ e, Expectation b e) ∧ ∀ b ∈ c.beliefsByUsage, ∃ e, Expectation b e
  | .other _ => True

end Nar
