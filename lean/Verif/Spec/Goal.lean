import Verif.Model.Goal
import Verif.Spec.Mem
/-! # Specification vocabulary for the goal system -/
namespace Nar

/-- the goal is an executable operator call `<{(arg0 * ...)} --> name>` -/
def Executable (s : Sentence) : Prop :=
  ∃ args name, args ≠ [] ∧ s.term = .Stmt .INH (.SetExt [.Prod args]) (.Name name)

/-- same statement and same evidence -/
def SameGoal (a b : Sentence) : Prop := a.term = b.term ∧ a.stamp = b.stamp

/-- the entry is stored at depth level `i` -/
def StoredAt (g : GoalSystem) (i : Nat) (e : Entry) : Prop :=
  ∃ level gr, g.batchesByDepth[i]? = some level ∧ gr ∈ level ∧ e ∈ gr.entries

/-- the entry is stored in the goal system -/
def Stored (g : GoalSystem) (e : Entry) : Prop := e ∈ g.activeSet ∨ ∃ i, StoredAt g i e

/-- how many goals are stored in the depth levels -/
def levelCount (g : GoalSystem) : Nat :=
  (g.batchesByDepth.map (fun level => (level.map (fun gr => gr.entries.length)).sum)).sum

/-- how many goals are stored -/
def goalCount (g : GoalSystem) : Nat := levelCount g + g.activeSet.length

/-- the utility of a goal at time `t`: expectation times desirability, faded by age -/
def UtilityAt (decay : Int → Rat) (t : Int) (e : Entry) (u : Rat) : Prop :=
  ∃ x, Expectation e.sentence x ∧ u = x * max e.desirability (-e.desirability) * decay (t - e.createTime)

/-- What can happen to a goal system. -/
inductive GoalOp
  /-- a goal is added -/
  | add (t : Int) (goal : Sentence) (evidence : Option Nat) (depth : Int)
  /-- an event is perceived -/
  | event (term : Term)
  /-- forget down to the capacity -/
  | limit (t : Int)
  /-- sample a goal and derive sub-goals with the beliefs of procedural memory -/
  | infer (t : Int) (m : PMem) (d1 d2 : Rat) (rng : List Nat)
  /-- an executable goal was executed and is removed -/
  | executed (idx : Nat)
  /-- the user changes capacity or satisfaction -/
  | configure (nMaxEntries : Int) (enGoalSatisfaction : Bool)

/-- perform one operation -/
def GoalOp.run (decay : Int → Rat) (g : GoalSystem) : GoalOp → R GoalSystem
  | .add t goal evidence depth => addEntry g t goal evidence depth
  | .event term => .ok (eventOccurred g term)
  | .limit t => goalLimitMemory decay g t
  | .infer t m d1 d2 rng => sampleAndInference g t m d1 d2 rng
  | .executed idx => .ok { g with activeSet := g.activeSet.eraseIdx idx }
  | .configure n en => .ok { g with nMaxEntries := n, enGoalSatisfaction := en }

/-- perform a history of operations on a new goal system -/
def runGoals (decay : Int → Rat) (nMaxEntries nMaxDepth : Int) (ops : List GoalOp) : R GoalSystem :=
  ops.foldlM (GoalOp.run decay) (makeGoalSystem nMaxEntries nMaxDepth)

end Nar

namespace Nar

/-- the levels which hold goals, from shallow to deep -/
def nonEmptyLevels (g : GoalSystem) : List (List Group) := g.batchesByDepth.filter (fun level => decide (level ≠ []))

/-- the sampling weight of the goals of one statement, as recorded in the last of them -/
def Weight (gr : Group) (w : Rat) : Prop :=
  ∃ ini last, gr.entries = ini ++ [last] ∧ w = last.accDesirability + last.desirability

/-- the total sampling weight of some groups -/
inductive TotalWeight : List Group → Rat → Prop
  | nil : TotalWeight [] 0
  | cons {gr gs w W} : Weight gr w → TotalWeight gs W → TotalWeight (gr :: gs) (w + W)

/-- `r` is what sampling a level has to give for the position `p` on the line of the weights of its groups:
the group whose segment contains `p`, and in it the last goal whose recorded position is not beyond `p`
(or the first goal of the group) -/
def SampledFrom (level : List Group) (p : Rat) (r : Option (Sentence × Int)) : Prop :=
  match r with
  | none => ∀ W, TotalWeight level W → W ≤ p
  | some (s, d) => ∃ pre gr post before w, level = pre ++ gr :: post ∧ TotalWeight pre before ∧ Weight gr w ∧
      before ≤ p ∧ p < before + w ∧
      ∃ first e later, gr.entries = first ++ e :: later ∧ s = e.sentence ∧ d = e.depth ∧
        (first = [] ∨ e.accDesirability ≤ p) ∧ ∀ x ∈ later, p < x.accDesirability

end Nar

namespace Nar

/-- `c` is the goal derived backwards over a rule: the goal `s` is the effect of the predictive rule `b`, the
evidence is independent, and `c` wants the condition of the rule -/
def BackwardOver (s b c : Sentence) : Prop :=
  ∃ cond ts tb, b.term = .Stmt .PREDIMPL cond s.term ∧ ¬ SharesEvidence s b ∧ HasTruth s ts ∧ HasTruth b tb ∧
    c.term = cond ∧ c.punct = .GOAL ∧ c.stamp = Stamp.merge s.stamp b.stamp ∧ HasTruth c (Tv.dedGoal ts tb)

/-- `c` wants the first step of the sequence wanted by `s` -/
def FirstStepOf (s c : Sentence) : Prop :=
  ∃ first rest ts, s.term = .Seq (first :: rest) ∧ HasTruth s ts ∧
    c.term = first ∧ c.punct = .GOAL ∧ c.stamp = s.stamp ∧ HasTruth c ts

/-- one step of goal derivation; `ev` refers to the belief of procedural memory which was used -/
def GoalStep (m : PMem) (s c : Sentence) (ev : Option Nat) : Prop :=
  (ev = none ∧ FirstStepOf s c) ∨ ∃ r b, ev = some r ∧ m.heap[r]? = some b ∧ BackwardOver s b c

/-- `GoalChain m s n c ev`: `c` is derived from `s` by `n` steps, the last one with `ev` -/
inductive GoalChain (m : PMem) (s : Sentence) : Nat → Sentence → Option Nat → Prop
  | one {c ev} : GoalStep m s c ev → GoalChain m s 1 c ev
  | more {n c ev c' ev'} : GoalChain m s n c ev → GoalStep m c c' ev' → GoalChain m s (n + 1) c' ev'

/-- procedural memory whose references are valid and whose beliefs have a truth value -/
def PMem.Valid (m : PMem) : Prop :=
  (∀ c ∈ m.concepts, ∀ r, r ∈ c.byExp ∨ r ∈ c.byUsage → r < m.heap.length) ∧ ∀ b ∈ m.heap, ∃ tv, HasTruth b tv

/-- an operation with sane arguments -/
def GoalOp.Sane : GoalOp → Prop
  | .add _ goal _ depth => goal.punct = .GOAL ∧ (∃ tv, HasTruth goal tv) ∧ 0 ≤ depth
  | .infer _ m _ d2 _ => m.Valid ∧ 0 ≤ d2
  | .configure n _ => 0 ≤ n
  | _ => True

end Nar
