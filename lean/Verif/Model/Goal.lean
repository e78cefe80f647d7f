import Verif.Model.ProcMem
import Verif.Model.Unify
import Verif.Model.Task
/-!
# Goal system  (models /repo/src/NarGoalSystem.rs, BinSearch.rs, the goal rules of NarInfProcedural.rs and
the operator encoding of TermUtils.rs)

`Arc<RwLock<Entry>>` is modelled by the value of the entry: inside the goal system an entry is reachable
either from the active set or from one group, `entriesByTerm` is only read for the (immutable) sentence, and
the two references of an active entry which `limitMemory` collects are merged again.  The belief used to
derive a goal is a reference to a cell of procedural memory.  The queue of answers of the procedural / Q&A
bridge is not modelled: nothing registers the handler that fills it (lines 222-237 are commented out).
Random integer draws come from an oracle list, real draws are parameters.
-/
namespace Nar
open Term

/-- `decodeOp`, TermUtils.rs 8-30. -/
def decodeOp : Term → Option (List Term × String)
  | .Stmt .INH (.SetExt [.Prod (a :: args)]) (.Name n) => some (a :: args, n)
  | _ => none

/-- `encodeOp`, TermUtils.rs 33-36. -/
def encodeOp (args : List Term) (name : String) : Term :=
  .Stmt .INH (.SetExt [.Prod args]) (.Name name)

/-- `rng.gen_range(0..n)`: the next draw of the oracle, reduced to the range; an empty range panics.  Every
sequence of results is produced by some oracle. -/
def genRange (rng : List Nat) (n : Nat) : R (Nat × List Nat) :=
  if n = 0 then .error .explicit else .ok (rng.headD 0 % n, rng.tail)

/-- `Entry`, NarGoalSystem.rs 83-101. -/
structure Entry where
  sentence : Sentence
  /-- reference to the belief which was used to derive the goal -/
  evidence : Option Nat
  createTime : Int
  depth : Int
  desirability : Rat
  utility : Rat
  accDesirability : Rat
  deriving Repr

/-- `EntryFoldedByTerm`, NarGoalSystem.rs 75-80. -/
structure Group where
  term : Term
  entries : List Entry
  deriving Repr

/-- `GoalSystem`, NarGoalSystem.rs 44-70; a `BatchByDepth` (lines 109-112) is its list of groups, its depth is
its position. -/
structure GoalSystem where
  activeSet : List Entry
  batchesByDepth : List (List Group)
  nMaxEntries : Int
  nMaxDepth : Int
  entriesByTerm : List (Term × List Sentence)
  enGoalSatisfaction : Bool
  rounds : Int

/-- `is_desired`, NarGoalSystem.rs 104-106. -/
def isDesired (e : Entry) : Bool := decide (e.desirability > 1/10000)

/-- `makeGoalSystem`, NarGoalSystem.rs 120-142. -/
def makeGoalSystem (nMaxEntries nMaxDepth : Int) : GoalSystem :=
  { activeSet := [], batchesByDepth := List.replicate nMaxDepth.toNat [], nMaxEntries := nMaxEntries,
    nMaxDepth := nMaxDepth, entriesByTerm := [], enGoalSatisfaction := true, rounds := 15 }

/-- `retEntries`, NarGoalSystem.rs 145-160. -/
def retEntries (g : GoalSystem) : List Entry :=
  g.batchesByDepth.flatMap (fun b => b.flatMap (·.entries)) ++ g.activeSet

/-- `HashMap::get` -/
def lookupSents (m : List (Term × List Sentence)) (t : Term) : Option (List Sentence) :=
  (m.find? (fun p => checkEqTerm p.1 t)).map (·.2)

/-- the duplicate test of `addEntry` and of `checkSetContains`, NarGoalSystem.rs 181-184 and 426-430. -/
def sameGoal (a b : Sentence) : Bool := checkEqTerm a.term b.term && Stamp.checkSame a.stamp b.stamp

/-- `checkSetContains`, NarGoalSystem.rs 423-435. -/
def checkSetContains (set : List Entry) (s : Sentence) : Bool := set.any (fun iv => sameGoal iv.sentence s)

/-- the search for the group of the same term, NarGoalSystem.rs 269-279: `none` if there is no such group.
`entries.len()-1` underflows for an empty group. -/
def joinGroup (e : Entry) : List Group → R (Option (List Group))
  | [] => .ok none
  | iGroup :: gs =>
    if checkEqTerm iGroup.term e.sentence.term then
      match iGroup.entries.getLast? with
      | none => .error .index
      | some last =>
          let newAcc := last.accDesirability + max last.desirability 0
          .ok (some ({ iGroup with entries := iGroup.entries ++ [{ e with accDesirability := newAcc }] } :: gs))
    else do
      let r ← joinGroup e gs
      .ok (r.map (iGroup :: ·))

/-- the update of `entriesByTerm`, NarGoalSystem.rs 288-311. -/
def registerByTerm (s : Sentence) : List (Term × List Sentence) → List (Term × List Sentence)
  | [] => [(s.term, [s])]
  | (k, arr) :: m =>
    if checkEqTerm k s.term then
      if arr.any (fun i => checkEqTerm i.term s.term && Stamp.checkOverlap i.stamp s.stamp) then (k, arr) :: m
      else (k, arr ++ [s]) :: m
    else (k, arr) :: registerByTerm s m

/-- adding to a depth level, NarGoalSystem.rs 257-312; a negative index wraps around and panics. -/
def addToLevel (g : GoalSystem) (e : Entry) : R GoalSystem :=
  let chosenDepthIdx : Int := min e.depth (g.nMaxDepth - 1)
  if chosenDepthIdx < 0 then .error .index
  else do
    let chosenBatch ← indexAt g.batchesByDepth chosenDepthIdx.toNat
    let joined ← joinGroup e chosenBatch
    match joined with
    | some groups => .ok { g with batchesByDepth := g.batchesByDepth.set chosenDepthIdx.toNat groups }
    | none => .ok { g with
        batchesByDepth := g.batchesByDepth.set chosenDepthIdx.toNat
          (chosenBatch ++ [{ term := e.sentence.term, entries := [e] }])
        entriesByTerm := registerByTerm e.sentence g.entriesByTerm }

/-- `addEntry2`, NarGoalSystem.rs 209-314 (the translated question of lines 211-241 is not used). -/
def addEntry2 (g : GoalSystem) (e : Entry) : R GoalSystem :=
  if (decodeOp e.sentence.term).isSome then
    if checkSetContains g.activeSet e.sentence then .ok g
    else .ok { g with activeSet := g.activeSet ++ [e] }
  else addToLevel g e

/-- the new entry built by `addEntry`, NarGoalSystem.rs 204. -/
def newEntry (t : Int) (goal : Sentence) (evidence : Option Nat) (depth : Int) : Entry :=
  { sentence := goal, utility := 1, evidence := evidence, createTime := t, depth := depth,
    desirability := 1, accDesirability := 0 }

/-- the duplicate test by term, NarGoalSystem.rs 172-202. -/
def goalRegistered (g : GoalSystem) (goal : Sentence) : Bool :=
  match lookupSents g.entriesByTerm goal.term with
  | some arr => arr.any (fun iv => sameGoal iv goal)
  | none => false

/-- `addEntry`, NarGoalSystem.rs 163-205. -/
def addEntry (g : GoalSystem) (t : Int) (goal : Sentence) (evidence : Option Nat) (depth : Int) :
    R GoalSystem :=
  if goal.punct ≠ .GOAL then .error .explicit
  else if goalRegistered g goal then .ok g
  else addEntry2 g (newEntry t goal evidence depth)

mutual
/-- `convProcTermToQaTerm`, NarGoalSystem.rs 341-420. -/
def convProcTermToQaTerm : Term → Term
  | QVar n => QVar ("Q_" ++ n)
  | DepVar n => QVar ("D_" ++ n)
  | IndepVar n => QVar ("I_" ++ n)
  | Stmt c s p => Stmt c (convProcTermToQaTerm s) (convProcTermToQaTerm p)
  | Name n => Name n
  | .Seq ts => .Seq (convProcTermToQaTermL ts)
  | SetInt ts => SetInt (convProcTermToQaTermL ts)
  | SetExt ts => SetExt (convProcTermToQaTermL ts)
  | Conj ts => Conj (convProcTermToQaTermL ts)
  | .Prod ts => .Prod (convProcTermToQaTermL ts)
  | Img r i ts => Img (convProcTermToQaTerm r) i (convProcTermToQaTermL ts)
  | IntInt ts => IntInt (convProcTermToQaTermL ts)
  | ExtInt ts => ExtInt (convProcTermToQaTermL ts)
  | Par ts => Par (convProcTermToQaTermL ts)
  | .Neg t => .Neg (convProcTermToQaTerm t)
/-- the collecting loops of NarGoalSystem.rs 352-417. -/
def convProcTermToQaTermL : List Term → List Term
  | [] => []
  | t :: ts => convProcTermToQaTerm t :: convProcTermToQaTermL ts
end

/-! ## forgetting -/

/-- the utility of a goal, NarGoalSystem.rs 450-459; `decay age` stands for `exp(-0.01 * age)`. -/
def recalcUtility (decay : Int → Rat) (t : Int) (e : Entry) : R Entry := do
  let tv ← retTv e.sentence
  let tv ← unwrap tv
  .ok { e with utility := Tv.calcExp tv * Tv.fabs e.desirability * decay (t - e.createTime) }

/-- `limitMemory`, NarGoalSystem.rs 439-483.  A negative capacity makes `arr.remove` panic. -/
def goalLimitMemory (decay : Int → Rat) (g : GoalSystem) (t : Int) : R GoalSystem := do
  let arr := retEntries g ++ g.activeSet
  let arr ← arr.mapM (recalcUtility decay t)
  let sorted := (sortDesc (arr.map (fun e => (e.utility, e)))).map (·.2)
  if g.nMaxEntries < 0 then .error .index
  else
    (sorted.take g.nMaxEntries.toNat).foldlM addEntry2
      { g with batchesByDepth := List.replicate g.nMaxDepth.toNat [], entriesByTerm := [], activeSet := [] }

/-! ## sampling -/

/-- `binSearch`, BinSearch.rs 7-14. -/
def binSearch (arr : List Entry) (val : Rat) : R Entry :=
  match arr with
  | [] => .error .index
  | [e] => .ok e
  | e1 :: e2 :: rest =>
    let arr := e1 :: e2 :: rest
    let idxMid := arr.length / 2
    match arr[idxMid]? with
    | none => .error .index
    | some m => if m.accDesirability > val then binSearch (arr.take idxMid) val else binSearch (arr.drop idxMid) val
termination_by arr.length
decreasing_by
  · simp; omega
  · simp; omega

/-- the batch selection loop of `sample`, NarGoalSystem.rs 511-521. -/
def selBatchLoop (selPriority : Rat) : List (List Group) → Rat → List Group → List Group
  | [], _, sel => sel
  | iv :: bs, sum, sel =>
    if sum ≥ selPriority then sel
    else if iv.length > 0 then selBatchLoop selPriority bs (sum + 1) iv
    else selBatchLoop selPriority bs sum sel

/-- the weight of a group, NarGoalSystem.rs 541-543 and 554-555. -/
def groupWeight (gr : Group) : R Rat :=
  match gr.entries.getLast? with
  | none => .error .index
  | some last => .ok (last.accDesirability + last.desirability)

/-- the group selection loop of `sample`, NarGoalSystem.rs 549-580. -/
def selGroupLoop (sumPriorities selPriority : Rat) : List Group → Rat → R (Option (Sentence × Int))
  | [], _ => .ok none
  | iv :: gs, sum =>
    if sum ≤ sumPriorities then do
      let des2 ← groupWeight iv
      if des2 + sum > selPriority then do
        let e ← binSearch iv.entries selPriority
        .ok (some (e.sentence, e.depth))
      else selGroupLoop sumPriorities selPriority gs (sum + des2)
    else .error .explicit

/-- the batch chosen by `sample`, NarGoalSystem.rs 489-526, for the draw `d` in `[0,1)`. -/
def selBatch (g : GoalSystem) (d : Rat) : R (List Group) := do
  let sumPriorities : Rat := (g.batchesByDepth.map (fun iv => if iv.length > 0 then (1 : Rat) else 0)).sum
  let first ← indexAt g.batchesByDepth 0
  .ok (selBatchLoop (d * sumPriorities) g.batchesByDepth 0 first)

/-- `sample`, NarGoalSystem.rs 487-583, for the draws `d1` and `d2` in `[0,1)`. -/
def goalSample (g : GoalSystem) (d1 d2 : Rat) : R (Option (Sentence × Int)) := do
  let batch ← selBatch g d1
  if batch.length = 0 then .ok none
  else do
    let ws ← batch.mapM groupWeight
    selGroupLoop ws.sum (d2 * ws.sum) batch 0

/-! ## queries -/

/-- a filtering loop whose test may panic -/
def filterR {α} (f : α → R Bool) : List α → R (List α)
  | [] => .ok []
  | a :: l => do
      let b ← f a
      let r ← filterR f l
      .ok (if b then a :: r else r)

/-- the filter of `query_by_antecedent`, NarGoalSystem.rs 602-612 (`seq[0]` panics for an empty sequence). -/
def hasAntecedent (queryTerm : Term) (belief : Sentence) : R Bool :=
  match belief.term with
  | .Stmt .PREDIMPL (.Seq []) _ => .error .index
  | .Stmt .PREDIMPL (.Seq (s0 :: _)) _ => .ok (checkEqTerm queryTerm s0)
  | _ => .ok false

/-- `query_by_antecedent`, NarGoalSystem.rs 594-616. -/
def queryByAntecedent (queryTerm : Term) (m : PMem) : R (List Nat) :=
  filterR (fun r => do
    let b ← indexAt m.heap r
    hasAntecedent queryTerm b) (retBeliefsByTermsNonuniqueP m [queryTerm])

/-- the filter of `query_by_consequence`, NarGoalSystem.rs 627-634. -/
def hasConsequence (queryTerm : Term) (belief : Sentence) : Bool :=
  match belief.term with
  | .Stmt .PREDIMPL _ pred => checkEqTerm queryTerm pred
  | _ => false

/-- `query_by_consequence`, NarGoalSystem.rs 619-638. -/
def queryByConsequence (queryTerm : Term) (m : PMem) : R (List Nat) :=
  filterR (fun r => do
    let b ← indexAt m.heap r
    .ok (hasConsequence queryTerm b)) (retBeliefsByTermsNonuniqueP m [queryTerm])

/-- `retSubSeqAsSeqOrTerm`, NarGoalSystem.rs 642-649. -/
def retSubSeqAsSeqOrTerm (subseq : List Term) : Term :=
  match subseq with
  | [t] => t
  | ts => .Seq ts

/-- one iteration of `selHighestExpGoalByState`, NarGoalSystem.rs 656-676. -/
def selHighestStep (state : Term) (res : Rat × Option (Entry × Term)) (iv : Entry) :
    R (Rat × Option (Entry × Term)) :=
  match iv.sentence.term with
  | .Seq (s0 :: ss) =>
    match unify (retSubSeqAsSeqOrTerm (s0 :: ss).dropLast) state with
    | some asgnmts => do
        let exp ← expOf iv.sentence
        if exp > res.1 then .ok (exp, some (iv, unifySubst asgnmts iv.sentence.term)) else .ok res
    | none => .ok res
  | _ => .ok res

/-- `selHighestExpGoalByState`, NarGoalSystem.rs 653-679. -/
def selHighestExpGoalByState (g : GoalSystem) (state : Term) : R (Rat × Option (Entry × Term)) :=
  (retEntries g).foldlM (selHighestStep state) (0, none)

/-- `query`, NarGoalSystem.rs 847-865. -/
def goalQuery (g : GoalSystem) (eventTerm : Term) : Option Entry :=
  match (retEntries g).find? (fun e => checkEqTerm e.sentence.term eventTerm) with
  | some e => some e
  | none => g.activeSet.find? (fun e => checkEqTerm e.sentence.term eventTerm)

/-! ## satisfaction of goals -/

/-- the loop bodies of `event_occurred`, NarGoalSystem.rs 828-833 and 837-842. -/
def satisfy (enabled : Bool) (eventTerm : Term) (e : Entry) : Entry :=
  if enabled && checkEqTerm e.sentence.term eventTerm then { e with desirability := 0 } else e

/-- `event_occurred`, NarGoalSystem.rs 826-844 (active entries are visited twice). -/
def eventOccurred (g : GoalSystem) (eventTerm : Term) : GoalSystem :=
  let f := satisfy g.enGoalSatisfaction eventTerm
  { g with
    batchesByDepth := g.batchesByDepth.map (fun b => b.map (fun gr => { gr with entries := gr.entries.map f }))
    activeSet := g.activeSet.map (fun e => f (f e)) }

/-! ## derivation of goals -/

/-- `infGoalBelief`, NarInfProcedural.rs 24-61. -/
def infGoalBelief (goal belief : Sentence) : R (Option Sentence) :=
  match belief.term with
  | .Stmt .PREDIMPL subj pred =>
    if !checkEqTerm goal.term pred then .ok none
    else if Stamp.checkOverlap goal.stamp belief.stamp then .ok none
    else do
      let tvCompound ← retTv belief
      let tvCompound ← unwrap tvCompound
      let tvComponent ← retTv goal
      let tvComponent ← unwrap tvComponent
      let tvConcl := Tv.dedGoal tvComponent tvCompound
      let stamp := Stamp.merge goal.stamp belief.stamp
      .ok (some (newEternalSentenceByTv subj .GOAL tvConcl stamp))
  | _ => .ok none

/-- `infGoalDetach`, NarInfProcedural.rs 232-244. -/
def infGoalDetach (premise : Sentence) : R (Option Sentence) :=
  match premise.term with
  | .Seq (s0 :: _) => do
      let tv ← retTv premise
      let tv ← unwrap tv
      .ok (some (newEternalSentenceByTv s0 .GOAL tv premise.stamp))
  | _ => .ok none

/-- `H`, NarGoalSystem.rs 683-687. -/
structure DerivedGoal where
  goal : Sentence
  evidence : Option Nat
  depth : Int
  deriving Repr

/-- combine the goal with the belief in the cell `r`, NarGoalSystem.rs 718-721 and 728-731. -/
def deriveWith (m : PMem) (goal : Sentence) (depth : Int) (r : Nat) : R (List DerivedGoal) := do
  let b ← indexAt m.heap r
  let conclOpt ← infGoalBelief goal b
  match conclOpt with
  | some c => .ok [{ goal := c, evidence := some r, depth := depth + 1 }]
  | none => .ok []

/-- `EnumGoalDerivationStrategy`, NarGoalSystem.rs 690-696. -/
inductive Strategy
  | ALL_BELIEFS
  | SAMPLE_2
  deriving DecidableEq, Repr

/-- one round of the loop at NarGoalSystem.rs 725-733. -/
def sampleBelief (m : PMem) (goal : Sentence) (depth : Int) (cands : List Nat) (rng : List Nat) :
    R (List DerivedGoal × List Nat) :=
  if cands.length > 0 then do
    let (idx, rng) ← genRange rng cands.length
    let r ← indexAt cands idx
    let c ← deriveWith m goal depth r
    .ok (c, rng)
  else .ok ([], rng)

/-- `deriveGoalsHelper`, NarGoalSystem.rs 700-741. -/
def deriveGoalsHelper (m : PMem) (goal : Sentence) (depth : Int) (strategy : Strategy) (rng : List Nat) :
    R (List DerivedGoal × List Nat) := do
  let detached ← infGoalDetach goal
  match detached with
  | some c => .ok ([{ goal := c, evidence := none, depth := depth + 1 }], rng)
  | none => do
      let cands ← queryByConsequence goal.term m
      match strategy with
      | .ALL_BELIEFS => do
          let cs ← cands.mapM (deriveWith m goal depth)
          .ok (cs.flatten, rng)
      | .SAMPLE_2 => do
          let (c1, rng) ← sampleBelief m goal depth cands rng
          let (c2, rng) ← sampleBelief m goal depth cands rng
          .ok (c1 ++ c2, rng)

/-- the sub working cycle of `sampleAndInference`, NarGoalSystem.rs 780-797. -/
def subWorkingCycle (m : PMem) : Nat → List (Sentence × Int) → List Nat → R (List DerivedGoal × List Nat)
  | 0, _, rng => .ok ([], rng)
  | n + 1, workingSet, rng =>
    if workingSet.length = 0 then .ok ([], rng)
    else do
      let (selIdx, rng) ← genRange rng workingSet.length
      let e ← indexAt workingSet selIdx
      let (cs, rng) ← deriveGoalsHelper m e.1 e.2 .SAMPLE_2 rng
      let (rest, rng) ← subWorkingCycle m n
        (swapRemove workingSet selIdx ++ cs.map (fun c => (c.goal, c.depth))) rng
      .ok (cs ++ rest, rng)

/-- `sampleAndInference`, NarGoalSystem.rs 745-823. -/
def sampleAndInference (g : GoalSystem) (t : Int) (m : PMem) (d1 d2 : Rat) (rng : List Nat) : R GoalSystem := do
  let sampled ← goalSample g d1 d2
  match sampled with
  | none => .ok g
  | some (goal, depth) => do
      let (cs1, rng) ← subWorkingCycle m g.rounds.toNat [(goal, depth)] rng
      let (cs2, _) ← deriveGoalsHelper m goal depth .ALL_BELIEFS rng
      (cs1 ++ cs2).foldlM (fun g c => addEntry g t c.goal c.evidence c.depth) g

end Nar
