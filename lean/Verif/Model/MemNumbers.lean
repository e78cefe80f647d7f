import Verif.Model.Term
import Verif.Model.Stamp
import Verif.Model.Basic
/-!
# Memory with all numbers of `f64` (models /repo/src/Tv.rs, NarMem.rs, NarWorkingCycle.rs)

Elsewhere in the model truth values are rational numbers, and a result which is no number is an error.  A program with `f64` goes on
with infinity and with values which are not a number, and reads both (`inf`, `nan`) as parts of a truth value.  Here the way of a told
statement into memory is modelled with such values.  Simplifications: no rounding; a zero is the positive zero (no divisor of these
functions can be the negative one: each is a difference or sum which is zero by cancellation, or is tested to be positive); there is
no thinking in between, so no belief has been used and all usefulness is equal; tasks are left out, they hold no numbers made from
truth values.
-/
namespace Nar
open Term

/-- a number of `f64`; `inf true` is the negative infinity -/
inductive Fl
  | nan
  | inf (neg : Bool)
  | fin (q : Rat)
  deriving DecidableEq, Repr

namespace Fl

/-- addition -/
def add : Fl → Fl → Fl
  | .nan, _ => .nan
  | _, .nan => .nan
  | .inf a, .inf b => if a = b then .inf a else .nan
  | .inf a, .fin _ => .inf a
  | .fin _, .inf b => .inf b
  | .fin x, .fin y => .fin (x + y)

/-- the number with the other sign -/
def neg : Fl → Fl
  | .nan => .nan
  | .inf a => .inf (!a)
  | .fin x => .fin (-x)

/-- subtraction -/
def sub (x y : Fl) : Fl := add x (neg y)

/-- an infinity times a finite number -/
def infMul (a : Bool) (y : Rat) : Fl := if y = 0 then .nan else .inf (a != decide (y < 0))

/-- multiplication -/
def mul : Fl → Fl → Fl
  | .nan, _ => .nan
  | _, .nan => .nan
  | .inf a, .inf b => .inf (a != b)
  | .inf a, .fin y => infMul a y
  | .fin x, .inf b => infMul b x
  | .fin x, .fin y => .fin (x * y)

/-- division; the divisor zero is the positive zero -/
def div : Fl → Fl → Fl
  | .nan, _ => .nan
  | _, .nan => .nan
  | .inf _, .inf _ => .nan
  | .inf a, .fin y => .inf (a != decide (y < 0))
  | .fin _, .inf _ => .fin 0
  | .fin x, .fin y => if y = 0 then (if x = 0 then .nan else .inf (decide (x < 0))) else .fin (x / y)

/-- the comparison `x > 0.0`, which is false for what is not a number -/
def pos : Fl → Bool
  | .nan => false
  | .inf a => !a
  | .fin x => decide (0 < x)

/-- is it a value which is not a number? -/
def isNan : Fl → Bool
  | .nan => true
  | _ => false

/-- the comparison `x <= y`, which is false for what is not a number -/
def le : Fl → Fl → Bool
  | .nan, _ => false
  | _, .nan => false
  | .inf true, _ => true
  | _, .inf false => true
  | .fin x, .fin y => decide (x ≤ y)
  | .inf false, .fin _ => false
  | .fin _, .inf true => false
  | .inf false, .inf true => false

end Fl

/-- `Tv`, Tv.rs 1-5 -/
structure TvF where
  f : Fl
  c : Fl
  deriving DecidableEq, Repr

/-- `calcExp`, Tv.rs 7-9 -/
def calcExpF (tv : TvF) : Fl := (tv.c.mul (tv.f.sub (.fin (1/2)))).add (.fin (1/2))

/-- `w2c`, Tv.rs 66-69 -/
def w2cF (w : Fl) : Fl := w.div (w.add (.fin 1))

/-- `c2w`, Tv.rs 71-74 -/
def c2wF (c : Fl) : Fl := (Fl.mul (.fin 1) c).div (Fl.sub (.fin 1) c)

/-- `rev`, Tv.rs 38-48 -/
def revF (a b : TvF) : TvF :=
  let w1 := c2wF a.c
  let w2 := c2wF b.c
  let w := w1.add w2
  let f := if w.pos then ((w1.mul a.f).add (w2.mul b.f)).div w else .fin 0
  ⟨f, w2cF w⟩

/-- a belief: an eternal judgement -/
structure FSent where
  term : Term
  stamp : Stamp
  tv : TvF
  deriving Repr

/-- `Concept` with its `Payload`, NarMem.rs 23-34, without the name -/
structure FConcept where
  byExp : List FSent
  byUsage : List FSent
  deriving Repr

/-- `Mem`, NarMem.rs 38-41, as a function of the name of a concept -/
abbrev FMem := Term → Option FConcept

/-- writing to a map -/
def FMem.set (m : FMem) (x : Term) (c : FConcept) : FMem := fun y => if checkEqTerm y x then some c else m y

/-- the "exists" scan, NarMem.rs 62-69 and 89-96 -/
def dependentF (table : List FSent) (s : FSent) : Bool :=
  table.any (fun b => checkEqTerm b.term s.term && Stamp.checkOverlap b.stamp s.stamp)

/-- insert before the first element which is not larger -/
def insertF (a : FSent) : List FSent → List FSent
  | [] => [a]
  | b :: l => if (calcExpF b.tv).le (calcExpF a.tv) then a :: b :: l else b :: insertF a l

/-- the sorted list -/
def sortedF : List FSent → List FSent
  | [] => []
  | a :: l => insertF a (sortedF l)

/-- `temp.sort_by(|a, b| b.0.partial_cmp(&a.0).unwrap())`, NarMem.rs 74-80: two elements or more are all compared, each at least
once, and comparing something which is not a number panics -/
def sortF (l : List FSent) : R (List FSent) :=
  if 2 ≤ l.length ∧ l.any (fun b => (calcExpF b.tv).isNan) then .error .unwrapNone else .ok (sortedF l)

/-- adding to the table by expectation, NarMem.rs 60-85 -/
def storeExpF (table : List FSent) (s : FSent) (nBeliefs : Nat) : R (List FSent) :=
  if dependentF table s then .ok table
  else do
    let table' ← sortF (table ++ [s])
    .ok (table'.take (min table'.length nBeliefs))

/-- adding to the table by usage, NarMem.rs 87-113; all usefulness is zero, and the sort is stable -/
def storeUsageF (table : List FSent) (s : FSent) (nBeliefs : Nat) : List FSent :=
  if dependentF table s then table else (table ++ [s]).take (min (table ++ [s]).length nBeliefs)

/-- one iteration of the loop of `storeInConcepts2`, NarMem.rs 56-135 -/
def storeAtF (s : FSent) (nBeliefs : Nat) (m : FMem) (iTerm : Term) : R FMem :=
  match m iTerm with
  | some c => do
    let e ← storeExpF c.byExp s nBeliefs
    .ok (m.set iTerm ⟨e, storeUsageF c.byUsage s nBeliefs⟩)
  | none => .ok (m.set iTerm ⟨[s], [s]⟩)

/-- `storeInConcepts`, NarMem.rs 47-49 -/
def storeF (s : FSent) (nBeliefs : Nat) (m : FMem) : R FMem := (retSubterms s.term).foldlM (storeAtF s nBeliefs) m

/-- revision in one table, NarWorkingCycle.rs 1437-1474 and 1476-1513; the flag says that something was revised -/
def reviseTableF (table : List FSent) (s : FSent) : List FSent × Bool :=
  match table.findIdx? (fun b => checkEqTerm b.term s.term && !Stamp.checkOverlap b.stamp s.stamp) with
  | none => (table, false)
  | some i =>
    match table[i]? with
    | none => (table, false)
    | some b => (table.eraseIdx i ++ [⟨b.term, Stamp.merge b.stamp s.stamp, revF b.tv s.tv⟩], true)

/-- one iteration of the loop of `memReviseBelief`, NarWorkingCycle.rs 1432-1523 -/
def reviseAtF (s : FSent) (st : FMem × Bool) (iTerm : Term) : FMem × Bool :=
  match st.1 iTerm with
  | some c =>
    (st.1.set iTerm ⟨(reviseTableF c.byExp s).1, (reviseTableF c.byUsage s).1⟩,
      st.2 || (reviseTableF c.byExp s).2 || (reviseTableF c.byUsage s).2)
  | none => st

/-- `memReviseBelief`, NarWorkingCycle.rs 1419-1528 -/
def reviseF (s : FSent) (m : FMem) : FMem × Bool := (retSubterms s.term).foldl (reviseAtF s) (m, false)

/-- the statement of one input in memory: `memAddTask`, NarWorkingCycle.rs 1531-1552, for a statement with the next number as its
evidence, as `inputT2`, Nar.rs 62-118, makes it; complexity limit and size of tables as in Nar.rs 45-46 -/
def tellF (st : FMem × Int) (x : Term × TvF) : R (FMem × Int) :=
  if 64 < calcComplexity x.1 then .ok (st.1, st.2 + 1)
  else if (reviseF ⟨x.1, ⟨[st.2]⟩, x.2⟩ st.1).2 then .ok ((reviseF ⟨x.1, ⟨[st.2]⟩, x.2⟩ st.1).1, st.2 + 1)
  else do
    let m ← storeF ⟨x.1, ⟨[st.2]⟩, x.2⟩ 20 (reviseF ⟨x.1, ⟨[st.2]⟩, x.2⟩ st.1).1
    .ok (m, st.2 + 1)

/-- statements told one after the other to a reasoner with an empty memory -/
def tellAllF (xs : List (Term × TvF)) : R (FMem × Int) := xs.foldlM tellF (fun _ => none, 0)

/-! ## the priorities of tasks -/

/-- `divCreditByComplexity`, NarWorkingCycle.rs 1615-1618, for a task with the given credit and credit from questions -/
def divCreditF (complexity : Nat) (credit qaCredit : Fl) : Fl × Fl := (credit.div (.fin complexity), qaCredit.div (.fin complexity))

/-- `taskCalcCredit`, NarWorkingCycle.rs 993-1001; `decay` is the value of the exponential function -/
def creditF (decay mulCredit : Rat) (cr : Fl × Fl) : Fl := (((cr.2.mul (.fin (1/5))).add cr.1).mul (.fin decay)).mul (.fin mulCredit)

/-- the priority of a statement just added, NarWorkingCycle.rs 1569-1585 with `calcCredit` -/
def newCreditF (t : Term) (decay mulCredit : Rat) : Fl := creditF decay mulCredit (divCreditF (calcComplexity t) (.fin 1) (.fin 0))

/-- the loop of `taskSelByCreditRandom`, NarWorkingCycle.rs 1312-1320 -/
def selLoopF : List Fl → Fl → Fl → Nat → Option Nat
  | [], _, _, _ => none
  | w :: ws, goal, acc, idx => if goal.le (acc.add w) then some idx else selLoopF ws goal (acc.add w) (idx + 1)

/-- `taskSelByCreditRandom`, NarWorkingCycle.rs 1310-1323, for the priorities of the tasks; the chosen index -/
def selF (selVal : Rat) (ws : List Fl) : R Nat :=
  match selLoopF ws ((Fl.fin selVal).mul (ws.foldl Fl.add (.fin 0))) (.fin 0) 0 with
  | some i => .ok i
  | none => if ws.length = 0 then .error .index else .ok (ws.length - 1)

/-- insert before the first element which is not larger -/
def insertCreditF (a : Fl) : List Fl → List Fl
  | [] => [a]
  | b :: l => if b.le a then a :: b :: l else b :: insertCreditF a l

/-- keeping the tasks within limits every 111 cycles, NarWorkingCycle.rs 1921-1929, for the priorities of the tasks: the sort compares
each with some other if there are two or more, and comparing something which is not a number panics -/
def trimF (ws : List Fl) : R (List Fl) :=
  if 2 ≤ ws.length ∧ ws.any Fl.isNan then .error .unwrapNone
  else .ok (((ws.foldr insertCreditF []).take (min 30 ws.length)).filter (fun w => !w.le (.fin (1/1000)) && !w.isNan))

/-! ## the usefulness of goals -/

/-- the usefulness of a goal, NarGoalSystem.rs 455-458; `decay` is the value of the exponential function, `desirability` is counted
without its sign -/
def goalUtilityF (tv : TvF) (desirability decay : Rat) : Fl :=
  ((calcExpF tv).mul (.fin (if desirability < 0 then -desirability else desirability))).mul (.fin decay)

/-- sorting and limiting the goals, NarGoalSystem.rs 461-467, for their usefulness and with the given capacity -/
def limitGoalsF (capacity : Nat) (us : List Fl) : R (List Fl) :=
  if 2 ≤ us.length ∧ us.any Fl.isNan then .error .unwrapNone
  else .ok ((us.foldr insertCreditF []).take capacity)

end Nar
