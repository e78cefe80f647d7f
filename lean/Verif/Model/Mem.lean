import Verif.Model.Sentence
/-!
# Concept memory  (models /repo/src/NarMem.rs and `memReviseBelief` of NarWorkingCycle.rs)

`HashMap<Term, Arc<Concept>>` is modelled by the list of its concepts; the key of a concept is always
its `name`, and the property theorems show that names stay distinct.  The list order stands for the
unspecified iteration order.  `Arc::get_mut` always succeeds in the modelled single-owner situation
(the "INTERNAL ERROR" branches are not modelled).
-/
namespace Nar
open Term

/-- `Concept` with its `Payload`, NarMem.rs 23-34. -/
structure Concept where
  name : Term
  /-- beliefs ordered by exp() -/
  beliefsByExp : List Sentence
  /-- beliefs ordered only by usage as in ONA -/
  beliefsByUsage : List Sentence
  deriving Repr

/-- `Mem`, NarMem.rs 38-41. -/
abbrev Mem := List Concept

/-- `HashMap::get` -/
def Mem.get (m : Mem) (t : Term) : Option Concept := m.find? (fun c => checkEqTerm c.name t)

/-- writing through `HashMap::get_mut` -/
def Mem.set (m : Mem) (c' : Concept) : Mem := m.map (fun c => if checkEqTerm c.name c'.name then c' else c)

/-- expectation of a belief as computed at NarMem.rs 76 and 177: `calcExp(&retTv(..).unwrap())`. -/
def expOf (s : Sentence) : R Rat := do
  let tv ← retTv s
  let tv ← unwrap tv
  .ok (Tv.calcExp tv)

/-- usefulness of a belief as computed at NarMem.rs 104. -/
def usefulOf (currentTime : Int) (s : Sentence) : R Rat := .ok (calcUsageUsefulness s.usage currentTime)

/-- the "exists" scan, NarMem.rs 62-69 and 89-96. -/
def dependentBelief (table : List Sentence) (s : Sentence) : Bool :=
  table.any (fun b => checkEqTerm b.term s.term && Stamp.checkOverlap b.stamp s.stamp)

/-- insert before the first element which is not larger -/
def insertDesc {α} (a : Rat × α) : List (Rat × α) → List (Rat × α)
  | [] => [a]
  | b :: l => if b.1 ≤ a.1 then a :: b :: l else b :: insertDesc a l

/-- `sort_by(|a, b| b.0.partial_cmp(&a.0).unwrap())`: the stable sort, descending by the first component
(any stable sort computes the same list; insertion sort is used because it reduces in the kernel). -/
def sortDesc {α} : List (Rat × α) → List (Rat × α)
  | [] => []
  | a :: l => insertDesc a (sortDesc l)

/-- compute the key for every element -/
def keyed {α} (key : α → R Rat) (l : List α) : R (List (Rat × α)) :=
  l.mapM (fun x => do let k ← key x; .ok (k, x))

/-- adding to one belief table, NarMem.rs 60-85 (by exp) and 87-113 (by usage). -/
def storeTable (key : Sentence → R Rat) (table : List Sentence) (s : Sentence) (nBeliefs : Nat) :
    R (List Sentence) :=
  if dependentBelief table s then .ok table
  else do
    let temp ← keyed key (table ++ [shallowCopySentence s])
    let table' := (sortDesc temp).map (·.2)
    .ok (table'.take (min table'.length nBeliefs))

/-- one iteration of the loop of `storeInConcepts2`, NarMem.rs 56-135. -/
def storeAt (s : Sentence) (nBeliefs : Nat) (currentTime : Int) (m : Mem) (iTerm : Term) : R Mem :=
  match m.get iTerm with
  | some concept => do
      let e ← storeTable expOf concept.beliefsByExp s nBeliefs
      let u ← storeTable (usefulOf currentTime) concept.beliefsByUsage s nBeliefs
      .ok (m.set { concept with beliefsByExp := e, beliefsByUsage := u })
  | none => .ok (m ++ [{ name := iTerm, beliefsByExp := [shallowCopySentence s],
                         beliefsByUsage := [shallowCopySentence s] }])

/-- `storeInConcepts2`, NarMem.rs 52-136. -/
def storeInConcepts2 (m : Mem) (s : Sentence) (subterms : List Term) (nBeliefs : Nat)
    (currentTime : Int) : R Mem :=
  if s.punct ≠ .JUGEMENT then .ok m
  else subterms.foldlM (storeAt s nBeliefs currentTime) m

/-- `storeInConcepts`, NarMem.rs 47-49. -/
def storeInConcepts (m : Mem) (s : Sentence) (nBeliefs : Nat) (currentTime : Int) : R Mem :=
  storeInConcepts2 m s (retSubterms s.term) nBeliefs currentTime

/-- the rating loop of `limitMemory`, NarMem.rs 170-180. -/
def ratingOf (c : Concept) : R Rat :=
  c.beliefsByExp.foldlM (fun rating b => do let e ← expOf b; .ok (max rating e)) 0

/-- `limitMemory`, NarMem.rs 140-197 (the debug counting is not modelled). -/
def limitMemory (m : Mem) (nConcepts : Nat) : R Mem :=
  if m.length ≤ nConcepts then .ok m
  else do
    let concepts ← keyed ratingOf m
    let sorted := sortDesc concepts
    .ok ((sorted.take (min sorted.length nConcepts)).map (·.2))

/-- `ret_beliefs_of_concept`, NarMem.rs 202-213. -/
def retBeliefsOfConcept (m : Mem) (selTerm : Term) : Option (List Sentence) :=
  (m.get selTerm).map (fun c => c.beliefsByExp ++ c.beliefsByUsage)

/-- `ret_beliefs_by_terms_nonunique`, NarMem.rs 216-235. -/
def retBeliefsByTermsNonunique (m : Mem) (terms : List Term) : List Sentence :=
  terms.flatMap (fun iTerm => (retSubterms iTerm).flatMap (fun isub => (retBeliefsOfConcept m isub).getD []))

/-- the revision conclusion built from a belief and the new sentence, NarWorkingCycle.rs 1445-1459
(identical at 1484-1498).  A confidence of exactly 1 makes the result NaN.  `cell` is the name of its cell of counters. -/
def revisedBelief (cell : List Int) (belief sentence : Sentence) : R Sentence := do
  let stamp := Stamp.merge belief.stamp sentence.stamp
  let tvA ← retTv belief
  let tvA ← unwrap tvA
  let tvB ← retTv sentence
  let tvB ← unwrap tvB
  match Tv.rev tvA tvB with
  | none => .error .nan
  | some tv =>
    .ok { term := belief.term, t := belief.t, punct := belief.punct, stamp := stamp,
          expDt := belief.expDt, evi := some (.TV tv), usage := ⟨0, 0, cell⟩ }

/-- revision in one belief table, NarWorkingCycle.rs 1437-1474 and 1476-1513: the first belief about
the same statement with independent evidence is removed and the pooled belief is appended. -/
def reviseTable (cell : List Int) (table : List Sentence) (sentence : Sentence) : R (List Sentence × Option Sentence) :=
  match table.findIdx? (fun b => checkEqTerm b.term sentence.term &&
      !Stamp.checkOverlap b.stamp sentence.stamp) with
  | none => .ok (table, none)
  | some i => do
      let belief ← indexAt table i
      let additional ← revisedBelief cell belief sentence
      .ok (table.eraseIdx i ++ [additional], some additional)

/-- the name of the next new cell of counters: one level above the cell of the last pooled belief, or of the sentence -/
def nextCell (sentence : Sentence) (res : Option Sentence) : List Int := 0 :: (res.getD sentence).usage.cell

/-- one iteration of the loop of `memReviseBelief`, NarWorkingCycle.rs 1432-1523; the second component
is the variable `res` (the by-usage table overwrites the by-exp result). -/
def reviseAt (sentence : Sentence) (st : Mem × Option Sentence) (iTerm : Term) :
    R (Mem × Option Sentence) :=
  match st.1.get iTerm with
  | some concept => do
      let (e, r1) ← reviseTable (nextCell sentence st.2) concept.beliefsByExp sentence
      let (u, r2) ← reviseTable (nextCell sentence (r1.or st.2)) concept.beliefsByUsage sentence
      .ok (st.1.set { concept with beliefsByExp := e, beliefsByUsage := u }, r2.or (r1.or st.2))
  | none => .ok st

/-- `memReviseBelief`, NarWorkingCycle.rs 1419-1528. -/
def memReviseBelief (m : Mem) (sentence : Sentence) : R (Mem × Option Sentence) :=
  if sentence.punct ≠ .JUGEMENT then .ok (m, none)
  else (retSubterms sentence.term).foldlM (reviseAt sentence) (m, none)

/-- the memory part of `memAddTask`, NarWorkingCycle.rs 1538-1552: revise, and store only if nothing
was revised. -/
def addBelief (m : Mem) (sentence : Sentence) (nBeliefs : Nat) (currentTime : Int) :
    R (Mem × Option Sentence) := do
  let (m1, revisionConcl) ← memReviseBelief m sentence
  match revisionConcl with
  | some r => .ok (m1, some r)
  | none => do
      let m2 ← storeInConcepts m1 sentence nBeliefs currentTime
      .ok (m2, none)

/-! ## shared counters of use -/

/-- writing the counters of a sentence through a cell which it may share -/
def Sentence.useCell (cell : List Int) (currentTime : Int) (s : Sentence) : Sentence :=
  if s.usage.cell = cell then { s with usage := usageUpdate s.usage currentTime } else s

/-- writing the counters of the beliefs of a memory through a cell -/
def Mem.useCell (cell : List Int) (currentTime : Int) (m : Mem) : Mem :=
  m.map (fun c => { c with
    beliefsByExp := c.beliefsByExp.map (Sentence.useCell cell currentTime)
    beliefsByUsage := c.beliefsByUsage.map (Sentence.useCell cell currentTime) })

end Nar
