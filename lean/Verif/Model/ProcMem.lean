import Verif.Model.Mem
/-!
# Procedural memory  (models /repo/src/NarMem.rs as used for temporal rules)

In procedural memory the beliefs are changed in place through `Arc<RwLock<Sentence>>` (revision by the
storage worker, negative confirmation of anticipations), and goals and anticipations keep references to
them.  Therefore the beliefs live in a heap of cells and the tables hold references to the cells.
Every table of every concept has its own copy of a belief (NarMem.rs 71, 98, 125-126).  Forgotten cells
stay in the heap: they may still be referenced by a goal or an anticipation.
-/
namespace Nar
open Term

/-- `Concept`, NarMem.rs 23-34, with references to cells. -/
structure PConcept where
  name : Term
  byExp : List Nat
  byUsage : List Nat
  deriving Repr

/-- `Mem`, NarMem.rs 38-41, with the heap of belief cells. -/
structure PMem where
  heap : List Sentence
  concepts : List PConcept

/-- `make`, NarMem.rs 43-45. -/
def PMem.empty : PMem := { heap := [], concepts := [] }

/-- `HashMap::get` -/
def PMem.get (m : PMem) (t : Term) : Option PConcept := m.concepts.find? (fun c => checkEqTerm c.name t)

/-- writing through `HashMap::get_mut` -/
def PMem.setC (cs : List PConcept) (c' : PConcept) : List PConcept :=
  cs.map (fun c => if checkEqTerm c.name c'.name then c' else c)

/-- adding to one belief table, NarMem.rs 60-85 (by exp) and 87-113 (by usage): a new cell with a copy. -/
def storeTableP (key : Sentence → R Rat) (heap : List Sentence) (table : List Nat) (s : Sentence)
    (nBeliefs : Nat) : R (List Sentence × List Nat) := do
  let cells ← table.mapM (indexAt heap)
  if dependentBelief cells s then .ok (heap, table)
  else do
    let heap' := heap ++ [shallowCopySentence s]
    let temp ← keyed (fun r => do let c ← indexAt heap' r; key c) (table ++ [heap.length])
    let table' := (sortDesc temp).map (·.2)
    .ok (heap', table'.take (min table'.length nBeliefs))

/-- one iteration of the loop of `storeInConcepts2`, NarMem.rs 56-135. -/
def storeAtP (s : Sentence) (nBeliefs : Nat) (currentTime : Int) (m : PMem) (iTerm : Term) : R PMem :=
  match m.get iTerm with
  | some concept => do
      let (h1, e) ← storeTableP expOf m.heap concept.byExp s nBeliefs
      let (h2, u) ← storeTableP (usefulOf currentTime) h1 concept.byUsage s nBeliefs
      .ok { heap := h2, concepts := PMem.setC m.concepts { concept with byExp := e, byUsage := u } }
  | none =>
      .ok { heap := m.heap ++ [shallowCopySentence s, shallowCopySentence s]
            concepts := m.concepts ++ [{ name := iTerm, byExp := [m.heap.length], byUsage := [m.heap.length + 1] }] }

/-- `storeInConcepts2`, NarMem.rs 52-136. -/
def storeInConcepts2P (m : PMem) (s : Sentence) (subterms : List Term) (nBeliefs : Nat)
    (currentTime : Int) : R PMem :=
  if s.punct ≠ .JUGEMENT then .ok m
  else subterms.foldlM (storeAtP s nBeliefs currentTime) m

/-- the rating loop of `limitMemory`, NarMem.rs 170-180. -/
def ratingOfP (heap : List Sentence) (c : PConcept) : R Rat :=
  c.byExp.foldlM (fun rating r => do let b ← indexAt heap r; let e ← expOf b; .ok (max rating e)) 0

/-- `limitMemory`, NarMem.rs 140-197 (the debug counting is not modelled). -/
def limitMemoryP (m : PMem) (nConcepts : Nat) : R PMem :=
  if m.concepts.length ≤ nConcepts then .ok m
  else do
    let concepts ← keyed (ratingOfP m.heap) m.concepts
    let sorted := sortDesc concepts
    .ok { m with concepts := (sorted.take (min sorted.length nConcepts)).map (·.2) }

/-- `ret_beliefs_of_concept`, NarMem.rs 202-213. -/
def retBeliefsOfConceptP (m : PMem) (selTerm : Term) : Option (List Nat) :=
  (m.get selTerm).map (fun c => c.byExp ++ c.byUsage)

/-- `ret_beliefs_by_terms_nonunique`, NarMem.rs 216-235. -/
def retBeliefsByTermsNonuniqueP (m : PMem) (terms : List Term) : List Nat :=
  terms.flatMap (fun iTerm => (retSubterms iTerm).flatMap (fun isub => (retBeliefsOfConceptP m isub).getD []))

end Nar
