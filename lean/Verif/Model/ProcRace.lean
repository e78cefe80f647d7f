import Verif.Model.Proc
/-!
# The storage worker in single locked sections  (models /repo/src/NarProc.rs 382-440 and 468-491)

`Model/Proc` treats the work on one message of the storage worker as one step.  The program takes several locks: the worker holds a
reading guard of the memory while it visits the rules, each of which it locks on its own for writing (lines 400-402); it then stores
the observation under one writing guard (line 490), and each version with variables under one more (lines 473-476).  Meanwhile the
main thread may write to single rules (negative confirmation, line 564), and, unless the worker holds its reading guard, to the memory:
forgetting (line 994) and storing told rules (line 490).

Each locked section is one action here.  Reading the expectations of the rules while a table is sorted (NarMem.rs 76-83) is taken
as part of the section which stores.  `parking_lot` locks are released by a panic and are not poisoned.
-/
namespace Nar
open Term

/-- where the storage worker is -/
inductive StorePhase
  /-- it waits for a message, NarProc.rs 386 -/
  | waiting
  /-- it holds the reading guard and still has to visit the rules `todo`; `add`: nothing was revised so far, NarProc.rs 396-434 -/
  | visiting (s : Sentence) (time : Int) (todo : List Nat) (add : Bool)
  /-- it is going to store the observation, NarProc.rs 436-469 -/
  | adding (s : Sentence) (time : Int)
  /-- it is going to store the versions with variables, NarProc.rs 474-476 -/
  | versions (todo : List Sentence) (time : Int)
  /-- its thread ended by a panic -/
  | dead

/-- the shared memory, the messages to the worker, and where the worker is -/
structure StoreRace where
  mem : PMem
  queue : List (Sentence × Int)
  phase : StorePhase

/-- the worker holds its reading guard of the memory, NarProc.rs 400 -/
def StoreRace.guarded (x : StoreRace) : Bool :=
  match x.phase with
  | .visiting .. => true
  | _ => false

/-- the next locked section of the storage worker, NarProc.rs 385-439; `rng` are the draws for variable names. -/
def StoreRace.workerAct (nBeliefs : Nat) (rng : List Nat) (x : StoreRace) : StoreRace :=
  match x.phase with
  | .dead => x
  | .waiting =>
    match x.queue with
    | [] => x
    | (s, time) :: rest =>
      match condAndPred s.term with
      | .error _ => { x with queue := rest, phase := .dead }
      | .ok (cond, pred) =>
        { x with queue := rest, phase := .visiting s time (retBeliefsByTermsNonuniqueP x.mem [cond, pred]) true }
  | .visiting s time [] add => { x with phase := if add then .adding s time else .waiting }
  | .visiting s time (r :: todo) add =>
    match workerVisit s (x.mem.heap, add) r with
    | .ok (heap, add) => { x with mem := { x.mem with heap := heap }, phase := .visiting s time todo add }
    | .error _ => { x with phase := .dead }
  | .adding s time =>
    match memAddEvidenceInternal x.mem s nBeliefs time with
    | .error _ => { x with phase := .dead }
    | .ok m =>
      match matchandintroVar1Sentence s rng with
      | .error _ => { x with mem := m, phase := .dead }
      | .ok (withVars, _) => { x with mem := m, phase := .versions withVars time }
  | .versions [] _ => { x with phase := .waiting }
  | .versions (v :: todo) time =>
    match memAddEvidenceInternal x.mem v nBeliefs time with
    | .error _ => { x with phase := .dead }
    | .ok m => { x with mem := m, phase := .versions todo time }

/-- sending a message to the worker, NarProc.rs 282; panics if the worker is gone -/
def StoreRace.send (x : StoreRace) (s : Sentence) (time : Int) : R StoreRace :=
  match x.phase with
  | .dead => .error .unwrapNone
  | _ => .ok { x with queue := x.queue ++ [(s, time)] }

/-- the main thread adds negative evidence to a rule, NarProc.rs 564-586 -/
def StoreRace.disappoint (x : StoreRace) (r : Nat) : R StoreRace := do
  let heap ← negConfirm x.mem.heap ⟨r, 0⟩
  .ok { x with mem := { x.mem with heap := heap } }

/-- the main thread stores a told rule or a version of it, NarProc.rs 490; it has to wait while the worker reads -/
def StoreRace.store (x : StoreRace) (s : Sentence) (nBeliefs : Nat) (time : Int) : R StoreRace :=
  if x.guarded then .ok x
  else do
    let m ← memAddEvidenceInternal x.mem s nBeliefs time
    .ok { x with mem := m }

/-- the main thread forgets concepts, NarProc.rs 994; it has to wait while the worker reads -/
def StoreRace.forget (x : StoreRace) (nConcepts : Nat) : R StoreRace :=
  if x.guarded then .ok x
  else do
    let m ← limitMemoryP x.mem nConcepts
    .ok { x with mem := m }

end Nar
