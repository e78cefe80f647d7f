import Verif.Model.Proc
/-!
# Library of operators  (models /repo/src/OpLib.rs)

What an operator does depends only on its arguments and on the registered operators, so a call is
modelled by the list of its effects.  The two library operators are the ones which do not babble
(lines 81 and 154); their names are fixed (lines 39 and 90).  Printing is modelled only as far as
it can panic.
-/
namespace Nar
open Term

/-- what a call of an operator does -/
inductive OpEffect
  /-- an event is reported to the perception, OpLib.rs 79 -/
  | inject (event : Term)
  /-- a relation is added to the declarative knowledge, OpLib.rs 134-152 -/
  | relate (rel : Term)

/-- the rewriting of "and", OpLib.rs 110-118 -/
def rewriteRight : Term → Term
  | .Seq [a, b, c] => if checkEqTerm b (.Name "and") then .ExtInt [a, c] else .Seq [a, b, c]
  | t => t

/-- the rewriting of a relation, OpLib.rs 105-131; `arr[1]` panics for short products and
elements after the second are dropped -/
def rewriteRel : Term → R Term
  | .Stmt .INH (.Prod (a :: b :: _)) pred => .ok (.Stmt .INH (.Prod [a, rewriteRight b]) pred)
  | .Stmt .INH (.Prod _) _ => .error .index
  | t => .ok t

/-- printing of a term -/
def printed (t : Term) : R Unit :=
  match t.convTermToStr with
  | some _ => .ok ()
  | none => .error .index

/-- `Op__nlp_rel_0::call`, OpLib.rs 93-153 -/
def nlpRel0 (args : List Term) : R (List OpEffect) :=
  match args with
  | [_, rel] => do
    let r ← rewriteRel rel
    let _ ← printed rel
    let _ ← printed r
    .ok [.relate r]
  | _ => .ok []

/-- one operation of the sequence of `Op_nal9__exec_and_inject`, OpLib.rs 66-76; `callOp` calls an
operator with arguments -/
def execOne (callOp : Op → List Term → R (List OpEffect)) (ops : List Op) (t : Term) :
    R (List OpEffect) :=
  match decodeOp t with
  | some (args, name) =>
    match retOpByName ops name with
    | some op => do
      let _ ← printed t
      callOp op args
    | none => .ok []
  | none => .ok []

/-- `Op_nal9__exec_and_inject::call`, OpLib.rs 41-80 -/
def execAndInject (callOp : Op → List Term → R (List OpEffect)) (ops : List Op)
    (args : List Term) : R (List OpEffect) :=
  match args with
  | [_, .Seq seq, injEvent] => do
    let effs ← seq.mapM (execOne callOp ops)
    .ok (effs.flatten ++ [.inject injEvent])
  | _ => .ok []

/-- `call` of a registered operator: `OpNop` (OpLib.rs 24-25) and the two library operators.  The
number bounds the nesting of calls; the arguments of a nested call are parts of the arguments. -/
def callOp (ops : List Op) : Nat → Op → List Term → R (List OpEffect)
  | 0, _, _ => .error .fuel
  | n + 1, op, args =>
    if op.babbleable then .ok []
    else if op.name == "^nal9_exeAndInject" then execAndInject (callOp ops n) ops args
    else if op.name == "^nlpRel0" then nlpRel0 args
    else .ok []

/-- nesting depth of a term, enough for the nesting of calls -/
def callDepth (args : List Term) : Nat := (args.map calcComplexity).sum + 1

/-- the effects of executing an operation -/
def opEffects (ops : List Op) (name : String) (args : List Term) : R (List OpEffect) :=
  match retOpByName ops name with
  | some op => callOp ops (callDepth args) op args
  | none => .ok []

/-- the effect of a call on the procedural reasoner -/
def applyInject (p : Proc) : OpEffect → Proc
  | .inject e => eventHappened p ⟨e, p.t, p.t⟩
  | .relate _ => p

/-- the operators of the library, as seen by the procedural reasoner -/
def libCall : Call := fun name args p => do
  let effs ← opEffects p.ops name args
  .ok (effs.foldl applyInject p)

/-- the effect of a call on the declarative memory, OpLib.rs 134-150; the limits are those of
lines 144-145 -/
def applyRelate (cfg : Cfg) (t : Int) (sh : Shared) : OpEffect → R Shared
  | .inject _ => .ok sh
  | .relate rel =>
    memAddTask { cfg with maxComplexity := 64, nBeliefs := 60 }
      { sh with stampIdCounter := sh.stampIdCounter + 1 }
      (newEternalSentenceByTv rel .JUGEMENT ⟨1, 9/10⟩ ⟨[sh.stampIdCounter]⟩) true 1 t

end Nar
