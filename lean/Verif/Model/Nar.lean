import Verif.Model.OpLib
import Verif.Model.Parser
import Verif.Model.Nlp
/-!
# The reasoner as one unit and its line interface
(models /repo/src/Nar.rs and /repo/src/NarInputFacade.rs)

The channel to the declarative worker is the queue `queue`; the worker takes one message at a time
(`declWork`).  If the worker panics its thread is gone, and the next `send(..).unwrap()` of the
main thread panics; what the worker wrote before the panic is dropped in the model.  The limit of
four waiting messages only blocks the sender and is not modelled.  Output which is only printed is
not modelled.
-/
namespace Nar
open Term

/-- the parts of the environment which are not modelled: the number reader and printer of the
standard library, and the two exponential decays -/
structure Env where
  pf : List Char → Option Rat
  sf : Rat → List Char
  /-- decay of the credit of tasks -/
  decay : Int → Rat
  /-- decay of goals -/
  goalDecay : Int → Rat

/-- `Nar`, Nar.rs 22-40, with the worker of the declarative memory (NarWorkingCycle.rs 1060-1062)
and the answers given so far. -/
structure Reasoner where
  proc : Proc
  sh : Shared
  /-- messages to the declarative worker -/
  queue : List Msg
  workerAlive : Bool
  answers : List AnswerCall
  currentTime : Int
  /-- `cfgVerbosityInput` -/
  verbosity : Int
  /-- `cfg__nConceptBeliefs` -/
  nConceptBeliefs : Nat
  /-- `cfg__maxComplexity` -/
  maxComplexity : Int
  /-- number of registered global question handlers -/
  nGlobal : Nat
  /-- `procMem` of the declarative memory is the memory of the procedural reasoner (bin/main.rs 19);
  otherwise it is the empty memory made by `createMem2` (NarWorkingCycle.rs 1068-1072) -/
  linked : Bool

/-- the configuration handed to the declarative functions -/
def Reasoner.cfg (env : Env) (r : Reasoner) : Cfg :=
  { maxComplexity := r.maxComplexity, nBeliefs := r.nConceptBeliefs, nGlobal := r.nGlobal,
    decay := env.decay }

/-- `createNar`, Nar.rs 44-56. -/
def createNar : Reasoner :=
  { proc := narInit, sh := createShared, queue := [], workerAlive := true, answers := [],
    currentTime := 0, verbosity := 0, nConceptBeliefs := 20, maxComplexity := 64, nGlobal := 0, linked := false }

/-- Nar.rs 71-73: with a verbose input the sentence is printed -/
def echo (env : Env) (r : Reasoner) (s : Sentence) : R Unit :=
  if r.verbosity ≥ 1 then do
    let _ ← convSentenceTermPunctToStr env.sf s true
    .ok ()
  else .ok ()

/-- the sentence becomes a task, Nar.rs 81 and 116 -/
def addInputTask (env : Env) (r : Reasoner) (s : Sentence) : R Reasoner := do
  let sh ← memAddTask (r.cfg env) r.sh s true 1 r.proc.t
  .ok { r with sh := sh }

/-- the event branches, Nar.rs 75-89 -/
def inputEventT (env : Env) (r : Reasoner) (s : Sentence) : R Reasoner :=
  match s.punct with
  | .GOAL => do
    let goals ← addEntry r.proc.goals r.proc.t s none 0
    .ok { r with proc := { r.proc with goals := goals } }
  | .QUESTION => addInputTask env r s
  | .JUGEMENT => .ok { r with proc := eventHappened r.proc ⟨s.term, r.proc.t, r.proc.t⟩ }

/-- the branches for eternal sentences, Nar.rs 91-123 -/
def inputEternalT (env : Env) (r : Reasoner) (s : Sentence) (rng : List Nat) : R Reasoner :=
  if isTemporalQuestion s.term then
    match s.punct with
    | .JUGEMENT => do
      let m ← memAddEvidence r.proc.mem { s with evi := some (.CNT 10 10) } r.nConceptBeliefs r.proc.t rng
      .ok { r with proc := { r.proc with mem := m } }
    | _ => .ok r
  else
    match s.punct with
    | .JUGEMENT => addInputTask env r s
    | _ => .ok r

/-- `inputT2`, Nar.rs 66-124; `rng` are the draws for variable names. -/
def inputT2 (env : Env) (r : Reasoner) (term : Term) (punct : Punct) (tv : Tv) (isEvent : Bool)
    (rng : List Nat) : R Reasoner := do
  let s := newEternalSentenceByTv term punct tv ⟨[r.sh.stampIdCounter]⟩
  let r := { r with sh := { r.sh with stampIdCounter := r.sh.stampIdCounter + 1 } }
  let _ ← echo env r s
  if isEvent then inputEventT env r s else inputEternalT env r s rng

/-- `inputN`, Nar.rs 129-141; the second component is the returned flag. -/
def inputN (env : Env) (r : Reasoner) (narsese : List Char) (rng : List Nat) : R (Reasoner × Bool) := do
  let p ← parseNarsese env.pf narsese
  match p with
  | some (term, tv, punct, isEvent) => do
    let r ← inputT2 env r term punct tv isEvent rng
    .ok (r, true)
  | none => .ok (r, false)

/-- sending to the worker, NarWorkingCycle.rs 1899-1901 -/
def sendMsg (r : Reasoner) : Option Msg → R Reasoner
  | none => .ok r
  | some m => if r.workerAlive then .ok { r with queue := r.queue ++ [m] } else .error .unwrapNone

/-- the memory of the procedural reasoner as seen through `procMem`, with its cells read -/
def PMem.view (m : PMem) : Mem :=
  m.concepts.map (fun c => ⟨c.name, c.byExp.filterMap (m.heap[·]?), c.byUsage.filterMap (m.heap[·]?)⟩)

/-- the declarative memory with what `procMem` points to; the link is followed when it is read, so
`sh.procMem` itself stays empty in the model -/
def Reasoner.look (r : Reasoner) : Shared := if r.linked then { r.sh with procMem := r.proc.mem.view } else r.sh

/-- `cycle`, Nar.rs 148-150 -/
def cycle (env : Env) (r : Reasoner) (selVal : Rat) : R Reasoner := do
  let (sh, msg, calls) ← reasonCycle (r.cfg env) selVal (r.currentTime + 1) r.look
  sendMsg { r with sh := { sh with procMem := r.sh.procMem }, currentTime := r.currentTime + 1, answers := r.answers ++ calls } msg

/-- one round of the declarative worker thread, NarWorkingCycle.rs 1110-1300 -/
def declWork (env : Env) (r : Reasoner) : Reasoner :=
  if r.workerAlive then
    match r.queue with
    | [] => r
    | m :: rest =>
      match work (r.cfg env) r.sh m with
      | .ok (sh, calls) => { r with sh := sh, queue := rest, answers := r.answers ++ calls }
      | .error _ => { r with queue := rest, workerAlive := false }
  else r

/-- one round of the worker of the procedural memory -/
def procWork (r : Reasoner) (rng : List Nat) : Reasoner := { r with proc := workerStep r.proc rng }

/-! ## the line interface -/

/-- everything undetermined while a line is handled -/
structure LineDraws where
  /-- names of variables introduced into a rule put in -/
  rng : List Nat
  /-- perception -/
  perceive : Nat → SampleDraws
  /-- rounds of the storage worker between perception and action, with their draws -/
  between : List (List Nat)
  /-- decision -/
  decide : List Nat
  /-- goal inferences -/
  infs : List (Rat × Rat × List Nat)
  /-- for each reasoning cycle the draw, and the number of rounds of the worker before it -/
  cycles : Nat → Rat × Nat
  /-- the relations found by the language module -/
  rels : List Relation

/-- `trimNewline`, NarInputFacade.rs 223-228 -/
def trimNewline (s : List Char) : List Char :=
  (s.reverse.dropWhile (fun c => c == '\n' || c == '\r')).reverse

/-- the slice `&s[..n]` by bytes; panics inside a character and beyond the end -/
def bytePrefix : List Char → Nat → R (List Char)
  | _, 0 => .ok []
  | [], _ + 1 => .error .index
  | c :: cs, n + 1 =>
    if c.utf8Size ≤ n + 1 then do
      let r ← bytePrefix cs (n + 1 - c.utf8Size)
      .ok (c :: r)
    else .error .index

/-- `s.len() >= n && &s[..n] == pre` -/
def startsWith (pre s : List Char) : R Bool :=
  if byteLen s ≥ pre.length then do
    let p ← bytePrefix s pre.length
    .ok (p == pre)
  else .ok false

/-- value of a decimal digit -/
def digitVal (c : Char) : Option Nat := if '0' ≤ c && c ≤ '9' then some (c.toNat - 48) else none

/-- digits to number -/
def digitsVal : List Char → Nat → Option Nat
  | [], n => some n
  | c :: cs, n =>
    match digitVal c with
    | some d => digitsVal cs (10 * n + d)
    | none => none

/-- an optional sign and digits -/
def signedVal : List Char → Option Int
  | [] => none
  | c :: cs =>
    if c == '-' then (if cs.isEmpty then none else (digitsVal cs 0).map (fun n : Nat => -(n : Int)))
    else if c == '+' then (if cs.isEmpty then none else (digitsVal cs 0).map (fun n : Nat => (n : Int)))
    else (digitsVal (c :: cs) 0).map (fun n : Nat => (n : Int))

/-- `str::parse::<i64>` -/
def parseI64 (s : List Char) : Option Int :=
  match signedVal s with
  | some n => if -(2^63) ≤ n ∧ n < 2^63 then some n else none
  | none => none

/-- `char::is_whitespace` (the White_Space property of Unicode) -/
def isUnicodeSpace (c : Char) : Bool :=
  let n := c.toNat
  (9 ≤ n && n ≤ 13) || n == 32 || n == 0x85 || n == 0xA0 || n == 0x1680 ||
    (0x2000 ≤ n && n ≤ 0x200A) || n == 0x2028 || n == 0x2029 || n == 0x202F || n == 0x205F ||
    n == 0x3000

/-- `split_whitespace`: `cur` is the word being read -/
def splitWhitespace : List Char → List Char → List (List Char)
  | [], cur => if cur.isEmpty then [] else [cur]
  | c :: cs, cur =>
    if isUnicodeSpace c then (if cur.isEmpty then splitWhitespace cs [] else cur :: splitWhitespace cs [])
    else splitWhitespace cs (cur ++ [c])

/-- registration of an operator, NarInputFacade.rs 61-87 -/
def registeredOp (args : List (List Char)) : Option Op :=
  match args with
  | [ty] =>
    if ty == "execinj".toList then some ⟨"^nal9_exeAndInject", false, 3⟩
    else if ty == "nlpRel0".toList then some ⟨"^nlpRel0", false, 3⟩
    else none
  | [ty, name] => if ty == "NOP".toList then some ⟨String.ofList name, true, 3⟩ else none
  | _ => none

/-- `convToStr` of evidence trails, NarStamp.rs 55-61 -/
def stampToStr (s : Stamp) : R (List Char) :=
  match s.ids with
  | [] => .error .index
  | i :: is => .ok (is.foldl (fun res iid => res ++ ',' :: (toString iid).toList) (toString i).toList)

/-- one line of `debugCreditsOfTasks`, NarWorkingCycle.rs 1984-1994 -/
def debugTask (env : Env) (r : Reasoner) (ref : Nat) : R (List Char) := do
  let t ← indexAt r.sh.heap ref
  let s ← convSentenceTermPunctToStr env.sf t.sentence true
  let st ← stampToStr t.sentence.stamp
  .ok ("task  ".toList ++ (s ++ ' ' :: st) ++ "  credit=".toList ++
    env.sf (taskCalcCredit env.decay t r.sh.cycleCounter))

/-- the worker works `n` rounds -/
def declWorkN (env : Env) (r : Reasoner) : Nat → Reasoner
  | 0 => r
  | n + 1 => declWorkN env (declWork env r) n

/-- several cycles, NarInputFacade.rs 53-55, with rounds of the worker before each -/
def cyclesLoop (env : Env) (draws : Nat → Rat × Nat) : Nat → Nat → Reasoner → R Reasoner
  | 0, _, r => .ok r
  | n + 1, i, r => do
    let r ← cycle env (declWorkN env r (draws i).2) (draws i).1
    cyclesLoop env draws n (i + 1) r

/-- the effects of the executed action on the declarative memory -/
def declEffects (env : Env) (r : Reasoner) (ops : List Op) (t : Int) (executed : Option Term) :
    R Reasoner :=
  match executed with
  | none => .ok r
  | some term =>
    match decodeOp term with
    | none => .ok r
    | some (args, name) => do
      let effs ← opEffects ops name args
      let sh ← effs.foldlM (applyRelate (r.cfg env) t) r.sh
      .ok { r with sh := sh }

/-- `narStep1` with the operators of the library -/
def procStep1 (env : Env) (r : Reasoner) (d : LineDraws) : R Reasoner := do
  let (p, executed) ← narStep1 libCall env.goalDecay r.proc d.decide d.infs
  declEffects env { r with proc := p } r.proc.ops r.proc.t executed

/-- perception and action, NarInputFacade.rs 39-40 -/
def procStep (env : Env) (r : Reasoner) (d : LineDraws) : R Reasoner := do
  let p ← narStep0 r.proc d.perceive
  procStep1 env (d.between.foldl procWork { r with proc := p }) d

/-- `process` of the language module, NarModuleNlp3.rs 14-34, for the relations found -/
def nlpProcess (env : Env) (r : Reasoner) (rels : List Relation) (rng : List Nat) : R Reasoner :=
  rels.foldlM (fun r rel => do
    let line ← convRelToNarsese env.sf rel
    let (r, _) ← inputN env r line rng
    .ok r) r

/-- the command which a line selects, in the order of the tests in NarInputFacade.rs 30-218 -/
inductive Command
  | comment | step | stepA | stepB | cycles (arg : List Char) | flush | register (arg : List Char)
  | showEvidence | babbleOff | babbleOn | nlp (text : List Char) | debugTasks | debugMemory | quit
  | empty | narsese
  deriving DecidableEq, Repr

/-- the dispatch of NarInputFacade.rs 30-218 for the trimmed line `s` -/
def dispatch (s : List Char) : R Command := do
  let isComment ← startsWith "//".toList s
  if isComment then .ok .comment
  else do
  let isSp ← startsWith "!sp".toList s
  if isSp then .ok .step
  else if s == "!spA".toList then .ok .stepA
  else if s == "!spB".toList then .ok .stepB
  else do
  let isS ← startsWith "!s".toList s
  if isS then .ok (.cycles (s.drop 2))
  else if s == "!dtf".toList then .ok .flush
  else do
  let isPor ← startsWith "!por ".toList s
  if isPor then .ok (.register (s.drop 5))
  else if s == "!pse".toList then .ok .showEvidence
  else if s == "!peb 0".toList then .ok .babbleOff
  else if s == "!peb 1".toList then .ok .babbleOn
  else do
  let isNlp ← startsWith "!.nlp ".toList s
  if isNlp && byteLen s > 6 then .ok (.nlp (s.drop 6))
  else if s == "!dt".toList then .ok .debugTasks
  else if s == "!dmd".toList then .ok .debugMemory
  else if s == "!QQ".toList then .ok .quit
  else if s == [] then .ok .empty
  else .ok .narsese

/-- the number of cycles of a command, NarInputFacade.rs 48-52 -/
def nCycles (arg : List Char) : R Int :=
  if byteLen arg > 0 then
    match parseI64 arg with
    | some n => .ok n
    | none => .error .parse
  else .ok 1

/-- one line of `debugEvidence`, NarProc.rs 1192-1203: only printing, but it may panic -/
def debugCell (m : PMem) (ref : Nat) : R Unit := do
  let b ← indexAt m.heap ref
  let _ ← printed b.term
  let _ ← cntOf b
  .ok ()

/-- `debugEvidence`, NarProc.rs 1189-1205, with `mem_ret_evidence_all_nonunique`, NarProc.rs 494-511 -/
def debugEvidence (m : PMem) : R Unit := do
  let _ ← (m.concepts.flatMap (fun c => c.byExp ++ c.byUsage)).mapM (debugCell m)
  .ok ()

/-- what a command does, NarInputFacade.rs 30-218 -/
def runCommand (env : Env) (r : Reasoner) (d : LineDraws) (s : List Char) :
    Command → R (Reasoner × List (List Char))
  | .comment | .quit | .empty => .ok (r, [])
  | .showEvidence => do
    let _ ← debugEvidence r.proc.mem
    .ok (r, [])
  | .step => do
    let r ← procStep env r d
    .ok (r, [])
  | .stepA => do
    let p ← narStep0 r.proc d.perceive
    .ok ({ r with proc := p }, [])
  | .stepB => do
    let r ← procStep1 env r d
    .ok (r, [])
  | .cycles arg => do
    let n ← nCycles arg
    let r ← cyclesLoop env d.cycles n.toNat 0 r
    .ok (r, [])
  | .flush => .ok ({ r with sh := flushTasks r.sh }, [])
  | .register arg =>
    match registeredOp (splitWhitespace arg []) with
    | some op => .ok ({ r with proc := { r.proc with ops := r.proc.ops ++ [op] } }, [])
    | none => .ok (r, [])
  | .babbleOff => .ok ({ r with proc := { r.proc with enBabbling := false } }, [])
  | .babbleOn => .ok ({ r with proc := { r.proc with enBabbling := true } }, [])
  | .nlp _ => do
    let r ← nlpProcess env r d.rels d.rng
    .ok (r, [])
  | .debugTasks => do
    let lines ← r.sh.judgementTasks.mapM (debugTask env r)
    .ok (r, lines)
  | .debugMemory => .ok (r, ["concept count = ".toList ++ (toString r.sh.mem.length).toList])
  | .narsese => do
    let (r, _) ← inputN env r s d.rng
    .ok (r, [])

/-- `input`, NarInputFacade.rs 19-221: the new state, whether to quit, the returned lines -/
def input (env : Env) (r : Reasoner) (line : List Char) (d : LineDraws) :
    R (Reasoner × Bool × List (List Char)) := do
  let s := trimNewline line
  let c ← dispatch s
  let (r, out) ← runCommand env r d s c
  .ok (r, c == .quit, out)

end Nar
