import Verif.Lemmas.Rename2
/-! # Other names: declarative memory, tasks, questions, cycles, the worker -/
namespace Nar
open Term

theorem insertDesc_ren {α β} (f : α → β) (a : Rat × α) (l : List (Rat × α)) :
    insertDesc (a.1, f a.2) (l.map fun p => (p.1, f p.2)) = (insertDesc a l).map fun p => (p.1, f p.2) := by
  induction l with
  | nil => rfl
  | cons b l ih =>
    simp only [List.map_cons, insertDesc]
    split
    · rfl
    · rw [ih]; rfl

theorem sortDesc_ren {α β} (f : α → β) (l : List (Rat × α)) :
    sortDesc (l.map fun p => (p.1, f p.2)) = (sortDesc l).map fun p => (p.1, f p.2) := by
  induction l with
  | nil => rfl
  | cons a l ih => simp only [List.map_cons, sortDesc, ih]; exact insertDesc_ren f a _

theorem keyed_ren {α β} {f : α → β} {key : α → R Rat} {key' : β → R Rat} (h : ∀ a, key' (f a) = key a) (l : List α) :
    keyed key' (l.map f) = (keyed key l).map (List.map fun p => (p.1, f p.2)) := by
  unfold keyed
  refine mapM_rel ?_ l
  intro a
  rw [h, R.map_of_bind]
  rfl

theorem swapRemove_ren {α β} (f : α → β) (l : List α) (i : Nat) : swapRemove (l.map f) i = (swapRemove l i).map f := by
  unfold swapRemove
  rw [List.getLast?_map]
  cases l.getLast? with
  | none => rfl
  | some a => simp only [Option.map_some, List.map_dropLast, List.map_set]

theorem eraseIdx_ren {α β} (f : α → β) (l : List α) (i : Nat) : (l.map f).eraseIdx i = (l.eraseIdx i).map f := by
  induction l generalizing i with
  | nil => rfl
  | cons a l ih => cases i with
    | zero => rfl
    | succ i => simp only [List.map_cons, List.eraseIdx_cons_succ, ih]

theorem modify_ren {α β} {f : α → β} {k : α → α} {k' : β → β} (h : ∀ a, k' (f a) = f (k a)) (l : List α) (i : Nat) :
    (l.map f).modify i k' = (l.modify i k).map f := by
  induction l generalizing i with
  | nil => cases i <;> rfl
  | cons a l ih => cases i with
    | zero => simp [h]
    | succ i => simp [ih]

namespace Renaming
variable (ρ : Renaming)

/-! ## memory -/

theorem get (m : Mem) (t : Term) : (ρ.mem m).get (ρ.term t) = (m.get t).map ρ.concept := by
  unfold Mem.get mem
  exact find?_ren (fun c => ρ.checkEq c.name t) m

theorem set (m : Mem) (c : Concept) : (ρ.mem m).set (ρ.concept c) = ρ.mem (m.set c) := by
  unfold Mem.set mem
  rw [List.map_map, List.map_map]
  refine List.map_congr_left fun a _ => ?_
  simp only [Function.comp, concept, ρ.checkEq]
  split <;> rfl

theorem dependent (table : List Sentence) (s : Sentence) :
    dependentBelief (table.map ρ.sentence) (ρ.sentence s) = dependentBelief table s :=
  any_ren (fun b => by simp only [sentence, ρ.checkEq]) table

theorem copy (s : Sentence) : shallowCopySentence (ρ.sentence s) = ρ.sentence (shallowCopySentence s) := rfl

theorem storeTable {key : Sentence → R Rat} (hk : ∀ s, key (ρ.sentence s) = key s) (table : List Sentence) (s : Sentence) (n : Nat) :
    Nar.storeTable key (table.map ρ.sentence) (ρ.sentence s) n = (Nar.storeTable key table s n).map (List.map ρ.sentence) := by
  unfold Nar.storeTable
  rw [dependent]
  split
  · rfl
  · have e : table.map ρ.sentence ++ [shallowCopySentence (ρ.sentence s)] = (table ++ [shallowCopySentence s]).map ρ.sentence := by
      simp [copy]
    rw [e]
    refine R.bind_rel (keyed_ren hk _) fun temp => ?_
    simp only [sortDesc_ren, Except.map, List.map_map, List.length_map, List.map_take]
    rfl

theorem usefulOf (now : Int) (s : Sentence) : Nar.usefulOf now (ρ.sentence s) = Nar.usefulOf now s := rfl

theorem storeAt (s : Sentence) (n : Nat) (now : Int) (m : Mem) (t : Term) :
    Nar.storeAt (ρ.sentence s) n now (ρ.mem m) (ρ.term t) = (Nar.storeAt s n now m t).map ρ.mem := by
  unfold Nar.storeAt
  rw [get]
  cases hg : m.get t with
  | none => simp only [Option.map_none, Except.map, mem, List.map_append, List.map_cons, List.map_nil, concept, copy]
  | some c =>
    simp only [Option.map_some]
    refine R.bind_rel (ρ.storeTable (fun _ => rfl) c.beliefsByExp s n) fun e => ?_
    refine R.bind_rel (ρ.storeTable (fun _ => rfl) c.beliefsByUsage s n) fun u => ?_
    exact congrArg Except.ok (ρ.set m { c with beliefsByExp := e, beliefsByUsage := u })

theorem storeInConcepts (m : Mem) (s : Sentence) (n : Nat) (now : Int) :
    Nar.storeInConcepts (ρ.mem m) (ρ.sentence s) n now = (Nar.storeInConcepts m s n now).map ρ.mem := by
  unfold Nar.storeInConcepts storeInConcepts2
  rw [show (ρ.sentence s).punct = s.punct from rfl]
  split
  · rfl
  · rw [show (ρ.sentence s).term = ρ.term s.term from rfl, subterms]
    exact foldlM_rel (fun m t => ρ.storeAt s n now m t) _ m

theorem ratingOf (c : Concept) : Nar.ratingOf (ρ.concept c) = Nar.ratingOf c := by
  unfold Nar.ratingOf
  have := foldlM_rel (g := fun x : Rat => x) (f := ρ.sentence)
    (k := fun rating b => do let e ← Nar.expOf b; (.ok (max rating e) : R Rat))
    (k' := fun rating b => do let e ← Nar.expOf b; (.ok (max rating e) : R Rat))
    (fun s a => by rw [R.map_id', expOf]) c.beliefsByExp 0
  rw [R.map_id'] at this
  exact this

theorem limitMemory (m : Mem) (n : Nat) : Nar.limitMemory (ρ.mem m) n = (Nar.limitMemory m n).map ρ.mem := by
  unfold Nar.limitMemory
  rw [show (ρ.mem m).length = m.length from List.length_map _]
  split
  · rfl
  · refine R.bind_rel (keyed_ren (f := ρ.concept) ρ.ratingOf m) fun l => ?_
    simp only [sortDesc_ren, Except.map, List.map_map, List.length_map, List.map_take, mem]
    rfl

theorem beliefsOf (m : Mem) (t : Term) :
    retBeliefsOfConcept (ρ.mem m) (ρ.term t) = (retBeliefsOfConcept m t).map (List.map ρ.sentence) := by
  unfold retBeliefsOfConcept
  rw [get]
  cases m.get t with
  | none => rfl
  | some c => simp only [Option.map_some, concept, List.map_append]

theorem revisedBelief (cell : List Int) (b s : Sentence) :
    Nar.revisedBelief cell (ρ.sentence b) (ρ.sentence s) = (Nar.revisedBelief cell b s).map ρ.sentence := by
  unfold Nar.revisedBelief
  simp only [retTv]
  rw [R.map_of_bind]; refine R.bind_same fun _ => ?_
  rw [R.map_of_bind]; refine R.bind_same fun _ => ?_
  rw [R.map_of_bind]; refine R.bind_same fun _ => ?_
  rw [R.map_of_bind]; refine R.bind_same fun _ => ?_
  split <;> rfl

def tableRes (r : List Sentence × Option Sentence) : List Sentence × Option Sentence := (r.1.map ρ.sentence, r.2.map ρ.sentence)

theorem reviseTable (cell : List Int) (table : List Sentence) (s : Sentence) :
    Nar.reviseTable cell (table.map ρ.sentence) (ρ.sentence s) = (Nar.reviseTable cell table s).map ρ.tableRes := by
  unfold Nar.reviseTable
  rw [findIdx?_ren (p := fun b => checkEqTerm b.term s.term && !Stamp.checkOverlap b.stamp s.stamp)
    (fun b => by simp only [sentence, ρ.checkEq])]
  split
  · rfl
  · refine R.bind_rel (indexAt_ren _ _ _) fun b => R.bind_rel (ρ.revisedBelief _ _ _) fun a => ?_
    simp only [Except.map, tableRes, Option.map_some, List.map_append, List.map_cons, List.map_nil]
    rw [eraseIdx_ren]

theorem nextCell (s : Sentence) (r : Option Sentence) : Nar.nextCell (ρ.sentence s) (r.map ρ.sentence) = Nar.nextCell s r := by
  cases r <;> rfl

def memRes (r : Mem × Option Sentence) : Mem × Option Sentence := (ρ.mem r.1, r.2.map ρ.sentence)

theorem or_map {α β} (f : α → β) (a b : Option α) : (a.map f).or (b.map f) = (a.or b).map f := by cases a <;> rfl

theorem reviseAt (s : Sentence) (st : Mem × Option Sentence) (t : Term) :
    Nar.reviseAt (ρ.sentence s) (ρ.memRes st) (ρ.term t) = (Nar.reviseAt s st t).map ρ.memRes := by
  unfold Nar.reviseAt
  simp only [memRes]
  rw [get]
  cases st.1.get t with
  | none => rfl
  | some c =>
    simp only [Option.map_some, nextCell]
    refine R.bind_rel (ρ.reviseTable _ c.beliefsByExp s) fun e => ?_
    simp only [tableRes, or_map, nextCell]
    refine R.bind_rel (ρ.reviseTable _ c.beliefsByUsage s) fun u => ?_
    simp only [Except.map, memRes, tableRes, or_map]
    rw [← ρ.set]
    rfl

theorem memReviseBelief (m : Mem) (s : Sentence) :
    Nar.memReviseBelief (ρ.mem m) (ρ.sentence s) = (Nar.memReviseBelief m s).map ρ.memRes := by
  unfold Nar.memReviseBelief
  rw [show (ρ.sentence s).punct = s.punct from rfl]
  split
  · rfl
  · rw [show (ρ.sentence s).term = ρ.term s.term from rfl, subterms]
    exact foldlM_rel (fun st t => ρ.reviseAt s st t) _ (m, none)

theorem addBelief (m : Mem) (s : Sentence) (n : Nat) (now : Int) :
    Nar.addBelief (ρ.mem m) (ρ.sentence s) n now = (Nar.addBelief m s n now).map ρ.memRes := by
  unfold Nar.addBelief
  refine R.bind_rel (ρ.memReviseBelief m s) fun r => ?_
  obtain ⟨m1, r⟩ := r
  cases r with
  | some r => rfl
  | none => exact R.bind_rel (ρ.storeInConcepts m1 s n now) fun m2 => rfl

theorem useCell (cell : List Int) (now : Int) (s : Sentence) :
    (ρ.sentence s).useCell cell now = ρ.sentence (s.useCell cell now) := by
  unfold Sentence.useCell
  rw [show (ρ.sentence s).usage = s.usage from rfl]
  split <;> rfl

theorem memUseCell (cell : List Int) (now : Int) (m : Mem) : (ρ.mem m).useCell cell now = ρ.mem (m.useCell cell now) := by
  unfold Mem.useCell mem
  rw [List.map_map, List.map_map]
  refine List.map_congr_left fun c _ => ?_
  simp only [Function.comp, concept, List.map_map]
  congr 1 <;> exact List.map_congr_left fun s _ => ρ.useCell cell now s

/-! ## tasks -/

theorem credit (decay : Int → Rat) (t : Task) (now : Int) : taskCalcCredit decay (ρ.task t) now = taskCalcCredit decay t now := rfl

theorem derefs (sh : Shared) (refs : List Nat) : (ρ.shared sh).derefs refs = (sh.derefs refs).map (List.map ρ.task) := by
  unfold Shared.derefs
  exact mapM_same (fun r => indexAt_ren ρ.task sh.heap r) refs

theorem topLoop (decay : Int → Rat) (now : Int) (l : List Task) (i : Nat) (best : Nat × Rat) :
    Nar.topLoop decay now (l.map ρ.task) i best = Nar.topLoop decay now l i best := by
  induction l generalizing i best with
  | nil => rfl
  | cons a l ih => simp only [List.map_cons, Nar.topLoop, ih]; rfl

theorem selTop (decay : Int → Rat) (l : List Task) (now : Int) :
    taskSelByCreditTop decay (l.map ρ.task) now = taskSelByCreditTop decay l now := by
  unfold taskSelByCreditTop
  rw [topLoop]

theorem pushRef (m : List (Term × List Nat)) (t : Term) (r : Nat) :
    Nar.pushRef (m.map ρ.entry) (ρ.term t) r = (Nar.pushRef m t r).map ρ.entry := by
  induction m with
  | nil => rfl
  | cons p m ih =>
    obtain ⟨k, v⟩ := p
    simp only [List.map_cons, entry, Nar.pushRef, ρ.checkEq]
    split
    · rfl
    · exact congrArg (List.cons _) ih

theorem populate (m : List (Term × List Nat)) (t : Term) (r : Nat) :
    populateTaskByTermLookup (m.map ρ.entry) (ρ.term t) r = (populateTaskByTermLookup m t r).map ρ.entry := by
  unfold populateTaskByTermLookup
  rw [subterms]
  exact foldl_rel (g := List.map ρ.entry) (fun m t => ρ.pushRef m t r) _ m

theorem lookup (m : List (Term × List Nat)) (t : Term) : lookupRefs (m.map ρ.entry) (ρ.term t) = lookupRefs m t := by
  unfold lookupRefs
  rw [find?_ren (p := fun p => checkEqTerm p.1 t) (fun p => ρ.checkEq p.1 t)]
  cases m.find? (fun p => checkEqTerm p.1 t) <;> rfl

theorem divCredit (t : Task) : divCreditByComplexity (ρ.task t) = (divCreditByComplexity t).map ρ.task := by
  unfold divCreditByComplexity
  rw [show (ρ.task t).sentence.term = ρ.term t.sentence.term from rfl, complexity]
  split <;> rfl

theorem payCredit (b : Bool) (t : Task) : Nar.payCredit b (ρ.task t) = (Nar.payCredit b t).map ρ.task := by
  unfold Nar.payCredit
  split
  · exact ρ.divCredit t
  · rfl

theorem exists' (tasks : List Task) (s : Sentence) : taskExists (tasks.map ρ.task) (ρ.sentence s) = taskExists tasks s :=
  any_ren (fun t => by simp only [task, sentence, ρ.checkEq]) tasks

theorem addTasks (b : Bool) (mc : Rat) (l : List Sentence) (sh : Shared) :
    Nar.addTasks (ρ.shared sh) b mc (l.map ρ.sentence) = (Nar.addTasks sh b mc l).map ρ.shared := by
  induction l generalizing sh with
  | nil => rfl
  | cons s l ih =>
    rw [List.map_cons]
    cases hp : s.punct with
    | GOAL =>
      simp only [Nar.addTasks, show (ρ.sentence s).punct = s.punct from rfl, hp]
      exact ih sh
    | QUESTION =>
      simp only [Nar.addTasks, show (ρ.sentence s).punct = s.punct from rfl, hp]
      rw [← ih]
      congr 1
      simp only [shared, List.map_append, List.map_cons, List.map_nil]
      rfl
    | JUGEMENT =>
      simp only [Nar.addTasks, show (ρ.sentence s).punct = s.punct from rfl, hp]
      refine R.bind_rel (ρ.derefs sh sh.judgementTasks) fun tasks => ?_
      rw [exists']
      split
      · rfl
      · refine R.bind_rel (ρ.payCredit b ⟨shallowCopySentence s, 1, 0, mc, sh.taskIdCounter, sh.cycleCounter⟩) fun t => ?_
        rw [← ih]
        congr 1
        simp only [shared, List.map_append, List.map_cons, List.map_nil, List.length_map]
        rw [← populate]
        rfl

theorem memAddTask (cfg : Cfg) (sh : Shared) (s : Sentence) (b : Bool) (mc : Rat) (now : Int) :
    Nar.memAddTask cfg (ρ.shared sh) (ρ.sentence s) b mc now = (Nar.memAddTask cfg sh s b mc now).map ρ.shared := by
  unfold Nar.memAddTask
  rw [show (ρ.sentence s).term = ρ.term s.term from rfl, complexity]
  split
  · rfl
  · refine R.bind_rel (ρ.addBelief sh.mem s cfg.nBeliefs now) fun r => ?_
    obtain ⟨m, r⟩ := r
    rw [← ρ.addTasks]
    cases r <;> rfl

/-! ## questions -/

def qRes (r : Task2 × List AnswerCall) : Task2 × List AnswerCall := (ρ.question r.1, r.2.map ρ.answer)
def qsRes (r : List Task2 × List AnswerCall) : List Task2 × List AnswerCall := (r.1.map ρ.question, r.2.map ρ.answer)
def shRes (r : Shared × List AnswerCall) : Shared × List AnswerCall := (ρ.shared r.1, r.2.map ρ.answer)

theorem qaTryAnswer (n : Nat) (q : Task2) (s : Sentence) :
    Nar.qaTryAnswer n (ρ.question q) (ρ.sentence s) = (Nar.qaTryAnswer n q s).map ρ.qRes := by
  unfold Nar.qaTryAnswer
  rw [show (ρ.sentence s).punct = s.punct from rfl]
  split
  · rfl
  · rw [expOf, R.map_of_bind]
    refine R.bind_same fun e => ?_
    rw [show (ρ.question q).bestAnswerExp = q.bestAnswerExp from rfl]
    split
    · rw [show (ρ.question q).sentence.term = ρ.term q.sentence.term from rfl, show (ρ.sentence s).term = ρ.term s.term from rfl,
        unify]
      cases Nar.unify q.sentence.term s.term with
      | none => rfl
      | some _ =>
        simp only [Option.map_some, Except.map, qRes, List.map_append, List.map_map]
        rw [show (ρ.question q).handler = q.handler from rfl]
        congr 2
        split <;> rfl
    · rfl

theorem creditQuestion (sh : Shared) (q : Task2) : Nar.creditQuestion (ρ.shared sh) (ρ.question q) = ρ.shared (Nar.creditQuestion sh q) := by
  unfold Nar.creditQuestion
  rw [show (ρ.question q).sentence.term = ρ.term q.sentence.term from rfl, subterms]
  refine foldl_rel ?_ _ sh
  intro sh t
  rw [show (ρ.shared sh).judgementTasksByTerm = sh.judgementTasksByTerm.map ρ.entry from rfl, lookup]
  split
  · refine foldl_same ?_ _ sh
    intro sh r
    simp only [Shared.modifyTask, shared]
    rw [modify_ren (f := ρ.task) (k := fun t => { t with qaCredit := t.qaCredit + q.prio }) fun _ => rfl]
  · rfl

theorem creditQuestions (sh : Shared) : Nar.creditQuestions (ρ.shared sh) = ρ.shared (Nar.creditQuestions sh) := by
  unfold Nar.creditQuestions
  exact foldl_rel (f := ρ.question) (fun sh q => ρ.creditQuestion sh q) _ sh

theorem baseCredit (sh : Shared) : Nar.baseCredit (ρ.shared sh) = (Nar.baseCredit sh).map ρ.shared := by
  unfold Nar.baseCredit
  have e : (ρ.shared sh).judgementTasks.foldl (fun sh r => sh.modifyTask r (fun t => { t with credit := t.credit + 1/2 })) (ρ.shared sh) =
      ρ.shared (sh.judgementTasks.foldl (fun sh r => sh.modifyTask r (fun t => { t with credit := t.credit + 1/2 })) sh) := by
    refine foldl_same ?_ _ sh
    intro sh r
    simp only [Shared.modifyTask, shared]
    rw [modify_ren (f := ρ.task) (k := fun t => { t with credit := t.credit + 1/2 }) fun _ => rfl]
  simp only [e]
  refine foldlM_same ?_ _ _
  intro sh r
  refine R.bind_rel (indexAt_ren ρ.task sh.heap r) fun t => R.bind_rel (ρ.divCredit t) fun t' => ?_
  simp only [Except.map, Shared.modifyTask, shared]
  rw [modify_ren (f := ρ.task) (k := fun _ => t') fun _ => rfl]

theorem isTemporal (t : Term) : isTemporalQuestion (ρ.term t) = isTemporalQuestion t := by
  cases t with
  | Stmt c s p => cases c <;> rfl
  | _ => rfl

theorem relevantBeliefs (sh : Shared) (q : Task2) :
    Nar.relevantBeliefs (ρ.shared sh) (ρ.question q) = (Nar.relevantBeliefs sh q).map ρ.sentence := by
  unfold Nar.relevantBeliefs
  rw [show (ρ.question q).sentence.term = ρ.term q.sentence.term from rfl, isTemporal, uniqueSubterms]
  have e : (if isTemporalQuestion q.sentence.term then (ρ.shared sh).procMem else (ρ.shared sh).mem) =
      ρ.mem (if isTemporalQuestion q.sentence.term then sh.procMem else sh.mem) := by split <;> rfl
  simp only [e]
  refine flatMap_ren ?_ _
  intro t
  rw [beliefsOf]
  cases retBeliefsOfConcept _ t <;> rfl

theorem qaTryAll (n : Nat) (l : List Sentence) (q : Task2) :
    Nar.qaTryAll n (ρ.question q) (l.map ρ.sentence) = (Nar.qaTryAll n q l).map ρ.qRes := by
  induction l generalizing q with
  | nil => rfl
  | cons b l ih =>
    simp only [List.map_cons, Nar.qaTryAll]
    refine R.bind_rel (ρ.qaTryAnswer n q b) fun r => R.bind_rel (ih r.1) fun r2 => ?_
    simp only [Except.map, qRes, List.map_append]

theorem selRandom (v : Rat) (l : List Task2) : task2SelByCreditRandom v (l.map ρ.question) = task2SelByCreditRandom v l := by
  unfold task2SelByCreditRandom
  rw [List.map_map]
  rfl

theorem answerSampled (cfg : Cfg) (v : Rat) (sh : Shared) :
    Nar.answerSampled cfg v (ρ.shared sh) = (Nar.answerSampled cfg v sh).map ρ.shRes := by
  unfold Nar.answerSampled
  have e : (ρ.shared sh).questionTasks = sh.questionTasks.map ρ.question := rfl
  simp only [e, selRandom, List.length_map]
  split
  · rw [R.map_of_bind]
    refine R.bind_same fun i => R.bind_rel (indexAt_ren ρ.question _ i) fun q => ?_
    rw [relevantBeliefs]
    refine R.bind_rel (ρ.qaTryAll _ _ q) fun r => ?_
    simp only [Except.map, shRes, shared, qRes, List.map_set]
  · rfl

/-! ## the cycle -/

def primRes {α} (r : Shared × α) : Shared × α := (ρ.shared r.1, r.2)

theorem selectPrimary (cfg : Cfg) (sh : Shared) :
    Nar.selectPrimary cfg (ρ.shared sh) = (Nar.selectPrimary cfg sh).map ρ.primRes := by
  unfold Nar.selectPrimary
  have e : (ρ.shared sh).judgementTasks = sh.judgementTasks := rfl
  rw [e]
  split
  · refine R.bind_rel (ρ.derefs sh _) fun tasks => ?_
    simp only [selTop]
    rw [R.map_of_bind]
    exact R.bind_same fun r => rfl
  · rfl

theorem addEligible (sh : Shared) (acc : List Nat) (r : Nat) : Nar.addEligible (ρ.shared sh) acc r = Nar.addEligible sh acc r := by
  unfold Nar.addEligible
  rw [show (ρ.shared sh).heap = sh.heap.map ρ.task from rfl, indexAt_ren, R.bind_of_map]
  refine R.bind_same fun t => ?_
  rw [derefs, R.bind_of_map]
  refine R.bind_same fun ts => ?_
  rw [any_ren (p := fun iSec => iSec.id == t.id) (fun _ => rfl)]

theorem secondary (sh : Shared) (p : Nat) : secondaryElligable (ρ.shared sh) p = secondaryElligable sh p := by
  unfold secondaryElligable
  rw [show (ρ.shared sh).heap = sh.heap.map ρ.task from rfl, indexAt_ren, R.bind_of_map]
  refine R.bind_same fun t => ?_
  rw [show (ρ.task t).sentence.term = ρ.term t.sentence.term from rfl, uniqueSubterms, List.flatMap_map]
  simp only [show (ρ.shared sh).judgementTasksByTerm = sh.judgementTasksByTerm.map ρ.entry from rfl, lookup]
  have e : Nar.addEligible (ρ.shared sh) = Nar.addEligible sh := by funext acc r; exact ρ.addEligible sh acc r
  rw [e]
  refine R.bind_same fun acc => ?_
  have e2 : (fun r => do let t ← indexAt (sh.heap.map ρ.task) r; (.ok (calcComplexity t.sentence.term, r) : R _)) =
      (fun r => do let t ← indexAt sh.heap r; (.ok (calcComplexity t.sentence.term, r) : R _)) := by
    funext r
    rw [indexAt_ren, R.bind_of_map]
    refine R.bind_same fun t => ?_
    rw [show (ρ.task t).sentence.term = ρ.term t.sentence.term from rfl, complexity]
  rw [e2]

theorem useTask (now : Int) (sh : Shared) (r : Nat) : Nar.useTask now (ρ.shared sh) r = ρ.shared (Nar.useTask now sh r) := by
  unfold Nar.useTask
  rw [show (ρ.shared sh).heap = sh.heap.map ρ.task from rfl, List.getElem?_map]
  cases sh.heap[r]? with
  | none => rfl
  | some t =>
    simp only [Option.map_some, shared, ρ.memUseCell, List.map_map]
    congr 1
    · refine List.map_congr_left fun u _ => ?_
      simp only [Function.comp, task, ρ.useCell]
      rfl

theorem updateUsage (sh : Shared) (msg : Msg) (now : Int) : Nar.updateUsage (ρ.shared sh) msg now = ρ.shared (Nar.updateUsage sh msg now) :=
  foldl_same (fun sh r => ρ.useTask now sh r) _ sh

theorem cleanupTasks (cfg : Cfg) (sh : Shared) : Nar.cleanupTasks cfg (ρ.shared sh) = (Nar.cleanupTasks cfg sh).map ρ.shared := by
  unfold Nar.cleanupTasks
  have e2 : (fun r => do let t ← indexAt (ρ.shared sh).heap r; (.ok (taskCalcCredit cfg.decay t (ρ.shared sh).cycleCounter, r) : R _)) =
      (fun r => do let t ← indexAt sh.heap r; (.ok (taskCalcCredit cfg.decay t sh.cycleCounter, r) : R _)) := by
    funext r
    rw [show (ρ.shared sh).heap = sh.heap.map ρ.task from rfl, indexAt_ren, R.bind_of_map]
    rfl
  rw [e2, R.map_of_bind]
  exact R.bind_same fun r => rfl

theorem rebuildLookup (sh : Shared) : Nar.rebuildLookup (ρ.shared sh) = (Nar.rebuildLookup sh).map ρ.shared := by
  unfold Nar.rebuildLookup
  refine R.bind_rel (f := List.map ρ.entry) ?_ fun l => ?_
  · refine mapM_same ?_ _
    intro r
    exact R.bind_rel (indexAt_ren ρ.task sh.heap r) fun t => rfl
  · simp only [Except.map, shared]
    congr 2
    exact foldl_rel (g := List.map ρ.entry) (f := ρ.entry) (fun m p => ρ.populate m p.1 p.2) l []

theorem flushTasks (sh : Shared) : Nar.flushTasks (ρ.shared sh) = ρ.shared (Nar.flushTasks sh) := rfl

theorem buildMsg (cfg : Cfg) (sh : Shared) : Nar.buildMsg cfg (ρ.shared sh) = (Nar.buildMsg cfg sh).map ρ.primRes := by
  unfold Nar.buildMsg
  refine R.bind_rel (ρ.selectPrimary cfg sh) fun r => ?_
  obtain ⟨sh1, p⟩ := r
  cases p with
  | none => rfl
  | some p =>
    simp only [primRes, secondary]
    rw [R.map_of_bind]
    exact R.bind_same fun sec => rfl

theorem useMsg (sh : Shared) (now : Int) (m : Option Msg) : Nar.useMsg (ρ.shared sh) now m = ρ.shared (Nar.useMsg sh now m) := by
  cases m with
  | none => rfl
  | some m => exact ρ.updateUsage sh m now

theorem everyCleanup (cfg : Cfg) (sh : Shared) : Nar.everyCleanup cfg (ρ.shared sh) = (Nar.everyCleanup cfg sh).map ρ.shared := by
  unfold Nar.everyCleanup
  rw [show (ρ.shared sh).cycleCounter = sh.cycleCounter from rfl]
  split
  · exact R.bind_rel (ρ.cleanupTasks cfg sh) fun sh => ρ.rebuildLookup sh
  · rfl

theorem everyForget (sh : Shared) : Nar.everyForget (ρ.shared sh) = (Nar.everyForget sh).map ρ.shared := by
  unfold Nar.everyForget
  rw [show (ρ.shared sh).cycleCounter = sh.cycleCounter from rfl]
  split
  · exact R.bind_rel (ρ.limitMemory sh.mem 3000) fun m => rfl
  · rfl

def cycleRes (r : Shared × Option Msg × List AnswerCall) : Shared × Option Msg × List AnswerCall := (ρ.shared r.1, r.2.1, r.2.2.map ρ.answer)

theorem reasonCycle (cfg : Cfg) (v : Rat) (now : Int) (sh : Shared) :
    Nar.reasonCycle cfg v now (ρ.shared sh) = (Nar.reasonCycle cfg v now sh).map ρ.cycleRes := by
  unfold Nar.reasonCycle
  have e : ({ ρ.shared sh with cycleCounter := (ρ.shared sh).cycleCounter + 1 } : Shared) =
    ρ.shared { sh with cycleCounter := sh.cycleCounter + 1 } := rfl
  rw [e, creditQuestions]
  refine R.bind_rel (ρ.baseCredit _) fun sh1 => R.bind_rel (ρ.answerSampled cfg v sh1) fun r => ?_
  refine R.bind_rel (ρ.buildMsg cfg r.1) fun b => ?_
  simp only [primRes, useMsg]
  exact R.bind_rel (ρ.everyCleanup cfg _) fun sh2 => R.bind_rel (ρ.everyForget sh2) fun sh3 => rfl

/-! ## the worker -/

theorem nameCells (cycle : Int) (l : List (Sentence × Rat)) :
    Nar.nameCells cycle (l.map ρ.weighted) = (Nar.nameCells cycle l).map ρ.weighted := by
  unfold Nar.nameCells
  simp only [List.mapIdx_eq_zipIdx_map, List.zipIdx_map, List.map_map]
  rfl

theorem workConclusions (sh : Shared) (msg : Msg) :
    Nar.workConclusions (ρ.shared sh) msg = (Nar.workConclusions sh msg).map (List.map ρ.weighted) := by
  unfold Nar.workConclusions
  refine R.bind_rel (indexAt_ren ρ.task sh.heap _) fun p => ?_
  refine R.bind_rel (ρ.infSinglePremise2 p.sentence) fun single => ?_
  refine R.bind_rel (ρ.derefs sh _) fun secs => ?_
  refine R.bind_rel (f := List.map (List.map ρ.weighted)) ?_ fun partA => ?_
  · rw [List.zip_map_left, ← List.map_take]
    refine mapM_rel ?_ _
    rintro ⟨s, r⟩
    by_cases hr : r = msg.primary
    · simp only [Prod.map, id, hr, if_true]; rfl
    · simp only [Prod.map, id, hr, if_false]
      exact R.bind_rel (ρ.inference p.sentence s.sentence) (g := List.map ρ.weighted) fun _ => rfl
  refine R.bind_rel (f := List.map (List.map ρ.weighted)) ?_ fun partB => ?_
  · refine mapM_rel ?_ _
    intro s
    exact R.bind_rel (ρ.inference p.sentence s.sentence) fun _ => rfl
  refine R.bind_rel (f := List.map (List.map ρ.weighted)) ?_ fun partC => ?_
  · rw [show (ρ.task p).sentence.term = ρ.term p.sentence.term from rfl, show (ρ.shared sh).mem = ρ.mem sh.mem from rfl, get]
    cases sh.mem.get p.sentence.term with
    | none => rfl
    | some c =>
      simp only [Option.map_some, concept, ← List.map_append]
      refine mapM_rel ?_ _
      intro s
      exact R.bind_rel (ρ.inference p.sentence s) fun _ => rfl
  simp only [Except.map]
  rw [← nameCells]
  simp only [List.map_append, List.map_flatten]

theorem qaOffer (n : Nat) (s : Sentence) (l : List Task2) :
    Nar.qaOffer n (ρ.sentence s) (l.map ρ.question) = (Nar.qaOffer n s l).map ρ.qsRes := by
  induction l with
  | nil => rfl
  | cons q l ih =>
    simp only [List.map_cons, Nar.qaOffer]
    refine R.bind_rel (ρ.qaTryAnswer n q s) fun r => R.bind_rel ih fun r2 => ?_
    simp only [Except.map, qRes, qsRes, List.map_append, List.map_cons]

theorem offerConclusion (cfg : Cfg) (sh : Shared) (s : Sentence) :
    Nar.offerConclusion cfg (ρ.shared sh) (ρ.sentence s) = (Nar.offerConclusion cfg sh s).map ρ.shRes := by
  unfold Nar.offerConclusion
  rw [show (ρ.sentence s).punct = s.punct from rfl]
  split
  · exact R.bind_rel (ρ.qaOffer _ s sh.questionTasks) fun r => rfl
  · rfl

theorem offerAll (cfg : Cfg) (l : List Sentence) (sh : Shared) :
    Nar.offerAll cfg (ρ.shared sh) (l.map ρ.sentence) = (Nar.offerAll cfg sh l).map ρ.shRes := by
  induction l generalizing sh with
  | nil => rfl
  | cons s l ih =>
    simp only [List.map_cons, Nar.offerAll]
    refine R.bind_rel (ρ.offerConclusion cfg sh s) fun r => R.bind_rel (ih r.1) fun r2 => ?_
    simp only [Except.map, shRes, List.map_append]

theorem work (cfg : Cfg) (sh : Shared) (msg : Msg) : Nar.work cfg (ρ.shared sh) msg = (Nar.work cfg sh msg).map ρ.shRes := by
  unfold Nar.work
  refine R.bind_rel (ρ.workConclusions sh msg) fun concl => R.bind_rel (indexAt_ren ρ.task sh.heap _) fun p => ?_
  have e : (concl.map ρ.weighted).map (·.1) = (concl.map (·.1)).map ρ.sentence := by
    rw [List.map_map, List.map_map]; rfl
  rw [e]
  refine R.bind_rel (ρ.offerAll cfg _ sh) fun r => ?_
  refine R.bind_rel (foldlM_rel (fun sh c => ρ.memAddTask cfg sh c.1 true _ _) concl r.1) fun sh => rfl

theorem sysStep (cfg : Cfg) (s : Sys) (o : SysOp) : (ρ.sysOp o).run cfg (ρ.sys s) = (o.run cfg s).map ρ.sys := by
  cases o with
  | input x cc mc now => exact R.bind_rel (ρ.memAddTask cfg s.sh x cc mc now) fun sh => rfl
  | cycle v now =>
    refine R.bind_rel (ρ.reasonCycle cfg v now s.sh) fun r => ?_
    simp only [Except.map, sys, cycleRes, List.map_append]
  | work =>
    obtain ⟨sh, queue, log⟩ := s
    cases queue with
    | nil => rfl
    | cons m rest =>
      refine R.bind_rel (ρ.work cfg sh m) fun r => ?_
      simp only [Except.map, sys, shRes, List.map_append]
  | flush => rfl
  | newStampId => rfl
  | procMem m => rfl

theorem runSys (cfg : Cfg) (ops : List SysOp) : Nar.runSys cfg (ops.map ρ.sysOp) = (Nar.runSys cfg ops).map ρ.sys :=
  foldlM_rel (fun s o => ρ.sysStep cfg s o) ops { sh := createShared, queue := [], log := [] }

end Renaming
end Nar
