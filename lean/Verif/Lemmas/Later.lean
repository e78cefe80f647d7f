import Verif.Spec.Later
import Verif.Lemmas.Rename4
/-! # Later: evidence, procedural memory, goals -/
namespace Nar
open Term

namespace Delay
variable (δ : Delay)

/-! ## evidence -/

theorem id_eq (a b : Int) : (δ.id a == δ.id b) = (a == b) := by
  rw [Bool.eq_iff_iff, beq_iff_eq, beq_iff_eq]
  exact ⟨δ.id_inj a b, fun h => by rw [h]⟩

def stamp (s : Stamp) : Stamp := ⟨s.ids.map δ.id⟩

theorem overlap (a b : Stamp) : Stamp.checkOverlap (δ.stamp a) (δ.stamp b) = Stamp.checkOverlap a b := by
  unfold Stamp.checkOverlap
  refine any_ren (f := δ.id) (p := fun x => b.ids.any fun y => x == y) (fun x => ?_) a.ids
  exact any_ren (f := δ.id) (p := fun y => x == y) (fun y => δ.id_eq x y) b.ids

theorem sameLoop (a b : List Int) : Stamp.sameLoop (a.map δ.id) (b.map δ.id) = Stamp.sameLoop a b := by
  induction a generalizing b with
  | nil => cases b <;> rfl
  | cons x a ih =>
    cases b with
    | nil => rfl
    | cons y b =>
      simp only [List.map_cons, Stamp.sameLoop]
      rw [ih, show (δ.id x != δ.id y) = (x != y) by unfold bne; rw [id_eq]]

theorem same (a b : Stamp) : Stamp.checkSame (δ.stamp a) (δ.stamp b) = Stamp.checkSame a b := by
  unfold Stamp.checkSame stamp
  simp only [List.length_map, sameLoop]

theorem interleave (a b : List Int) : Stamp.interleave (a.map δ.id) (b.map δ.id) = (Stamp.interleave a b).map δ.id := by
  unfold Stamp.interleave
  simp only [List.length_map, List.map_append, List.map_drop, List.zip_map]
  congr 2
  exact flatMap_ren (f := Prod.map δ.id δ.id) (fun p => rfl) _

theorem merge (a b : Stamp) : Stamp.merge (δ.stamp a) (δ.stamp b) = δ.stamp (Stamp.merge a b) := by
  unfold Stamp.merge stamp
  simp only [interleave, List.length_map, List.map_take]

theorem copy (s : Sentence) : shallowCopySentence (δ.sentence s) = δ.sentence (shallowCopySentence s) := rfl

theorem newTv (t : Term) (k : Punct) (tv : Tv) (s : Stamp) :
    newEternalSentenceByTv t k tv (δ.stamp s) = δ.sentence (newEternalSentenceByTv t k tv s) := rfl

theorem dependent (table : List Sentence) (s : Sentence) : dependentBelief (table.map δ.sentence) (δ.sentence s) = dependentBelief table s := by
  unfold dependentBelief
  refine any_ren (fun b => ?_) table
  rw [show (δ.sentence b).term = b.term from rfl, show (δ.sentence s).term = s.term from rfl,
    show (δ.sentence b).stamp = δ.stamp b.stamp from rfl, show (δ.sentence s).stamp = δ.stamp s.stamp from rfl, overlap]

/-! ## procedural memory -/

def heapRes {α} (r : List Sentence × α) : List Sentence × α := (r.1.map δ.sentence, r.2)

theorem storeTableP {key : Sentence → R Rat} (hk : ∀ s, key (δ.sentence s) = key s) (heap : List Sentence) (table : List Nat)
    (s : Sentence) (n : Nat) :
    Nar.storeTableP key (heap.map δ.sentence) table (δ.sentence s) n = (Nar.storeTableP key heap table s n).map δ.heapRes := by
  unfold Nar.storeTableP
  refine R.bind_rel (mapM_same (fun r => indexAt_ren δ.sentence heap r) table) fun cells => ?_
  rw [dependent]
  split
  · rfl
  · have e : heap.map δ.sentence ++ [shallowCopySentence (δ.sentence s)] = (heap ++ [shallowCopySentence s]).map δ.sentence := by
      simp [copy]
    simp only [e, List.length_map]
    have e2 : (fun r => do let c ← indexAt ((heap ++ [shallowCopySentence s]).map δ.sentence) r; key c) =
        (fun r => do let c ← indexAt (heap ++ [shallowCopySentence s]) r; key c) := by
      funext r
      rw [indexAt_ren, R.bind_of_map]
      exact R.bind_same fun c => hk c
    rw [e2, R.map_of_bind]
    exact R.bind_same fun temp => rfl

theorem storeAtP (s : Sentence) (n : Nat) (now : Int) (m : PMem) (t : Term) :
    Nar.storeAtP (δ.sentence s) n now (δ.pmem m) t = (Nar.storeAtP s n now m t).map δ.pmem := by
  unfold Nar.storeAtP
  rw [show (δ.pmem m).get t = m.get t from rfl]
  cases m.get t with
  | none =>
    simp only [Except.map, pmem, List.map_append, List.map_cons, List.map_nil, copy, List.length_map]
  | some c =>
    refine R.bind_rel (δ.storeTableP (fun _ => rfl) m.heap c.byExp s n) fun e => ?_
    exact R.bind_rel (δ.storeTableP (fun _ => rfl) e.1 c.byUsage s n) fun u => rfl

theorem storeInConcepts2P (m : PMem) (s : Sentence) (ts : List Term) (n : Nat) (now : Int) :
    Nar.storeInConcepts2P (δ.pmem m) (δ.sentence s) ts n now = (Nar.storeInConcepts2P m s ts n now).map δ.pmem := by
  unfold Nar.storeInConcepts2P
  rw [show (δ.sentence s).punct = s.punct from rfl]
  split
  · rfl
  · exact foldlM_same (fun m t => δ.storeAtP s n now m t) _ m

theorem ratingOfP (heap : List Sentence) (c : PConcept) : Nar.ratingOfP (heap.map δ.sentence) c = Nar.ratingOfP heap c := by
  unfold Nar.ratingOfP
  congr 1
  funext rating r
  rw [indexAt_ren, R.bind_of_map]
  rfl

theorem limitMemoryP (m : PMem) (n : Nat) : Nar.limitMemoryP (δ.pmem m) n = (Nar.limitMemoryP m n).map δ.pmem := by
  unfold Nar.limitMemoryP
  rw [show (δ.pmem m).concepts = m.concepts from rfl]
  split
  · rfl
  · have e : Nar.ratingOfP (δ.pmem m).heap = Nar.ratingOfP m.heap := by funext c; exact δ.ratingOfP m.heap c
    rw [e, R.map_of_bind]
    exact R.bind_same fun l => rfl

def sentsRes (r : List Sentence × List Nat) : List Sentence × List Nat := (r.1.map δ.sentence, r.2)

theorem matchVarS (s : Sentence) (rng : List Nat) :
    matchandintroVar1Sentence (δ.sentence s) rng = (matchandintroVar1Sentence s rng).map δ.sentsRes := by
  unfold matchandintroVar1Sentence
  rw [R.map_of_bind]
  refine R.bind_same fun r => ?_
  simp only [Except.map, sentsRes, List.map_map]
  rfl

/-! ## goals -/

theorem retEntries (g : GoalSystem) : Nar.retEntries (δ.goals g) = (Nar.retEntries g).map δ.goal := by
  unfold Nar.retEntries
  simp only [goals, List.map_append]
  congr 1
  refine flatMap_ren ?_ _
  intro b
  exact flatMap_ren (f := δ.group) (fun gr => rfl) b

theorem sameGoal (a b : Sentence) : Nar.sameGoal (δ.sentence a) (δ.sentence b) = Nar.sameGoal a b := by
  unfold Nar.sameGoal
  rw [show (δ.sentence a).stamp = δ.stamp a.stamp from rfl, show (δ.sentence b).stamp = δ.stamp b.stamp from rfl, same]
  rfl

theorem contains (l : List Entry) (s : Sentence) : checkSetContains (l.map δ.goal) (δ.sentence s) = checkSetContains l s :=
  any_ren (fun e => δ.sameGoal e.sentence s) l

theorem joinGroup (e : Entry) (l : List Group) :
    Nar.joinGroup (δ.goal e) (l.map δ.group) = (Nar.joinGroup e l).map (Option.map (List.map δ.group)) := by
  induction l with
  | nil => rfl
  | cons g l ih =>
    simp only [List.map_cons, Nar.joinGroup, group]
    rw [show (δ.goal e).sentence.term = e.sentence.term from rfl]
    split
    · rw [List.getLast?_map]
      cases g.entries.getLast? with
      | none => rfl
      | some last => simp only [Option.map_some, Except.map, List.map_cons, List.map_append, List.map_nil, group]; rfl
    · refine R.bind_rel ih fun r => ?_
      cases r <;> rfl

def byTerm (p : Term × List Sentence) : Term × List Sentence := (p.1, p.2.map δ.sentence)

theorem registerByTerm (s : Sentence) (l : List (Term × List Sentence)) :
    Nar.registerByTerm (δ.sentence s) (l.map δ.byTerm) = (Nar.registerByTerm s l).map δ.byTerm := by
  induction l with
  | nil => rfl
  | cons p l ih =>
    obtain ⟨k, arr⟩ := p
    simp only [List.map_cons, byTerm, Nar.registerByTerm]
    rw [show (δ.sentence s).term = s.term from rfl,
      any_ren (p := fun i => checkEqTerm i.term s.term && Stamp.checkOverlap i.stamp s.stamp)
        (fun i => by
          rw [show (δ.sentence i).stamp = δ.stamp i.stamp from rfl, show (δ.sentence s).stamp = δ.stamp s.stamp from rfl, overlap]
          rfl)]
    split
    · split
      · rfl
      · simp only [List.map_cons, byTerm, List.map_append, List.map_nil]
    · exact congrArg (List.cons _) ih

theorem addToLevel (g : GoalSystem) (e : Entry) : Nar.addToLevel (δ.goals g) (δ.goal e) = (Nar.addToLevel g e).map δ.goals := by
  unfold Nar.addToLevel
  simp only [show (δ.goal e).depth = e.depth from rfl, show (δ.goals g).nMaxDepth = g.nMaxDepth from rfl]
  split
  · rfl
  · refine R.bind_rel (indexAt_ren _ g.batchesByDepth _) fun b => R.bind_rel (δ.joinGroup e b) fun j => ?_
    cases j with
    | some gs => simp only [Option.map_some, Except.map, goals, List.map_set]
    | none =>
      simp only [Option.map_none, Except.map, goals, List.map_set, List.map_append, List.map_cons, List.map_nil]
      congr 2
      exact δ.registerByTerm e.sentence g.entriesByTerm

theorem addEntry2 (g : GoalSystem) (e : Entry) : Nar.addEntry2 (δ.goals g) (δ.goal e) = (Nar.addEntry2 g e).map δ.goals := by
  unfold Nar.addEntry2
  rw [show (δ.goal e).sentence.term = e.sentence.term from rfl,
    show (δ.goals g).activeSet = g.activeSet.map δ.goal from rfl, show (δ.goal e).sentence = δ.sentence e.sentence from rfl, contains]
  split
  · split
    · rfl
    · simp only [Except.map, goals, List.map_append, List.map_cons, List.map_nil]
  · exact δ.addToLevel g e

theorem goalRegistered (g : GoalSystem) (s : Sentence) : Nar.goalRegistered (δ.goals g) (δ.sentence s) = Nar.goalRegistered g s := by
  unfold Nar.goalRegistered lookupSents
  rw [show (δ.goals g).entriesByTerm = g.entriesByTerm.map δ.byTerm from rfl, show (δ.sentence s).term = s.term from rfl,
    find?_ren (p := fun p => checkEqTerm p.1 s.term) (fun p => rfl)]
  cases g.entriesByTerm.find? (fun p => checkEqTerm p.1 s.term) with
  | none => rfl
  | some p =>
    simp only [Option.map_some, byTerm]
    exact any_ren (fun i => δ.sameGoal i s) p.2

theorem addEntry (g : GoalSystem) (t : Int) (s : Sentence) (ev : Option Nat) (d : Int) :
    Nar.addEntry (δ.goals g) (t + δ.shift) (δ.sentence s) ev d = (Nar.addEntry g t s ev d).map δ.goals := by
  unfold Nar.addEntry
  rw [show (δ.sentence s).punct = s.punct from rfl, goalRegistered]
  split
  · rfl
  · split
    · rfl
    · exact δ.addEntry2 g (newEntry t s ev d)

theorem recalc (decay : Int → Rat) (t : Int) (e : Entry) :
    recalcUtility decay (t + δ.shift) (δ.goal e) = (recalcUtility decay t e).map δ.goal := by
  unfold recalcUtility
  rw [show Nar.retTv (δ.goal e).sentence = Nar.retTv e.sentence from rfl, R.map_of_bind]
  refine R.bind_same fun tv => ?_
  rw [R.map_of_bind]
  refine R.bind_same fun tv => ?_
  rw [show t + δ.shift - (δ.goal e).createTime = t - e.createTime by simp only [goal]; omega]
  rfl

theorem goalLimitMemory (decay : Int → Rat) (g : GoalSystem) (t : Int) :
    Nar.goalLimitMemory decay (δ.goals g) (t + δ.shift) = (Nar.goalLimitMemory decay g t).map δ.goals := by
  unfold Nar.goalLimitMemory
  rw [retEntries, show (δ.goals g).activeSet = g.activeSet.map δ.goal from rfl, ← List.map_append]
  refine R.bind_rel (mapM_rel (δ.recalc decay t) _) fun arr => ?_
  have e : (arr.map δ.goal).map (fun e => (e.utility, e)) = (arr.map fun e => (e.utility, e)).map fun p => (p.1, δ.goal p.2) := by
    rw [List.map_map, List.map_map]; rfl
  have e2 : (sortDesc ((arr.map δ.goal).map (fun e => (e.utility, e)))).map (·.2) =
      ((sortDesc (arr.map fun e => (e.utility, e))).map (·.2)).map δ.goal := by
    rw [e, sortDesc_ren, List.map_map, List.map_map]; rfl
  simp only [e2, show (δ.goals g).nMaxEntries = g.nMaxEntries from rfl]
  split
  · rfl
  · rw [← List.map_take]
    refine Eq.trans ?_ (foldlM_rel (fun g e => δ.addEntry2 g e) _
      { g with batchesByDepth := List.replicate g.nMaxDepth.toNat [], entriesByTerm := [], activeSet := [] })
    congr 1
    simp only [goals, List.map_replicate, List.map_nil]

theorem binSearch (v : Rat) : ∀ (n : Nat) (l : List Entry), l.length ≤ n → Nar.binSearch (l.map δ.goal) v = (Nar.binSearch l v).map δ.goal
  | n, [], _ => by rw [List.map_nil, Nar.binSearch]; rfl
  | n, [e], _ => by rw [List.map_cons, List.map_nil, Nar.binSearch, Nar.binSearch]; rfl
  | 0, _ :: _ :: _, h => by simp at h
  | n + 1, e1 :: e2 :: l, h => by
    simp only [List.map_cons]
    rw [Nar.binSearch, Nar.binSearch]
    simp only [← List.map_cons, List.length_map, List.getElem?_map]
    simp only [List.length_cons] at h
    cases hm : (e1 :: e2 :: l)[(e1 :: e2 :: l).length / 2]? with
    | none => rfl
    | some m =>
      simp only [Option.map_some, ← List.map_take, ← List.map_drop]
      rw [show (δ.goal m).accDesirability = m.accDesirability from rfl]
      split
      · exact binSearch v n _ (by simp only [List.length_take, List.length_cons]; omega)
      · exact binSearch v n _ (by simp only [List.length_drop, List.length_cons]; omega)

theorem selBatchLoop (v : Rat) (l : List (List Group)) (sum : Rat) (sel : List Group) :
    Nar.selBatchLoop v (l.map (List.map δ.group)) sum (sel.map δ.group) = (Nar.selBatchLoop v l sum sel).map δ.group := by
  induction l generalizing sum sel with
  | nil => rfl
  | cons b l ih =>
    simp only [List.map_cons, Nar.selBatchLoop, List.length_map]
    split
    · rfl
    · split <;> exact ih _ _

theorem groupWeight (g : Group) : Nar.groupWeight (δ.group g) = Nar.groupWeight g := by
  unfold Nar.groupWeight
  simp only [group, List.getLast?_map]
  cases g.entries.getLast? <;> rfl

def sampled (r : Sentence × Int) : Sentence × Int := (δ.sentence r.1, r.2)

theorem selGroupLoop (a v : Rat) (l : List Group) (sum : Rat) :
    Nar.selGroupLoop a v (l.map δ.group) sum = (Nar.selGroupLoop a v l sum).map (Option.map δ.sampled) := by
  induction l generalizing sum with
  | nil => rfl
  | cons g l ih =>
    simp only [List.map_cons, Nar.selGroupLoop, groupWeight]
    split
    · rw [R.map_of_bind]
      refine R.bind_same fun w => ?_
      split
      · exact R.bind_rel (δ.binSearch v _ g.entries (Nat.le_refl _)) fun e => rfl
      · exact ih _
    · rfl

theorem selBatch (g : GoalSystem) (d : Rat) : Nar.selBatch (δ.goals g) d = (Nar.selBatch g d).map (List.map δ.group) := by
  unfold Nar.selBatch
  rw [show (δ.goals g).batchesByDepth = g.batchesByDepth.map (List.map δ.group) from rfl]
  refine R.bind_rel (indexAt_ren _ _ _) fun first => ?_
  have e : (g.batchesByDepth.map (List.map δ.group)).map (fun iv => if iv.length > 0 then (1 : Rat) else 0) =
      g.batchesByDepth.map (fun iv => if iv.length > 0 then (1 : Rat) else 0) := by
    rw [List.map_map]
    exact List.map_congr_left fun b _ => by simp only [Function.comp, List.length_map]
  simp only [e, selBatchLoop]
  rfl

theorem goalSample (g : GoalSystem) (d1 d2 : Rat) :
    Nar.goalSample (δ.goals g) d1 d2 = (Nar.goalSample g d1 d2).map (Option.map δ.sampled) := by
  unfold Nar.goalSample
  refine R.bind_rel (δ.selBatch g d1) fun b => ?_
  rw [List.length_map]
  split
  · rfl
  · have e : (b.map δ.group).mapM Nar.groupWeight = b.mapM Nar.groupWeight := by
      have := mapM_rel (f := δ.group) (g := fun x : Rat => x) (k := Nar.groupWeight) (k' := Nar.groupWeight)
        (fun a => by rw [R.map_id', groupWeight]) b
      rw [this]
      cases b.mapM Nar.groupWeight with
      | error e => rfl
      | ok l => simp [Except.map]
    rw [e, R.map_of_bind]
    exact R.bind_same fun ws => δ.selGroupLoop _ _ _ _

theorem byAntecedent (t : Term) (m : PMem) : queryByAntecedent t (δ.pmem m) = queryByAntecedent t m := by
  unfold queryByAntecedent
  rw [show retBeliefsByTermsNonuniqueP (δ.pmem m) [t] = retBeliefsByTermsNonuniqueP m [t] from rfl]
  refine filterR_same ?_ _
  intro r
  rw [show (δ.pmem m).heap = m.heap.map δ.sentence from rfl, indexAt_ren, R.bind_of_map]
  exact R.bind_same fun b => rfl

theorem byConsequence (t : Term) (m : PMem) : queryByConsequence t (δ.pmem m) = queryByConsequence t m := by
  unfold queryByConsequence
  rw [show retBeliefsByTermsNonuniqueP (δ.pmem m) [t] = retBeliefsByTermsNonuniqueP m [t] from rfl]
  refine filterR_same ?_ _
  intro r
  rw [show (δ.pmem m).heap = m.heap.map δ.sentence from rfl, indexAt_ren, R.bind_of_map]
  exact R.bind_same fun b => rfl

def found (r : Rat × Option (Entry × Term)) : Rat × Option (Entry × Term) := (r.1, r.2.map fun p => (δ.goal p.1, p.2))

theorem selHighestStep (state : Term) (res : Rat × Option (Entry × Term)) (e : Entry) :
    Nar.selHighestStep state (δ.found res) (δ.goal e) = (Nar.selHighestStep state res e).map δ.found := by
  unfold Nar.selHighestStep
  rw [show (δ.goal e).sentence.term = e.sentence.term from rfl]
  cases ht : e.sentence.term with
  | Seq ts =>
    cases ts with
    | nil => rfl
    | cons a ts =>
      simp only
      cases Nar.unify (retSubSeqAsSeqOrTerm (a :: ts).dropLast) state with
      | none => rfl
      | some as =>
        simp only
        rw [show Nar.expOf (δ.goal e).sentence = Nar.expOf e.sentence from rfl, R.map_of_bind]
        refine R.bind_same fun ex => ?_
        rw [show (δ.found res).1 = res.1 from rfl]
        split <;> rfl
  | _ => rfl

theorem selHighest (g : GoalSystem) (state : Term) :
    selHighestExpGoalByState (δ.goals g) state = (selHighestExpGoalByState g state).map δ.found := by
  unfold selHighestExpGoalByState
  rw [retEntries]
  exact foldlM_rel (fun r e => δ.selHighestStep state r e) _ (0, none)

theorem goalQuery (g : GoalSystem) (t : Term) : Nar.goalQuery (δ.goals g) t = (Nar.goalQuery g t).map δ.goal := by
  unfold Nar.goalQuery
  rw [retEntries, show (δ.goals g).activeSet = g.activeSet.map δ.goal from rfl,
    find?_ren (p := fun e => checkEqTerm e.sentence.term t) (fun e => rfl),
    find?_ren (p := fun e => checkEqTerm e.sentence.term t) (fun e => rfl)]
  cases (Nar.retEntries g).find? (fun e => checkEqTerm e.sentence.term t) <;> rfl

theorem satisfy (b : Bool) (t : Term) (e : Entry) : Nar.satisfy b t (δ.goal e) = δ.goal (Nar.satisfy b t e) := by
  unfold Nar.satisfy
  rw [show (δ.goal e).sentence.term = e.sentence.term from rfl]
  split <;> rfl

theorem eventOccurred (g : GoalSystem) (t : Term) : Nar.eventOccurred (δ.goals g) t = δ.goals (Nar.eventOccurred g t) := by
  unfold Nar.eventOccurred
  simp only [goals, List.map_map]
  congr 1
  · refine List.map_congr_left fun e _ => ?_
    simp only [Function.comp, satisfy]
  · refine List.map_congr_left fun b _ => ?_
    simp only [Function.comp, List.map_map]
    refine List.map_congr_left fun gr _ => ?_
    simp only [Function.comp, group, List.map_map]
    congr 1
    exact List.map_congr_left fun e _ => by simp only [Function.comp, satisfy]

theorem infGoalBelief (g b : Sentence) : Nar.infGoalBelief (δ.sentence g) (δ.sentence b) = (Nar.infGoalBelief g b).map (Option.map δ.sentence) := by
  unfold Nar.infGoalBelief
  rw [show (δ.sentence b).term = b.term from rfl]
  cases b.term with
  | Stmt c s p =>
    cases c <;> try rfl
    simp only
    rw [show (δ.sentence g).term = g.term from rfl]
    split
    · rfl
    · rw [show (δ.sentence g).stamp = δ.stamp g.stamp from rfl, show (δ.sentence b).stamp = δ.stamp b.stamp from rfl, overlap, merge,
        show Nar.retTv (δ.sentence g) = Nar.retTv g from rfl, show Nar.retTv (δ.sentence b) = Nar.retTv b from rfl]
      split
      · rfl
      · rw [R.map_of_bind]; refine R.bind_same fun _ => ?_
        rw [R.map_of_bind]; refine R.bind_same fun _ => ?_
        rw [R.map_of_bind]; refine R.bind_same fun _ => ?_
        rw [R.map_of_bind]; refine R.bind_same fun _ => rfl
  | _ => rfl

theorem infGoalDetach (g : Sentence) : Nar.infGoalDetach (δ.sentence g) = (Nar.infGoalDetach g).map (Option.map δ.sentence) := by
  unfold Nar.infGoalDetach
  rw [show (δ.sentence g).term = g.term from rfl]
  cases g.term with
  | Seq ts =>
    cases ts with
    | nil => rfl
    | cons a ts =>
      simp only
      rw [show Nar.retTv (δ.sentence g) = Nar.retTv g from rfl]
      rw [R.map_of_bind]; refine R.bind_same fun _ => ?_
      rw [R.map_of_bind]; refine R.bind_same fun _ => rfl
  | _ => rfl

def derived (d : DerivedGoal) : DerivedGoal := { d with goal := δ.sentence d.goal }
def derivedRes (r : List DerivedGoal × List Nat) : List DerivedGoal × List Nat := (r.1.map δ.derived, r.2)

theorem deriveWith (m : PMem) (g : Sentence) (d : Int) (r : Nat) :
    Nar.deriveWith (δ.pmem m) (δ.sentence g) d r = (Nar.deriveWith m g d r).map (List.map δ.derived) := by
  unfold Nar.deriveWith
  refine R.bind_rel (indexAt_ren δ.sentence m.heap r) fun b => R.bind_rel (δ.infGoalBelief g b) fun c => ?_
  cases c <;> rfl

theorem sampleBelief (m : PMem) (g : Sentence) (d : Int) (cands rng : List Nat) :
    Nar.sampleBelief (δ.pmem m) (δ.sentence g) d cands rng = (Nar.sampleBelief m g d cands rng).map δ.derivedRes := by
  unfold Nar.sampleBelief
  split
  · rw [R.map_of_bind]; refine R.bind_same fun i => ?_
    rw [R.map_of_bind]; refine R.bind_same fun r => ?_
    exact R.bind_rel (δ.deriveWith m g d r) fun c => rfl
  · rfl

theorem deriveGoalsHelper (m : PMem) (g : Sentence) (d : Int) (st : Strategy) (rng : List Nat) :
    Nar.deriveGoalsHelper (δ.pmem m) (δ.sentence g) d st rng = (Nar.deriveGoalsHelper m g d st rng).map δ.derivedRes := by
  unfold Nar.deriveGoalsHelper
  refine R.bind_rel (δ.infGoalDetach g) fun c => ?_
  cases c with
  | some c => rfl
  | none =>
    simp only [Option.map_none]
    rw [show (δ.sentence g).term = g.term from rfl, byConsequence, R.map_of_bind]
    refine R.bind_same fun cands => ?_
    cases st with
    | ALL_BELIEFS =>
      refine R.bind_rel (mapM_same (δ.deriveWith m g d) cands) fun cs => ?_
      simp only [Except.map, derivedRes, List.map_flatten]
    | SAMPLE_2 =>
      refine R.bind_rel (δ.sampleBelief m g d cands rng) fun r1 => R.bind_rel (δ.sampleBelief m g d cands r1.2) fun r2 => ?_
      simp only [Except.map, derivedRes, List.map_append]

theorem subWorkingCycle (m : PMem) (n : Nat) (ws : List (Sentence × Int)) (rng : List Nat) :
    Nar.subWorkingCycle (δ.pmem m) n (ws.map δ.sampled) rng = (Nar.subWorkingCycle m n ws rng).map δ.derivedRes := by
  induction n generalizing ws rng with
  | zero => rfl
  | succ n ih =>
    simp only [Nar.subWorkingCycle, List.length_map]
    split
    · rfl
    · rw [R.map_of_bind]; refine R.bind_same fun i => ?_
      refine R.bind_rel (indexAt_ren δ.sampled ws _) fun e => R.bind_rel (δ.deriveGoalsHelper m e.1 e.2 _ _) fun r => ?_
      have e2 : swapRemove (ws.map δ.sampled) i.1 ++ (δ.derivedRes r).1.map (fun c => (c.goal, c.depth)) =
          (swapRemove ws i.1 ++ r.1.map (fun c => (c.goal, c.depth))).map δ.sampled := by
        rw [swapRemove_ren, List.map_append]
        simp only [derivedRes, List.map_map]
        rfl
      simp only [e2]
      refine R.bind_rel (ih _ _) fun r2 => ?_
      simp only [Except.map, derivedRes, List.map_append]

theorem sampleAndInference (g : GoalSystem) (t : Int) (m : PMem) (d1 d2 : Rat) (rng : List Nat) :
    Nar.sampleAndInference (δ.goals g) (t + δ.shift) (δ.pmem m) d1 d2 rng = (Nar.sampleAndInference g t m d1 d2 rng).map δ.goals := by
  unfold Nar.sampleAndInference
  refine R.bind_rel (δ.goalSample g d1 d2) fun s => ?_
  cases s with
  | none => rfl
  | some s =>
    simp only [Option.map_some, sampled]
    refine R.bind_rel (δ.subWorkingCycle m _ [s] rng) fun r1 => R.bind_rel (δ.deriveGoalsHelper m s.1 s.2 _ _) fun r2 => ?_
    simp only [derivedRes, ← List.map_append]
    exact foldlM_rel (fun g c => δ.addEntry g t c.goal c.evidence c.depth) _ g

end Delay
end Nar
