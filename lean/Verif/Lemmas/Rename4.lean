import Verif.Lemmas.Rename3
/-! # Other names: procedural memory, variable introduction, goals -/
namespace Nar
open Term

theorem filterR_ren {α β} {f : α → β} {p : α → R Bool} {p' : β → R Bool} (h : ∀ a, p' (f a) = p a) (l : List α) :
    filterR p' (l.map f) = (filterR p l).map (List.map f) := by
  induction l with
  | nil => rfl
  | cons a l ih =>
    simp only [List.map_cons, filterR, h]
    rw [R.map_of_bind]
    refine R.bind_same fun b => R.bind_rel ih fun r => ?_
    cases b <;> rfl

theorem filterR_same {α} {p p' : α → R Bool} (h : ∀ a, p' a = p a) (l : List α) : filterR p' l = filterR p l := by
  have : p' = p := funext h
  rw [this]

namespace Renaming
variable (ρ : Renaming)

theorem setC (cs : List PConcept) (c : PConcept) :
    PMem.setC (cs.map ρ.pconcept) (ρ.pconcept c) = (PMem.setC cs c).map ρ.pconcept := by
  unfold PMem.setC
  rw [List.map_map, List.map_map]
  refine List.map_congr_left fun a _ => ?_
  simp only [Function.comp, pconcept, ρ.checkEq]
  split <;> rfl

theorem getP (m : PMem) (t : Term) : (ρ.pmem m).get (ρ.term t) = (m.get t).map ρ.pconcept := by
  unfold PMem.get pmem
  exact find?_ren (fun c => ρ.checkEq c.name t) m.concepts

def heapRes {α} (r : List Sentence × α) : List Sentence × α := (r.1.map ρ.sentence, r.2)

theorem storeTableP {key : Sentence → R Rat} (hk : ∀ s, key (ρ.sentence s) = key s) (heap : List Sentence) (table : List Nat)
    (s : Sentence) (n : Nat) :
    Nar.storeTableP key (heap.map ρ.sentence) table (ρ.sentence s) n = (Nar.storeTableP key heap table s n).map ρ.heapRes := by
  unfold Nar.storeTableP
  refine R.bind_rel (mapM_same (fun r => indexAt_ren ρ.sentence heap r) table) fun cells => ?_
  rw [dependent]
  split
  · rfl
  · have e : heap.map ρ.sentence ++ [shallowCopySentence (ρ.sentence s)] = (heap ++ [shallowCopySentence s]).map ρ.sentence := by
      simp [copy]
    simp only [e, List.length_map]
    have e2 : (fun r => do let c ← indexAt ((heap ++ [shallowCopySentence s]).map ρ.sentence) r; key c) =
        (fun r => do let c ← indexAt (heap ++ [shallowCopySentence s]) r; key c) := by
      funext r
      rw [indexAt_ren, R.bind_of_map]
      exact R.bind_same fun c => hk c
    rw [e2, R.map_of_bind]
    exact R.bind_same fun temp => rfl

theorem storeAtP (s : Sentence) (n : Nat) (now : Int) (m : PMem) (t : Term) :
    Nar.storeAtP (ρ.sentence s) n now (ρ.pmem m) (ρ.term t) = (Nar.storeAtP s n now m t).map ρ.pmem := by
  unfold Nar.storeAtP
  rw [getP]
  cases m.get t with
  | none =>
    simp only [Option.map_none, Except.map, pmem, List.map_append, List.map_cons, List.map_nil, pconcept, copy, List.length_map]
  | some c =>
    simp only [Option.map_some]
    refine R.bind_rel (ρ.storeTableP (fun _ => rfl) m.heap c.byExp s n) fun e => ?_
    refine R.bind_rel (ρ.storeTableP (fun _ => rfl) e.1 c.byUsage s n) fun u => ?_
    simp only [Except.map, pmem, heapRes]
    rw [← setC]
    rfl

theorem storeInConcepts2P (m : PMem) (s : Sentence) (ts : List Term) (n : Nat) (now : Int) :
    Nar.storeInConcepts2P (ρ.pmem m) (ρ.sentence s) (ts.map ρ.term) n now = (Nar.storeInConcepts2P m s ts n now).map ρ.pmem := by
  unfold Nar.storeInConcepts2P
  rw [show (ρ.sentence s).punct = s.punct from rfl]
  split
  · rfl
  · exact foldlM_rel (fun m t => ρ.storeAtP s n now m t) _ m

theorem ratingOfP (heap : List Sentence) (c : PConcept) : Nar.ratingOfP (heap.map ρ.sentence) (ρ.pconcept c) = Nar.ratingOfP heap c := by
  unfold Nar.ratingOfP
  congr 1
  funext rating r
  rw [indexAt_ren, R.bind_of_map]
  rfl

theorem limitMemoryP (m : PMem) (n : Nat) : Nar.limitMemoryP (ρ.pmem m) n = (Nar.limitMemoryP m n).map ρ.pmem := by
  unfold Nar.limitMemoryP
  rw [show (ρ.pmem m).concepts.length = m.concepts.length from List.length_map _]
  split
  · rfl
  · refine R.bind_rel (keyed_ren (f := ρ.pconcept) (ρ.ratingOfP m.heap) m.concepts) fun l => ?_
    simp only [sortDesc_ren, Except.map, List.map_map, List.length_map, List.map_take, pmem]
    rfl

theorem beliefsOfP (m : PMem) (t : Term) : retBeliefsOfConceptP (ρ.pmem m) (ρ.term t) = retBeliefsOfConceptP m t := by
  unfold retBeliefsOfConceptP
  rw [getP]
  cases m.get t <;> rfl

theorem beliefsByTerms (m : PMem) (ts : List Term) :
    retBeliefsByTermsNonuniqueP (ρ.pmem m) (ts.map ρ.term) = retBeliefsByTermsNonuniqueP m ts := by
  unfold retBeliefsByTermsNonuniqueP
  rw [List.flatMap_map]
  congr 1
  funext t
  rw [subterms, List.flatMap_map]
  congr 1
  funext t
  rw [beliefsOfP]

/-! ## variables -/

mutual
theorem count (x : Term) : ∀ t : Term, countOccurence (ρ.term t) (ρ.term x) = countOccurence t x
  | Stmt c s p => by
      rw [countOccurence.eq_def, countOccurence.eq_def, ρ.checkEq]; simp only [term, count x s, count x p]
  | Name n => by rw [countOccurence.eq_def, countOccurence.eq_def, ρ.checkEq]; simp only [term]
  | .Seq ts => by rw [countOccurence.eq_def, countOccurence.eq_def, ρ.checkEq]; simp only [term, countL x ts]
  | SetInt ts => by rw [countOccurence.eq_def, countOccurence.eq_def, ρ.checkEq]; simp only [term, countL x ts]
  | SetExt ts => by rw [countOccurence.eq_def, countOccurence.eq_def, ρ.checkEq]; simp only [term, countL x ts]
  | QVar n => by rw [countOccurence.eq_def, countOccurence.eq_def, ρ.checkEq]; simp only [term]
  | DepVar n => by rw [countOccurence.eq_def, countOccurence.eq_def, ρ.checkEq]; simp only [term]
  | IndepVar n => by rw [countOccurence.eq_def, countOccurence.eq_def, ρ.checkEq]; simp only [term]
  | Conj ts => by rw [countOccurence.eq_def, countOccurence.eq_def, ρ.checkEq]; simp only [term, countL x ts]
  | .Prod ts => by rw [countOccurence.eq_def, countOccurence.eq_def, ρ.checkEq]; simp only [term, countL x ts]
  | Img r i ts => by rw [countOccurence.eq_def, countOccurence.eq_def, ρ.checkEq]; simp only [term, countL x ts]
  | IntInt ts => by rw [countOccurence.eq_def, countOccurence.eq_def, ρ.checkEq]; simp only [term, countL x ts]
  | ExtInt ts => by rw [countOccurence.eq_def, countOccurence.eq_def, ρ.checkEq]; simp only [term, countL x ts]
  | Par ts => by rw [countOccurence.eq_def, countOccurence.eq_def, ρ.checkEq]; simp only [term, countL x ts]
  | .Neg t => by rw [countOccurence.eq_def, countOccurence.eq_def, ρ.checkEq]; simp only [term, count x t]
theorem countL (x : Term) : ∀ ts : List Term, countOccurenceL (ρ.terms ts) (ρ.term x) = countOccurenceL ts x
  | [] => by simp only [terms, countOccurenceL]
  | t :: ts => by simp only [terms, countOccurenceL, count x t, countL x ts]
end

mutual
theorem replace (x w : Term) : ∀ t : Term, replaceTerm (ρ.term t) (ρ.term x) (ρ.term w) = ρ.term (replaceTerm t x w)
  | Stmt c s p => by
      rw [replaceTerm.eq_def, replaceTerm.eq_def, ρ.checkEq]; split <;> simp only [term, replace x w s, replace x w p]
  | Name n => by rw [replaceTerm.eq_def, replaceTerm.eq_def, ρ.checkEq]; split <;> simp only [term]
  | .Seq ts => by rw [replaceTerm.eq_def, replaceTerm.eq_def, ρ.checkEq]; split <;> simp only [term, replaceL x w ts]
  | SetInt ts => by rw [replaceTerm.eq_def, replaceTerm.eq_def, ρ.checkEq]; split <;> simp only [term, replaceL x w ts]
  | SetExt ts => by rw [replaceTerm.eq_def, replaceTerm.eq_def, ρ.checkEq]; split <;> simp only [term, replaceL x w ts]
  | QVar n => by rw [replaceTerm.eq_def, replaceTerm.eq_def, ρ.checkEq]; split <;> simp only [term]
  | DepVar n => by rw [replaceTerm.eq_def, replaceTerm.eq_def, ρ.checkEq]; split <;> simp only [term]
  | IndepVar n => by rw [replaceTerm.eq_def, replaceTerm.eq_def, ρ.checkEq]; split <;> simp only [term]
  | Conj ts => by rw [replaceTerm.eq_def, replaceTerm.eq_def, ρ.checkEq]; split <;> simp only [term, replaceL x w ts]
  | .Prod ts => by rw [replaceTerm.eq_def, replaceTerm.eq_def, ρ.checkEq]; split <;> simp only [term, replaceL x w ts]
  | Img r i ts => by rw [replaceTerm.eq_def, replaceTerm.eq_def, ρ.checkEq]; split <;> simp only [term, replaceL x w ts]
  | IntInt ts => by rw [replaceTerm.eq_def, replaceTerm.eq_def, ρ.checkEq]; split <;> simp only [term, replaceL x w ts]
  | ExtInt ts => by rw [replaceTerm.eq_def, replaceTerm.eq_def, ρ.checkEq]; split <;> simp only [term, replaceL x w ts]
  | Par ts => by rw [replaceTerm.eq_def, replaceTerm.eq_def, ρ.checkEq]; split <;> simp only [term, replaceL x w ts]
  | .Neg t => by rw [replaceTerm.eq_def, replaceTerm.eq_def, ρ.checkEq]; split <;> simp only [term, replace x w t]
theorem replaceL (x w : Term) : ∀ ts : List Term, replaceTermL (ρ.terms ts) (ρ.term x) (ρ.term w) = ρ.terms (replaceTermL ts x w)
  | [] => by simp only [terms, replaceTermL]
  | t :: ts => by simp only [terms, replaceTermL, replace x w t, replaceL x w ts]
end

def termsRes (r : List Term × List Nat) : List Term × List Nat := (r.1.map ρ.term, r.2)
def sentsRes (r : List Sentence × List Nat) : List Sentence × List Nat := (r.1.map ρ.sentence, r.2)

variable (hv : ∀ v, ρ.var v = v)
include hv

theorem introVars (t x : Term) (rng : List Nat) : Nar.introVars (ρ.term t) (ρ.term x) rng = (Nar.introVars t x rng).map ρ.termsRes := by
  unfold Nar.introVars
  rw [count]
  split
  · rfl
  · rw [R.map_of_bind]
    unfold createRandomVarname
    cases varNameLoop 24 rng with
    | error e => rfl
    | ok r =>
      have := ρ.replace x (IndepVar (String.ofList ('Q' :: r.1))) t
      simp only [term, hv] at this
      show (Except.ok _ : R _) = Except.ok _
      simp only [termsRes, List.map_cons, List.map_nil]
      rw [this]

omit hv in
theorem noVar (ts : List Term) (p : Term) (rng : List Nat) (h : ts.length ≠ 2) :
    matchandintroVar1 (Stmt .PREDIMPL (.Seq ts) p) rng = .ok ([], rng) := by
  unfold matchandintroVar1
  split
  · rename_i heq
    simp only [Term.Stmt.injEq, Term.Seq.injEq] at heq
    rw [heq.2.1] at h
    exact absurd rfl h
  · rfl

theorem matchVar (t : Term) (rng : List Nat) : matchandintroVar1 (ρ.term t) rng = (matchandintroVar1 t rng).map ρ.termsRes := by
  cases t with
  | Stmt c s p =>
    cases c <;> try rfl
    cases s <;> try rfl
    rename_i ts
    by_cases hl : ts.length = 2
    · match ts, hl with
      | [a, b], _ =>
        cases a with
        | Stmt c a d =>
          cases c <;> try rfl
          cases d <;> try rfl
          exact ρ.introVars hv _ a rng
        | _ => rfl
    · rw [noVar _ _ _ hl]
      simp only [term]
      rw [noVar _ _ _ (by rw [terms_length]; exact hl)]
      rfl
  | _ => rfl

theorem matchVarS (s : Sentence) (rng : List Nat) :
    matchandintroVar1Sentence (ρ.sentence s) rng = (matchandintroVar1Sentence s rng).map ρ.sentsRes := by
  unfold matchandintroVar1Sentence
  refine R.bind_rel (ρ.matchVar hv s.term rng) fun r => ?_
  simp only [Except.map, termsRes, sentsRes, List.map_map]
  rfl

omit hv

/-! ## goals -/

theorem noDecode (ts : List Term) (p : Term) (h : ts.length ≠ 1) : decodeOp (Stmt .INH (SetExt ts) p) = none := by
  unfold decodeOp
  split
  · rename_i heq
    simp only [Term.Stmt.injEq, Term.SetExt.injEq] at heq
    rw [heq.2.1] at h
    exact absurd rfl h
  · rfl

theorem decode (t : Term) : decodeOp (ρ.term t) = (decodeOp t).map fun r => (r.1.map ρ.term, ρ.name r.2) := by
  cases t with
  | Stmt c s p =>
    cases c <;> try rfl
    cases s <;> try rfl
    rename_i ts
    by_cases hl : ts.length = 1
    · match ts, hl with
      | [a], _ =>
        cases a with
        | Prod ts =>
          cases ts with
          | nil => rfl
          | cons b ts =>
            cases p <;> try rfl
            simp only [term, terms, decodeOp, terms_map, Option.map_some, List.map_cons]
        | _ => rfl
    · rw [noDecode _ _ hl]
      simp only [term]
      rw [noDecode _ _ (by rw [terms_length]; exact hl)]
      rfl
  | _ => rfl

theorem decode_isSome (t : Term) : (decodeOp (ρ.term t)).isSome = (decodeOp t).isSome := by rw [decode, Option.isSome_map]

theorem retEntries (g : GoalSystem) : Nar.retEntries (ρ.goals g) = (Nar.retEntries g).map ρ.goal := by
  unfold Nar.retEntries
  simp only [goals, List.map_append]
  congr 1
  refine flatMap_ren ?_ _
  intro b
  exact flatMap_ren (f := ρ.group) (fun gr => rfl) b

theorem sameGoal (a b : Sentence) : Nar.sameGoal (ρ.sentence a) (ρ.sentence b) = Nar.sameGoal a b := by
  unfold Nar.sameGoal; simp only [sentence, ρ.checkEq]

theorem contains (l : List Entry) (s : Sentence) : checkSetContains (l.map ρ.goal) (ρ.sentence s) = checkSetContains l s :=
  any_ren (fun e => ρ.sameGoal e.sentence s) l

theorem joinGroup (e : Entry) (l : List Group) :
    Nar.joinGroup (ρ.goal e) (l.map ρ.group) = (Nar.joinGroup e l).map (Option.map (List.map ρ.group)) := by
  induction l with
  | nil => rfl
  | cons g l ih =>
    simp only [List.map_cons, Nar.joinGroup, group]
    rw [show (ρ.goal e).sentence.term = ρ.term e.sentence.term from rfl, ρ.checkEq]
    split
    · rw [List.getLast?_map]
      cases g.entries.getLast? with
      | none => rfl
      | some last => simp only [Option.map_some, Except.map, List.map_cons, List.map_append, List.map_nil, group]; rfl
    · refine R.bind_rel ih fun r => ?_
      cases r <;> rfl

def byTerm (p : Term × List Sentence) : Term × List Sentence := (ρ.term p.1, p.2.map ρ.sentence)

theorem registerByTerm (s : Sentence) (l : List (Term × List Sentence)) :
    Nar.registerByTerm (ρ.sentence s) (l.map ρ.byTerm) = (Nar.registerByTerm s l).map ρ.byTerm := by
  induction l with
  | nil => rfl
  | cons p l ih =>
    obtain ⟨k, arr⟩ := p
    simp only [List.map_cons, byTerm, Nar.registerByTerm]
    rw [show (ρ.sentence s).term = ρ.term s.term from rfl, ρ.checkEq,
      any_ren (p := fun i => checkEqTerm i.term s.term && Stamp.checkOverlap i.stamp s.stamp)
        (fun i => by simp only [sentence, ρ.checkEq])]
    split
    · split
      · rfl
      · simp only [List.map_cons, byTerm, List.map_append, List.map_nil]
    · exact congrArg (List.cons _) ih

theorem addToLevel (g : GoalSystem) (e : Entry) : Nar.addToLevel (ρ.goals g) (ρ.goal e) = (Nar.addToLevel g e).map ρ.goals := by
  unfold Nar.addToLevel
  simp only [show (ρ.goal e).depth = e.depth from rfl, show (ρ.goals g).nMaxDepth = g.nMaxDepth from rfl]
  split
  · rfl
  · refine R.bind_rel (indexAt_ren _ g.batchesByDepth _) fun b => R.bind_rel (ρ.joinGroup e b) fun j => ?_
    cases j with
    | some gs => simp only [Option.map_some, Except.map, goals, List.map_set]
    | none =>
      simp only [Option.map_none, Except.map, goals, List.map_set, List.map_append, List.map_cons, List.map_nil]
      congr 2
      exact ρ.registerByTerm e.sentence g.entriesByTerm

theorem addEntry2 (g : GoalSystem) (e : Entry) : Nar.addEntry2 (ρ.goals g) (ρ.goal e) = (Nar.addEntry2 g e).map ρ.goals := by
  unfold Nar.addEntry2
  rw [show (ρ.goal e).sentence.term = ρ.term e.sentence.term from rfl, decode_isSome,
    show (ρ.goals g).activeSet = g.activeSet.map ρ.goal from rfl, show (ρ.goal e).sentence = ρ.sentence e.sentence from rfl, contains]
  split
  · split
    · rfl
    · simp only [Except.map, goals, List.map_append, List.map_cons, List.map_nil]
  · exact ρ.addToLevel g e

theorem goalRegistered (g : GoalSystem) (s : Sentence) : Nar.goalRegistered (ρ.goals g) (ρ.sentence s) = Nar.goalRegistered g s := by
  unfold Nar.goalRegistered lookupSents
  rw [show (ρ.goals g).entriesByTerm = g.entriesByTerm.map ρ.byTerm from rfl, show (ρ.sentence s).term = ρ.term s.term from rfl,
    find?_ren (p := fun p => checkEqTerm p.1 s.term) (fun p => ρ.checkEq p.1 s.term)]
  cases g.entriesByTerm.find? (fun p => checkEqTerm p.1 s.term) with
  | none => rfl
  | some p =>
    simp only [Option.map_some, byTerm]
    exact any_ren (fun i => ρ.sameGoal i s) p.2

theorem addEntry (g : GoalSystem) (t : Int) (s : Sentence) (ev : Option Nat) (d : Int) :
    Nar.addEntry (ρ.goals g) t (ρ.sentence s) ev d = (Nar.addEntry g t s ev d).map ρ.goals := by
  unfold Nar.addEntry
  rw [show (ρ.sentence s).punct = s.punct from rfl, goalRegistered]
  split
  · rfl
  · split
    · rfl
    · exact ρ.addEntry2 g (newEntry t s ev d)

theorem recalc (decay : Int → Rat) (t : Int) (e : Entry) : recalcUtility decay t (ρ.goal e) = (recalcUtility decay t e).map ρ.goal := by
  unfold recalcUtility
  rw [show (ρ.goal e).sentence = ρ.sentence e.sentence from rfl, retTv, R.map_of_bind]
  refine R.bind_same fun tv => ?_
  rw [R.map_of_bind]
  exact R.bind_same fun tv => rfl

theorem goalLimitMemory (decay : Int → Rat) (g : GoalSystem) (t : Int) :
    Nar.goalLimitMemory decay (ρ.goals g) t = (Nar.goalLimitMemory decay g t).map ρ.goals := by
  unfold Nar.goalLimitMemory
  rw [retEntries, show (ρ.goals g).activeSet = g.activeSet.map ρ.goal from rfl, ← List.map_append]
  refine R.bind_rel (mapM_rel (ρ.recalc decay t) _) fun arr => ?_
  have e : (arr.map ρ.goal).map (fun e => (e.utility, e)) = (arr.map fun e => (e.utility, e)).map fun p => (p.1, ρ.goal p.2) := by
    rw [List.map_map, List.map_map]; rfl
  have e2 : (sortDesc ((arr.map ρ.goal).map (fun e => (e.utility, e)))).map (·.2) =
      ((sortDesc (arr.map fun e => (e.utility, e))).map (·.2)).map ρ.goal := by
    rw [e, sortDesc_ren, List.map_map, List.map_map]; rfl
  simp only [e2, show (ρ.goals g).nMaxEntries = g.nMaxEntries from rfl]
  split
  · rfl
  · rw [← List.map_take]
    refine Eq.trans ?_ (foldlM_rel (fun g e => ρ.addEntry2 g e) _
      { g with batchesByDepth := List.replicate g.nMaxDepth.toNat [], entriesByTerm := [], activeSet := [] })
    congr 1
    simp only [goals, List.map_replicate, List.map_nil]

theorem binSearch (v : Rat) : ∀ (n : Nat) (l : List Entry), l.length ≤ n → Nar.binSearch (l.map ρ.goal) v = (Nar.binSearch l v).map ρ.goal
  | n, [], _ => by rw [List.map_nil, Nar.binSearch]; rfl
  | n, [e], _ => by rw [List.map_cons, List.map_nil, Nar.binSearch, Nar.binSearch]; rfl
  | 0, _ :: _ :: _, h => by simp at h
  | n + 1, e1 :: e2 :: l, h => by
    simp only [List.map_cons]
    rw [Nar.binSearch, Nar.binSearch]
    simp only [← List.map_cons, List.length_map, List.getElem?_map]
    simp only [List.length_cons] at h
    cases hm : (e1 :: e2 :: l)[(e1 :: e2 :: l).length / 2]? with
    | none => rfl
    | some m =>
      simp only [Option.map_some, ← List.map_take, ← List.map_drop]
      rw [show (ρ.goal m).accDesirability = m.accDesirability from rfl]
      split
      · exact binSearch v n _ (by simp only [List.length_take, List.length_cons]; omega)
      · exact binSearch v n _ (by simp only [List.length_drop, List.length_cons]; omega)

theorem selBatchLoop (v : Rat) (l : List (List Group)) (sum : Rat) (sel : List Group) :
    Nar.selBatchLoop v (l.map (List.map ρ.group)) sum (sel.map ρ.group) = (Nar.selBatchLoop v l sum sel).map ρ.group := by
  induction l generalizing sum sel with
  | nil => rfl
  | cons b l ih =>
    simp only [List.map_cons, Nar.selBatchLoop, List.length_map]
    split
    · rfl
    · split <;> exact ih _ _

theorem groupWeight (g : Group) : Nar.groupWeight (ρ.group g) = Nar.groupWeight g := by
  unfold Nar.groupWeight
  simp only [group, List.getLast?_map]
  cases g.entries.getLast? <;> rfl

def sampled (r : Sentence × Int) : Sentence × Int := (ρ.sentence r.1, r.2)

theorem selGroupLoop (a v : Rat) (l : List Group) (sum : Rat) :
    Nar.selGroupLoop a v (l.map ρ.group) sum = (Nar.selGroupLoop a v l sum).map (Option.map ρ.sampled) := by
  induction l generalizing sum with
  | nil => rfl
  | cons g l ih =>
    simp only [List.map_cons, Nar.selGroupLoop, groupWeight]
    split
    · rw [R.map_of_bind]
      refine R.bind_same fun w => ?_
      split
      · exact R.bind_rel (ρ.binSearch v _ g.entries (Nat.le_refl _)) fun e => rfl
      · exact ih _
    · rfl

theorem selBatch (g : GoalSystem) (d : Rat) : Nar.selBatch (ρ.goals g) d = (Nar.selBatch g d).map (List.map ρ.group) := by
  unfold Nar.selBatch
  rw [show (ρ.goals g).batchesByDepth = g.batchesByDepth.map (List.map ρ.group) from rfl]
  refine R.bind_rel (indexAt_ren _ _ _) fun first => ?_
  have e : (g.batchesByDepth.map (List.map ρ.group)).map (fun iv => if iv.length > 0 then (1 : Rat) else 0) =
      g.batchesByDepth.map (fun iv => if iv.length > 0 then (1 : Rat) else 0) := by
    rw [List.map_map]
    exact List.map_congr_left fun b _ => by simp only [Function.comp, List.length_map]
  simp only [e, selBatchLoop]
  rfl

theorem goalSample (g : GoalSystem) (d1 d2 : Rat) :
    Nar.goalSample (ρ.goals g) d1 d2 = (Nar.goalSample g d1 d2).map (Option.map ρ.sampled) := by
  unfold Nar.goalSample
  refine R.bind_rel (ρ.selBatch g d1) fun b => ?_
  rw [List.length_map]
  split
  · rfl
  · have e : (b.map ρ.group).mapM Nar.groupWeight = b.mapM Nar.groupWeight := by
      have := mapM_rel (f := ρ.group) (g := fun x : Rat => x) (k := Nar.groupWeight) (k' := Nar.groupWeight)
        (fun a => by rw [R.map_id', groupWeight]) b
      rw [this]
      cases b.mapM Nar.groupWeight with
      | error e => rfl
      | ok l => simp [Except.map]
    rw [e, R.map_of_bind]
    exact R.bind_same fun ws => ρ.selGroupLoop _ _ _ _

theorem hasAntecedent (t : Term) (b : Sentence) : Nar.hasAntecedent (ρ.term t) (ρ.sentence b) = Nar.hasAntecedent t b := by
  unfold Nar.hasAntecedent
  simp only [sentence]
  cases b.term with
  | Stmt c s p =>
    cases c <;> try rfl
    cases s <;> try rfl
    rename_i ts
    cases ts with
    | nil => rfl
    | cons a ts => simp only [term, terms, ρ.checkEq]
  | _ => rfl

theorem hasConsequence (t : Term) (b : Sentence) : Nar.hasConsequence (ρ.term t) (ρ.sentence b) = Nar.hasConsequence t b := by
  unfold Nar.hasConsequence
  simp only [sentence]
  cases b.term with
  | Stmt c s p =>
    cases c <;> try rfl
    simp only [term, ρ.checkEq]
  | _ => rfl

theorem byAntecedent (t : Term) (m : PMem) : queryByAntecedent (ρ.term t) (ρ.pmem m) = queryByAntecedent t m := by
  unfold queryByAntecedent
  have e := ρ.beliefsByTerms m [t]
  rw [List.map_cons, List.map_nil] at e
  rw [e]
  refine filterR_same ?_ _
  intro r
  rw [show (ρ.pmem m).heap = m.heap.map ρ.sentence from rfl, indexAt_ren, R.bind_of_map]
  exact R.bind_same fun b => ρ.hasAntecedent t b

theorem byConsequence (t : Term) (m : PMem) : queryByConsequence (ρ.term t) (ρ.pmem m) = queryByConsequence t m := by
  unfold queryByConsequence
  have e := ρ.beliefsByTerms m [t]
  rw [List.map_cons, List.map_nil] at e
  rw [e]
  refine filterR_same ?_ _
  intro r
  rw [show (ρ.pmem m).heap = m.heap.map ρ.sentence from rfl, indexAt_ren, R.bind_of_map]
  exact R.bind_same fun b => by rw [hasConsequence]

theorem subSeq (l : List Term) : retSubSeqAsSeqOrTerm (l.map ρ.term) = ρ.term (retSubSeqAsSeqOrTerm l) := by
  match l with
  | [] => simp only [List.map_nil, retSubSeqAsSeqOrTerm, term, terms]
  | [a] => rfl
  | a :: b :: l => simp only [List.map_cons, retSubSeqAsSeqOrTerm, term, terms, terms_map]

def found (r : Rat × Option (Entry × Term)) : Rat × Option (Entry × Term) := (r.1, r.2.map fun p => (ρ.goal p.1, ρ.term p.2))

theorem selHighestStep (state : Term) (res : Rat × Option (Entry × Term)) (e : Entry) :
    Nar.selHighestStep (ρ.term state) (ρ.found res) (ρ.goal e) = (Nar.selHighestStep state res e).map ρ.found := by
  unfold Nar.selHighestStep
  rw [show (ρ.goal e).sentence.term = ρ.term e.sentence.term from rfl]
  cases ht : e.sentence.term with
  | Seq ts =>
    cases ts with
    | nil => rfl
    | cons a ts =>
      simp only [term, terms, terms_map]
      rw [← List.map_cons, ← List.map_dropLast, subSeq, unify]
      cases Nar.unify (retSubSeqAsSeqOrTerm (a :: ts).dropLast) state with
      | none => rfl
      | some as =>
        simp only [Option.map_some]
        rw [show (ρ.goal e).sentence = ρ.sentence e.sentence from rfl, expOf, R.map_of_bind]
        refine R.bind_same fun ex => ?_
        rw [show (ρ.found res).1 = res.1 from rfl]
        split
        · simp only [Except.map, found, Option.map_some]
          have := ρ.subst as (.Seq (a :: ts))
          simp only [term, terms, terms_map] at this
          rw [List.map_cons, this]
        · rfl
  | _ => rfl

theorem selHighest (g : GoalSystem) (state : Term) :
    selHighestExpGoalByState (ρ.goals g) (ρ.term state) = (selHighestExpGoalByState g state).map ρ.found := by
  unfold selHighestExpGoalByState
  rw [retEntries]
  exact foldlM_rel (fun r e => ρ.selHighestStep state r e) _ (0, none)

theorem goalQuery (g : GoalSystem) (t : Term) : Nar.goalQuery (ρ.goals g) (ρ.term t) = (Nar.goalQuery g t).map ρ.goal := by
  unfold Nar.goalQuery
  rw [retEntries, show (ρ.goals g).activeSet = g.activeSet.map ρ.goal from rfl,
    find?_ren (p := fun e => checkEqTerm e.sentence.term t) (fun e => ρ.checkEq e.sentence.term t),
    find?_ren (p := fun e => checkEqTerm e.sentence.term t) (fun e => ρ.checkEq e.sentence.term t)]
  cases (Nar.retEntries g).find? (fun e => checkEqTerm e.sentence.term t) <;> rfl

theorem satisfy (b : Bool) (t : Term) (e : Entry) : Nar.satisfy b (ρ.term t) (ρ.goal e) = ρ.goal (Nar.satisfy b t e) := by
  unfold Nar.satisfy
  rw [show (ρ.goal e).sentence.term = ρ.term e.sentence.term from rfl, ρ.checkEq]
  split <;> rfl

theorem eventOccurred (g : GoalSystem) (t : Term) : Nar.eventOccurred (ρ.goals g) (ρ.term t) = ρ.goals (Nar.eventOccurred g t) := by
  unfold Nar.eventOccurred
  simp only [goals, List.map_map]
  congr 1
  · refine List.map_congr_left fun e _ => ?_
    simp only [Function.comp, satisfy]
  · refine List.map_congr_left fun b _ => ?_
    simp only [Function.comp, List.map_map]
    refine List.map_congr_left fun gr _ => ?_
    simp only [Function.comp, group, List.map_map]
    congr 1
    exact List.map_congr_left fun e _ => by simp only [Function.comp, satisfy]

theorem infGoalBelief (g b : Sentence) : Nar.infGoalBelief (ρ.sentence g) (ρ.sentence b) = (Nar.infGoalBelief g b).map (Option.map ρ.sentence) := by
  unfold Nar.infGoalBelief
  rw [show (ρ.sentence b).term = ρ.term b.term from rfl]
  cases b.term with
  | Stmt c s p =>
    cases c <;> try rfl
    simp only [term]
    rw [show (ρ.sentence g).term = ρ.term g.term from rfl, ρ.checkEq]
    split
    · rfl
    · rw [show (ρ.sentence g).stamp = g.stamp from rfl, show (ρ.sentence b).stamp = b.stamp from rfl]
      split
      · rfl
      · simp only [retTv]
        rw [R.map_of_bind]; refine R.bind_same fun _ => ?_
        rw [R.map_of_bind]; refine R.bind_same fun _ => ?_
        rw [R.map_of_bind]; refine R.bind_same fun _ => ?_
        rw [R.map_of_bind]; refine R.bind_same fun _ => rfl
  | _ => rfl

theorem infGoalDetach (g : Sentence) : Nar.infGoalDetach (ρ.sentence g) = (Nar.infGoalDetach g).map (Option.map ρ.sentence) := by
  unfold Nar.infGoalDetach
  rw [show (ρ.sentence g).term = ρ.term g.term from rfl]
  cases g.term with
  | Seq ts =>
    cases ts with
    | nil => rfl
    | cons a ts =>
      simp only [term, terms, retTv]
      rw [R.map_of_bind]; refine R.bind_same fun _ => ?_
      rw [R.map_of_bind]; refine R.bind_same fun _ => rfl
  | _ => rfl

def derived (d : DerivedGoal) : DerivedGoal := { d with goal := ρ.sentence d.goal }
def derivedRes (r : List DerivedGoal × List Nat) : List DerivedGoal × List Nat := (r.1.map ρ.derived, r.2)

theorem deriveWith (m : PMem) (g : Sentence) (d : Int) (r : Nat) :
    Nar.deriveWith (ρ.pmem m) (ρ.sentence g) d r = (Nar.deriveWith m g d r).map (List.map ρ.derived) := by
  unfold Nar.deriveWith
  refine R.bind_rel (indexAt_ren ρ.sentence m.heap r) fun b => R.bind_rel (ρ.infGoalBelief g b) fun c => ?_
  cases c <;> rfl

theorem sampleBelief (m : PMem) (g : Sentence) (d : Int) (cands rng : List Nat) :
    Nar.sampleBelief (ρ.pmem m) (ρ.sentence g) d cands rng = (Nar.sampleBelief m g d cands rng).map ρ.derivedRes := by
  unfold Nar.sampleBelief
  split
  · rw [R.map_of_bind]; refine R.bind_same fun i => ?_
    rw [R.map_of_bind]; refine R.bind_same fun r => ?_
    exact R.bind_rel (ρ.deriveWith m g d r) fun c => rfl
  · rfl

theorem deriveGoalsHelper (m : PMem) (g : Sentence) (d : Int) (st : Strategy) (rng : List Nat) :
    Nar.deriveGoalsHelper (ρ.pmem m) (ρ.sentence g) d st rng = (Nar.deriveGoalsHelper m g d st rng).map ρ.derivedRes := by
  unfold Nar.deriveGoalsHelper
  refine R.bind_rel (ρ.infGoalDetach g) fun c => ?_
  cases c with
  | some c => rfl
  | none =>
    simp only [Option.map_none]
    rw [show (ρ.sentence g).term = ρ.term g.term from rfl, byConsequence, R.map_of_bind]
    refine R.bind_same fun cands => ?_
    cases st with
    | ALL_BELIEFS =>
      refine R.bind_rel (mapM_same (ρ.deriveWith m g d) cands) fun cs => ?_
      simp only [Except.map, derivedRes, List.map_flatten]
    | SAMPLE_2 =>
      refine R.bind_rel (ρ.sampleBelief m g d cands rng) fun r1 => R.bind_rel (ρ.sampleBelief m g d cands r1.2) fun r2 => ?_
      simp only [Except.map, derivedRes, List.map_append]

theorem subWorkingCycle (m : PMem) (n : Nat) (ws : List (Sentence × Int)) (rng : List Nat) :
    Nar.subWorkingCycle (ρ.pmem m) n (ws.map ρ.sampled) rng = (Nar.subWorkingCycle m n ws rng).map ρ.derivedRes := by
  induction n generalizing ws rng with
  | zero => rfl
  | succ n ih =>
    simp only [Nar.subWorkingCycle, List.length_map]
    split
    · rfl
    · rw [R.map_of_bind]; refine R.bind_same fun i => ?_
      refine R.bind_rel (indexAt_ren ρ.sampled ws _) fun e => R.bind_rel (ρ.deriveGoalsHelper m e.1 e.2 _ _) fun r => ?_
      have e2 : swapRemove (ws.map ρ.sampled) i.1 ++ (ρ.derivedRes r).1.map (fun c => (c.goal, c.depth)) =
          (swapRemove ws i.1 ++ r.1.map (fun c => (c.goal, c.depth))).map ρ.sampled := by
        rw [swapRemove_ren, List.map_append]
        simp only [derivedRes, List.map_map]
        rfl
      simp only [e2]
      refine R.bind_rel (ih _ _) fun r2 => ?_
      simp only [Except.map, derivedRes, List.map_append]

theorem sampleAndInference (g : GoalSystem) (t : Int) (m : PMem) (d1 d2 : Rat) (rng : List Nat) :
    Nar.sampleAndInference (ρ.goals g) t (ρ.pmem m) d1 d2 rng = (Nar.sampleAndInference g t m d1 d2 rng).map ρ.goals := by
  unfold Nar.sampleAndInference
  refine R.bind_rel (ρ.goalSample g d1 d2) fun s => ?_
  cases s with
  | none => rfl
  | some s =>
    simp only [Option.map_some, sampled]
    refine R.bind_rel (ρ.subWorkingCycle m _ [s] rng) fun r1 => R.bind_rel (ρ.deriveGoalsHelper m s.1 s.2 _ _) fun r2 => ?_
    simp only [derivedRes, ← List.map_append]
    exact foldlM_rel (fun g c => ρ.addEntry g t c.goal c.evidence c.depth) _ g

end Renaming
end Nar
