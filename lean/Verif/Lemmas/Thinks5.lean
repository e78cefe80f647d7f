import Verif.Lemmas.Thinks4
import Verif.Lemmas.Counters
/-! # Helper lemmas: a new reasoner which has been asked and told something -/
namespace Nar
open Term

/-- a statement about which nothing is known is not pooled -/
theorem reviseAt_unknown {s : Sentence} {P : Sentence → Prop} (hP : ∀ b, P b → b.term ≠ s.term) {st st' : Mem × Option Sentence} {t : Term}
    (h : reviseAt s st t = .ok st') (hm : MemP P st.1 ∧ st.2 = none) : MemP P st'.1 ∧ st'.2 = none := by
  rcases reviseAt_cases h with ⟨_, rfl⟩ | ⟨c, r1, r2, hg, h1, h2, rfl⟩
  · exact hm
  · obtain ⟨c1, c2⟩ := hm.1 c (Mem.get_some hg).1
    have key : ∀ {cell : List Int} {table : List Sentence} {r : List Sentence × Option Sentence},
        reviseTable cell table s = .ok r → (∀ b ∈ table, P b) → r = (table, none) := by
      intro cell table r h hp
      rcases reviseTable_cases h with ⟨_, rfl⟩ | ⟨pre, b, post, add, rfl, hb, _, _, _, rfl⟩
      · rfl
      · exact absurd hb (hP b (hp b (by simp)))
    have e1 := key h1 c1
    have e2 := key h2 c2
    subst e1 e2
    refine ⟨?_, by simp [hm.2]⟩
    intro d hd
    rcases Mem.mem_set hd with rfl | ⟨hd, _⟩
    · exact ⟨c1, c2⟩
    · exact hm.1 d hd

theorem addBelief_unknown {m m' : Mem} {s : Sentence} {n : Nat} {now : Int} {r : Option Sentence} {P : Sentence → Prop}
    (h : addBelief m s n now = .ok (m', r)) (hm : MemP P m) (hP : ∀ b, P b → b.term ≠ s.term) :
    r = none ∧ MemP (fun b => P b ∨ b = s) m' := by
  have key : ∀ {st : Mem × Option Sentence}, memReviseBelief m s = .ok st → MemP P st.1 ∧ st.2 = none := by
    intro st h
    rcases memReviseBelief_cases h with ⟨_, rfl⟩ | ⟨_, h⟩
    · exact ⟨hm, rfl⟩
    · exact foldlM_inv (fun st : Mem × Option Sentence => MemP P st.1 ∧ st.2 = none) h ⟨hm, rfl⟩
        (fun t _ a b ha hb => reviseAt_unknown hP hb ha)
  rcases addBelief_cases h with ⟨x, rfl, h1⟩ | ⟨rfl, m1, h1, h2⟩
  · exact absurd (key h1).2 (by simp)
  · refine ⟨rfl, ?_⟩
    have hm1 : MemP (fun b => P b ∨ b = s) m1 := fun c hc =>
      ⟨fun b hb => .inl (((key h1).1 c hc).1 b hb), fun b hb => .inl (((key h1).1 c hc).2 b hb)⟩
    unfold storeInConcepts storeInConcepts2 at h2
    split at h2
    · cases h2; exact hm1
    · exact foldlM_inv (MemP (fun b => P b ∨ b = s)) h2 hm1 (fun t _ a b ha hb => storeAt_P hb ha (.inr rfl))

theorem populate_room (m : List (Term × List Nat)) (ts : List Term) (r N : Nat)
    (h : ∀ s refs, lookupRefs m s = some refs → refs.length ≤ N) :
    ∀ s refs, lookupRefs (ts.foldl (fun m t => pushRef m t r) m) s = some refs → refs.length ≤ N + ts.length := by
  induction ts generalizing m N with
  | nil => simpa using h
  | cons t ts ih =>
    intro s refs hl
    rw [List.foldl_cons] at hl
    have := ih (pushRef m t r) (N + 1) ?_ s refs hl
    · simp only [List.length_cons]; omega
    · intro s refs hl
      rw [lookupRefs_pushRef] at hl
      split at hl
      · cases hl
        cases ho : lookupRefs m t with
        | none => simp
        | some x =>
          have := h t x ho
          simp; omega
      · have := h s refs hl; omega

/-- a reasoner with so many handlers which has been asked the questions and then told the statements, and nothing else -/
structure JustTold (k : Nat) (qs : List Term) (sts : List (Term × Tv)) (r : Reasoner) : Prop where
  queue : r.queue = []
  answers : r.answers = []
  handlers : r.nGlobal = k
  complexity : r.maxComplexity = 64
  counter : r.sh.cycleCounter = 0
  stamp : r.sh.stampIdCounter = (qs.length + sts.length : Nat)
  working : r.sh.judgementTasks = List.range sts.length
  heap : r.sh.heap.map (·.sentence) = sts.mapIdx (fun i st => toldAs (qs.length + i) st)
  questions : ∀ q ∈ qs, ∃ t ∈ r.sh.questionTasks, t.sentence.term = q ∧ t.bestAnswerExp = 0
  mem : MemP (fun b => b.term ∈ sts.map (·.1)) r.sh.mem
  room : ∀ s refs, lookupRefs r.sh.judgementTasksByTerm s = some refs → refs.length ≤ (sts.map (fun st => Term.size st.1)).sum

theorem JustTold.new (k : Nat) : JustTold k [] [] { createNar with nGlobal := k } where
  queue := rfl
  answers := rfl
  handlers := rfl
  complexity := rfl
  counter := rfl
  stamp := rfl
  working := rfl
  heap := rfl
  questions := by simp
  mem := by intro c hc; cases hc
  room := by intro s refs h; cases h

theorem complexity_le_size (t : Term) : calcComplexity t ≤ Term.size t := by
  rw [calcComplexity_eq]; exact List.countP_le_length

theorem inputT2_question {env : Env} {r r' : Reasoner} {term : Term} {tv : Tv} {rng : List Nat}
    (h : inputT2 env r term .QUESTION tv true rng = .ok r') :
    ∃ sh', memAddTask (r.cfg env) { r.sh with stampIdCounter := r.sh.stampIdCounter + 1 }
        (newEternalSentenceByTv term .QUESTION tv ⟨[r.sh.stampIdCounter]⟩) true 1 r.proc.t = .ok sh' ∧ r' = { r with sh := sh' } := by
  unfold inputT2 at h
  obtain ⟨_, _, h⟩ := R.bind_ok.1 h
  obtain ⟨sh', h1, h2⟩ := R.bind_ok.1 (show addInputTask env { r with sh := { r.sh with stampIdCounter := r.sh.stampIdCounter + 1 } } _ = .ok r' from h)
  exact ⟨sh', h1, (Except.ok.inj h2).symm⟩

theorem inputT2_statement {env : Env} {r r' : Reasoner} {term : Term} {tv : Tv} {rng : List Nat} (hn : ¬ IsTemporal term)
    (h : inputT2 env r term .JUGEMENT tv false rng = .ok r') :
    ∃ sh', memAddTask (r.cfg env) { r.sh with stampIdCounter := r.sh.stampIdCounter + 1 }
        (newEternalSentenceByTv term .JUGEMENT tv ⟨[r.sh.stampIdCounter]⟩) true 1 r.proc.t = .ok sh' ∧ r' = { r with sh := sh' } := by
  unfold inputT2 at h
  obtain ⟨_, _, h⟩ := R.bind_ok.1 h
  simp only [Bool.false_eq_true, if_false] at h
  unfold inputEternalT at h
  have e : isTemporalQuestion (newEternalSentenceByTv term .JUGEMENT tv ⟨[r.sh.stampIdCounter]⟩).term = false :=
    isTemporalQuestion_not hn
  rw [e] at h
  simp only [Bool.false_eq_true, if_false] at h
  obtain ⟨sh', h1, h2⟩ := R.bind_ok.1 (show addInputTask env { r with sh := { r.sh with stampIdCounter := r.sh.stampIdCounter + 1 } } _ = .ok r' from h)
  exact ⟨sh', h1, (Except.ok.inj h2).symm⟩

theorem addTasks_question {cc : Bool} {mc : Rat} {s : Sentence} (hq : s.punct = .QUESTION) (sh : Shared) :
    addTasks sh cc mc [s] = .ok { sh with questionTasks := sh.questionTasks ++
      [{ sentence := shallowCopySentence s, handler := false, bestAnswerExp := 0, prio := 1 }] } := by
  unfold addTasks
  rw [hq]
  rfl

theorem addTasks_new {cc : Bool} {mc : Rat} {s : Sentence} {sh sh' : Shared} (h : addTasks sh cc mc [s] = .ok sh')
    (hj : s.punct = .JUGEMENT) (hn : ∀ t ∈ sh.heap, t.sentence.term ≠ s.term) :
    ∃ t, t.sentence = s ∧ sh' = { sh with taskIdCounter := sh.taskIdCounter + 1, heap := sh.heap ++ [t], judgementTasks := sh.judgementTasks ++ [sh.heap.length], judgementTasksByTerm := populateTaskByTermLookup sh.judgementTasksByTerm s.term sh.heap.length } := by
  unfold addTasks at h
  rw [hj] at h
  simp only [R.bind_ok] at h
  obtain ⟨tasks, g1, h⟩ := h
  split at h
  · rename_i hex
    unfold taskExists at hex
    obtain ⟨t, htm, hb⟩ := List.any_eq_true.1 hex
    rw [Bool.and_eq_true, checkEqTerm_iff] at hb
    obtain ⟨a, _, ha⟩ := forall₂_right_mem (derefs_iff.1 g1) htm
    exact absurd hb.1.symm (hn t (List.mem_of_getElem? ha))
  · obtain ⟨task, g2, h⟩ := R.bind_ok.1 h
    exact ⟨task, payCredit_sentence g2, (Except.ok.inj h).symm⟩

theorem JustTold.ask {env : Env} {k : Nat} {qs : List Term} {r r' : Reasoner} {q : Term}
    {tv : Tv} (h : JustTold k qs [] r) (hc : calcComplexity q ≤ 64) (hr : inputT2 env r q .QUESTION tv true [] = .ok r') :
    JustTold k (qs ++ [q]) [] r' := by
  obtain ⟨sh', h1, rfl⟩ := inputT2_question hr
  rcases memAddTask_cases h1 with ⟨hx, _⟩ | ⟨_, mem, rev, ha, h2⟩
  · have : r.maxComplexity < calcComplexity q := hx
    rw [h.complexity] at this; omega
  · have hb : rev = none ∧ mem = r.sh.mem := by
      rcases addBelief_cases ha with ⟨x, rfl, g⟩ | ⟨rfl, m1, g, g2⟩
      · rcases memReviseBelief_cases g with ⟨_, e⟩ | ⟨e, _⟩
        · cases e
        · cases e
      · rcases memReviseBelief_cases g with ⟨_, e⟩ | ⟨e, _⟩
        · cases e
          unfold storeInConcepts storeInConcepts2 at g2
          rw [if_pos (by simp [newEternalSentenceByTv])] at g2
          exact ⟨rfl, (Except.ok.inj g2).symm⟩
        · cases e
    obtain ⟨rfl, rfl⟩ := hb
    rw [show ((newEternalSentenceByTv q .QUESTION tv ⟨[r.sh.stampIdCounter]⟩) :: (none : Option Sentence).toList) = [_] from rfl,
      addTasks_question rfl] at h2
    have e := Except.ok.inj h2
    subst e
    refine ⟨h.queue, h.answers, h.handlers, h.complexity, h.counter, ?_, h.working, h.heap, ?_, h.mem, h.room⟩
    · show r.sh.stampIdCounter + 1 = _
      rw [h.stamp]
      simp
    · intro q' hq'
      rcases List.mem_append.1 hq' with hq' | hq'
      · obtain ⟨t, ht, h2⟩ := h.questions q' hq'
        exact ⟨t, List.mem_append_left _ ht, h2⟩
      · rw [List.mem_singleton] at hq'
        subst hq'
        exact ⟨_, List.mem_append_right _ (List.mem_singleton.2 rfl), rfl, rfl⟩

theorem JustTold.tell {env : Env} {k : Nat} {qs : List Term} {sts : List (Term × Tv)} {r r' : Reasoner} {st : Term × Tv}
    (h : JustTold k qs sts r) (hn : st.1 ∉ sts.map (·.1)) (hc : calcComplexity st.1 ≤ 64) (ht : ¬ IsTemporal st.1)
    (hr : inputT2 env r st.1 .JUGEMENT st.2 false [] = .ok r') : JustTold k qs (sts ++ [st]) r' := by
  obtain ⟨sh', h1, rfl⟩ := inputT2_statement ht hr
  obtain ⟨s, hs⟩ : ∃ s, s = newEternalSentenceByTv st.1 .JUGEMENT st.2 ⟨[r.sh.stampIdCounter]⟩ := ⟨_, rfl⟩
  rw [← hs] at h1
  have hst : s.term = st.1 := by rw [hs]; rfl
  have hlen : r.sh.heap.length = sts.length := by
    have := congrArg List.length h.heap
    simpa using this
  rcases memAddTask_cases h1 with ⟨hx, _⟩ | ⟨_, mem, rev, ha, h2⟩
  · have : r.maxComplexity < calcComplexity s.term := hx
    rw [h.complexity, hst] at this; omega
  · obtain ⟨rfl, hm⟩ := addBelief_unknown ha h.mem (by intro b hb e; rw [e, hst] at hb; exact hn hb)
    have hnew : ∀ t ∈ r.sh.heap, t.sentence.term ≠ s.term := by
      intro t htm e
      have : t.sentence ∈ sts.mapIdx (fun i st => toldAs (qs.length + i) st) := by
        rw [← h.heap]; exact List.mem_map_of_mem htm
      obtain ⟨i, hi, e2⟩ := List.mem_mapIdx.1 this
      apply hn
      rw [← hst, ← e, ← e2]
      exact List.mem_map.2 ⟨_, List.getElem_mem hi, rfl⟩
    obtain ⟨t, e1, e2⟩ := addTasks_new (s := s) h2 (by rw [hs]; rfl) hnew
    subst e2
    refine ⟨h.queue, h.answers, h.handlers, h.complexity, h.counter, ?_, ?_, ?_, h.questions, ?_, ?_⟩
    · show r.sh.stampIdCounter + 1 = _
      rw [h.stamp]
      simp; omega
    · show r.sh.judgementTasks ++ [r.sh.heap.length] = _
      rw [h.working, hlen, List.length_append, List.length_singleton, List.range_succ]
    · show (r.sh.heap ++ [t]).map (·.sentence) = _
      rw [List.map_append, h.heap, List.map_singleton, e1, List.mapIdx_append]
      congr 1
      rw [hs, h.stamp]
      simp [toldAs]
    · intro c hc
      obtain ⟨c1, c2⟩ := hm c hc
      have key : ∀ b : Sentence, b.term ∈ sts.map (·.1) ∨ b = s → b.term ∈ (sts ++ [st]).map (·.1) := by
        intro b hb
        rw [List.map_append]
        rcases hb with hb | rfl
        · exact List.mem_append_left _ hb
        · exact List.mem_append_right _ (by simp [hst])
      exact ⟨fun b hb => key b (c1 b hb), fun b hb => key b (c2 b hb)⟩
    · intro x refs hl
      rw [List.map_append, List.sum_append]
      have := populate_room _ (retSubterms s.term) r.sh.heap.length _ h.room x refs hl
      rw [hst] at this
      simpa [Term.size] using this

theorem asked_told {env : Env} {k : Nat} {qs : List Term} {sts : List (Term × Tv)}
    (hq : ∀ q ∈ qs, Printable q ∧ calcComplexity q ≤ 64) (hs : Handful sts) :
    ∃ r, runNar env (.handlers k :: (askAll qs ++ tellAll sts)) = .ok r ∧ JustTold k qs sts r ∧ Safe env r ∧ r.workerAlive = true := by
  have safe : ∀ {ops : List NarOp} {r : Reasoner}, runNar env ops = .ok r → (∀ op ∈ ops, SafeUse env op) → Safe env r ∧ r.workerAlive = true := by
    intro ops r h hu
    obtain ⟨h1, h2⟩ := runNar_safe h (SafeUse.telling hu)
    exact ⟨h1, h2 (fun hm => hu _ hm)⟩
  have hquse : ∀ op ∈ askAll qs, SafeUse env op := by
    intro op hop
    obtain ⟨q, hq', rfl⟩ := List.mem_map.1 hop
    exact ⟨(hq q hq').1, (by intro h; cases h), (by intro h; cases h)⟩
  have hsuse : ∀ op ∈ tellAll sts, SafeUse env op := by
    intro op hop
    obtain ⟨st, hst, rfl⟩ := List.mem_map.1 hop
    exact hs.safe st hst
  have h1 : ∃ r, runNar env (.handlers k :: askAll qs) = .ok r ∧ JustTold k qs [] r := by
    clear hs hsuse
    induction qs using List.reverseRecOn with
    | nil => exact ⟨_, rfl, JustTold.new k⟩
    | append_singleton qs q ih =>
      have huse : ∀ op ∈ askAll qs, SafeUse env op := fun op ho => hquse op (by simp [askAll] at ho ⊢; exact .inl ho)
      obtain ⟨r, h1, h2⟩ := ih (fun q hm => hq q (by simp [hm])) huse
      obtain ⟨s1, s2⟩ := safe h1 (by
        intro op hop
        rcases List.mem_cons.1 hop with rfl | hop
        · exact trivial
        · exact huse op hop)
      obtain ⟨r', h3⟩ := NarOp.run_total s1 s2 (op := .tell q .QUESTION ⟨1, 1/2⟩ true []) (hquse _ (by simp [askAll]))
      refine ⟨r', ?_, h2.ask (hq q (by simp)).2 h3⟩
      have e : (NarOp.handlers k :: askAll (qs ++ [q])) = (NarOp.handlers k :: askAll qs) ++ [.tell q .QUESTION ⟨1, 1/2⟩ true []] := by
        simp [askAll]
      rw [e]
      exact moreNar_append.2 ⟨r, h1, foldlM_cons_ok.2 ⟨r', h3, rfl⟩⟩
  obtain ⟨r0, g1, g2⟩ := h1
  have h2 : ∀ sts' : List (Term × Tv), (∃ rest, sts = sts' ++ rest) →
      ∃ r, runNar env (.handlers k :: (askAll qs ++ tellAll sts')) = .ok r ∧ JustTold k qs sts' r := by
    intro sts'
    induction sts' using List.reverseRecOn with
    | nil => intro _; exact ⟨r0, by simpa [tellAll] using g1, g2⟩
    | append_singleton sts' st ih =>
      rintro ⟨rest, hr⟩
      obtain ⟨r, h1, h2⟩ := ih ⟨st :: rest, by rw [hr]; simp⟩
      have hmem : st ∈ sts := by rw [hr]; simp
      obtain ⟨s1, s2⟩ := safe h1 (by
        intro op hop
        rcases List.mem_cons.1 hop with rfl | hop
        · exact trivial
        · rcases List.mem_append.1 hop with hop | hop
          · exact hquse op hop
          · refine hsuse op ?_
            rw [hr]
            simp only [tellAll, List.map_append]
            exact List.mem_append_left _ (List.mem_append_left _ hop))
      obtain ⟨r', h3⟩ := NarOp.run_total s1 s2 (op := .tell st.1 .JUGEMENT st.2 false []) (hs.safe st hmem)
      have hd := hs.differ
      rw [hr, List.map_append, List.map_append] at hd
      have hd1 := (List.nodup_append.1 hd).1
      have hd2 : st.1 ∉ sts'.map (·.1) := by
        intro hm
        exact (List.nodup_append.1 hd1).2.2 _ hm _ (by simp) rfl
      have hsz : calcComplexity st.1 ≤ 64 := by
        have h4 := complexity_le_size st.1
        have h5 : Term.size st.1 ≤ (sts.map (fun st => Term.size st.1)).sum :=
          List.le_sum_of_mem (List.mem_map.2 ⟨st, hmem, rfl⟩)
        have := hs.small
        omega
      refine ⟨r', ?_, h2.tell hd2 hsz ((hs.safe st hmem).2.1 rfl rfl).1 h3⟩
      have e : (NarOp.handlers k :: (askAll qs ++ tellAll (sts' ++ [st]))) =
          (NarOp.handlers k :: (askAll qs ++ tellAll sts')) ++ [.tell st.1 .JUGEMENT st.2 false []] := by
        simp [tellAll]
      rw [e]
      exact moreNar_append.2 ⟨r, h1, foldlM_cons_ok.2 ⟨r', h3, rfl⟩⟩
  obtain ⟨r, k1, k2⟩ := h2 sts ⟨[], by simp⟩
  obtain ⟨s1, s2⟩ := safe k1 (by
    intro op hop
    rcases List.mem_cons.1 hop with rfl | hop
    · exact trivial
    · rcases List.mem_append.1 hop with hop | hop
      · exact hquse op hop
      · exact hsuse op hop)
  exact ⟨r, k1, k2, s1, s2⟩

theorem whole_thought_through {env : Env} {r : Reasoner} {vs : List Rat} {n : Nat} (hs : Safe env r) (ha : r.workerAlive = true)
    (hq : r.queue = []) (hv : r.sh.judgementTasks.length ≤ vs.length) (hn : r.sh.judgementTasks.length ≤ n)
    (hnt : NoTrim r.sh r.sh.judgementTasks.length) :
    ∃ r', moreNar env r (thinkAbout vs n) = .ok r' ∧
      ∀ a ∈ r.sh.judgementTasks, ∀ ta, r.sh.heap[a]? = some ta →
        (∀ c w, FollowsAlone ta.sentence c w → DealtWith (r.cfg env) r.sys r'.sys c) ∧
        (Room r.sh → ∀ b ∈ r.sh.judgementTasks, ∀ tb, r.sh.heap[b]? = some tb →
          (∃ x, IsSubterm x ta.sentence.term ∧ IsSubterm x tb.sentence.term) →
          ∀ c w, Follows ta.sentence tb.sentence c w → DealtWith (r.cfg env) r.sys r'.sys c) := by
  obtain ⟨r1, h1, h2, h3⟩ := cycles_total (vs := vs) hs ha
  obtain ⟨e, ops, o1, o2, o3⟩ := cycles_sim h1
  obtain ⟨r', h4, h5⟩ := declWorks_sim (n := n) h2 h3
  rw [e] at h5
  refine ⟨r', moreNar_append.2 ⟨r1, h1, h4⟩, ?_⟩
  intro a ham ta hta
  have hall : moreSys (r.cfg env) r.sys (ops ++ worked n) = .ok r'.sys := by
    unfold moreSys at *
    rw [List.foldlM_append]
    exact R.bind_ok.2 ⟨_, o3, h5⟩
  exact thought_through (s := r.sys) hs.inv hq o1 hall (by rw [o2]; exact hv) hn hnt ham hta

theorem JustTold.thought_through {env : Env} {k : Nat} {qs : List Term} {sts : List (Term × Tv)} {r : Reasoner} {vs : List Rat} {n : Nat}
    (h : JustTold k qs sts r) (hs : Safe env r) (ha : r.workerAlive = true) (hh : Handful sts)
    (hv : sts.length ≤ vs.length) (hn : sts.length ≤ n) :
    ∃ r', moreNar env r (thinkAbout vs n) = .ok r' ∧
      ∀ i A, sts[i]? = some A → ∀ c w,
        (FollowsAlone (toldAs (qs.length + i) A) c w ∨
         ∃ j B, sts[j]? = some B ∧ (∃ x, IsSubterm x A.1 ∧ IsSubterm x B.1) ∧
          Follows (toldAs (qs.length + i) A) (toldAs (qs.length + j) B) c w) →
        c.punct = .JUGEMENT →
        (calcComplexity c.term ≤ 64 → HasTask r'.sh c) ∧
        ∀ q ∈ qs, (unify q c.term).isSome = true → ∀ e, Expectation c e → 0 < e → ∀ hd < k,
          ∃ call ∈ r'.answers, call.handler = .global hd ∧ call.question = q ∧ (unify q call.answer.term).isSome = true ∧
            ∃ e', e ≤ e' ∧ Expectation call.answer e' := by
  have hlen : r.sh.judgementTasks.length = sts.length := by rw [h.working, List.length_range]
  have hheap : r.sh.heap.length = sts.length := by simpa using congrArg List.length h.heap
  have hpos : ∀ l : List (Term × Tv), l.length ≤ (l.map (fun st => Term.size st.1)).sum := by
    intro l
    induction l with
    | nil => simp
    | cons a l ih =>
      have : 1 ≤ Term.size a.1 := by
        unfold Term.size
        exact List.length_pos_of_mem ((mem_retSubterms _ _).2 (.refl _))
      simp only [List.length_cons, List.map_cons, List.sum_cons]; omega
  have hsum := hpos sts
  have hsmall := hh.small
  have hnt : NoTrim r.sh r.sh.judgementTasks.length := by
    intro m h1 h2
    rw [h.counter]
    omega
  have hroom : Room r.sh := ⟨fun s refs hl => le_trans (h.room s refs hl) hsmall, by omega⟩
  obtain ⟨r', g1, g2⟩ := whole_thought_through (vs := vs) (n := n) hs ha h.queue (by omega) (by omega) hnt
  refine ⟨r', g1, ?_⟩
  have get : ∀ {i : Nat} {A : Term × Tv}, sts[i]? = some A → i ∈ r.sh.judgementTasks ∧
      ∃ t, r.sh.heap[i]? = some t ∧ t.sentence = toldAs (qs.length + i) A := by
    intro i A hi
    have hlt := (List.getElem?_eq_some_iff.1 hi).1
    refine ⟨by rw [h.working]; exact List.mem_range.2 hlt, ?_⟩
    have hlt' : i < r.sh.heap.length := by omega
    refine ⟨r.sh.heap[i], List.getElem?_eq_getElem hlt', ?_⟩
    have e := congrArg (·[i]?) h.heap
    simp only [List.getElem?_map, List.getElem?_mapIdx, hi, List.getElem?_eq_getElem hlt', Option.map_some] at e
    exact Option.some.inj e
  intro i A hi c w hf hj
  obtain ⟨hia, ta, hta, ea⟩ := get hi
  obtain ⟨d1, d2⟩ := g2 i hia ta hta
  have hd : DealtWith (r.cfg env) r.sys r'.sys c := by
    rcases hf with hf | ⟨j, B, hjB, ⟨x, hx1, hx2⟩, hf⟩
    · exact d1 c w (by rw [ea]; exact hf)
    · obtain ⟨hjb, tb, htb, eb⟩ := get hjB
      exact d2 hroom j hjb tb htb ⟨x, by rw [ea]; exact hx1, by rw [eb]; exact hx2⟩ c w (by rw [ea, eb]; exact hf)
  refine ⟨fun hcx => hd.1 hj ?_, ?_⟩
  · show (calcComplexity c.term : Int) ≤ r.maxComplexity
    rw [h.complexity]; omega
  · intro q hq hu e he hpe i' hi'
    obtain ⟨t, ht, t1, t2⟩ := h.questions q hq
    obtain ⟨call, c1, c2, c3, c4, c5⟩ := hd.2 t ht ⟨hj, by rw [t1]; exact hu⟩ e he (by rw [t2]; exact hpe) (.global i')
      (show i' < r.nGlobal by rw [h.handlers]; exact hi')
    refine ⟨call, List.mem_of_mem_drop c1, c2, by rw [c3, t1], ?_, c5⟩
    have := c4.2
    rw [t1] at this
    exact this

end Nar
