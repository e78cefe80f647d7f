import Verif.Spec.Race
import Verif.Lemmas.Task2
/-! # Invariant of additions which run at the same time -/
namespace Nar
open Term

/-- the sentences an addition may still turn into tasks -/
def Adding.sents (a : Adding) : List Sentence :=
  match a.stage with
  | .revise _ res => a.sentence :: res.toList
  | .each todo => todo
  | .push _ _ todo => todo
  | .file _ _ todo => todo

/-- the invariant -/
structure RaceInv (cfg : Cfg) (st : Race) : Prop where
  valid : ∀ r ∈ st.sh.judgementTasks, r < st.sh.heap.length
  ids : (st.sh.heap.map (·.id)).Nodup
  fresh : ∀ t ∈ st.sh.heap, t.id < st.sh.taskIdCounter
  nodup : st.sh.judgementTasks.Nodup
  complexity : ∀ t ∈ st.sh.heap, (calcComplexity t.sentence.term : Int) ≤ cfg.maxComplexity
  sound : ∀ p ∈ st.sh.judgementTasksByTerm, ∀ r ∈ p.2, ∃ t, st.sh.heap[r]? = some t ∧ IsSubterm p.1 t.sentence.term
  complete : ∀ r ∈ st.sh.judgementTasks, ∀ t, st.sh.heap[r]? = some t → Filed st.sh r t ∨ AboutToFile st r
  keys : (st.sh.judgementTasksByTerm.map (·.1)).Nodup
  sents : ∀ k a, st.adding k = some a → ∀ s ∈ a.sents, (calcComplexity s.term : Int) ≤ cfg.maxComplexity
  same : ∀ k a ts res, st.adding k = some a → a.stage = .revise ts res →
    (calcComplexity a.sentence.term : Int) ≤ cfg.maxComplexity ∧ ∀ x, res = some x → x.term = a.sentence.term
  made : ∀ k a task term todo, st.adding k = some a → a.stage = .push task term todo →
    task.sentence.term = term ∧ (calcComplexity term : Int) ≤ cfg.maxComplexity ∧ task.id < st.sh.taskIdCounter ∧
      task.id ∉ st.sh.heap.map (·.id)
  apart : ∀ k k' a a' task task' term term' todo todo', k ≠ k' → st.adding k = some a → st.adding k' = some a' →
    a.stage = .push task term todo → a'.stage = .push task' term' todo' → task.id ≠ task'.id
  filing : ∀ k a r term todo, st.adding k = some a → a.stage = .file r term todo →
    ∃ t, st.sh.heap[r]? = some t ∧ t.sentence.term = term
  idle : ∃ N, ∀ k, N ≤ k → st.adding k = none

theorem core_get {l l' : List Task} (hh : l'.map Task.core = l.map Task.core) {r : Nat} {t' : Task}
    (h : l'[r]? = some t') : ∃ t, l[r]? = some t ∧ t.core = t'.core := by
  have h1 : (l'.map Task.core)[r]? = some t'.core := by rw [List.getElem?_map, h]; rfl
  rw [hh, List.getElem?_map, Option.map_eq_some_iff] at h1
  exact h1

theorem core_mem {l l' : List Task} (hh : l'.map Task.core = l.map Task.core) {t' : Task}
    (h : t' ∈ l') : ∃ t ∈ l, t.core = t'.core := by
  obtain ⟨r, hr⟩ := List.mem_iff_getElem?.1 h
  obtain ⟨t, ht, hc⟩ := core_get hh hr
  exact ⟨t, List.mem_of_getElem? ht, hc⟩

theorem core_ids {l l' : List Task} (hh : l'.map Task.core = l.map Task.core) : l'.map (·.id) = l.map (·.id) := by
  have := congrArg (List.map (·.1)) hh
  simpa [List.map_map, Function.comp_def, Task.core] using this

theorem core_length {l l' : List Task} (hh : l'.map Task.core = l.map Task.core) : l'.length = l.length := by
  have := congrArg List.length hh; simpa using this

/-- changes of credits, usage, questions, memory, clocks -/
theorem RaceInv.frame {cfg : Cfg} {st : Race} {sh' : Shared} (h : RaceInv cfg st)
    (hh : sh'.heap.map Task.core = st.sh.heap.map Task.core) (hj : sh'.judgementTasks = st.sh.judgementTasks)
    (hb : sh'.judgementTasksByTerm = st.sh.judgementTasksByTerm) (hc : sh'.taskIdCounter = st.sh.taskIdCounter) :
    RaceInv cfg { st with sh := sh' } where
  valid := by simp only; rw [hj, core_length hh]; exact h.valid
  ids := by simp only; rw [core_ids hh]; exact h.ids
  fresh := by
    intro t' ht'
    obtain ⟨t, ht, he⟩ := core_mem hh ht'
    simp only; rw [hc, ← (core_eq_iff.1 he).1]; exact h.fresh t ht
  nodup := by simp only; rw [hj]; exact h.nodup
  complexity := by
    intro t' ht'
    obtain ⟨t, ht, he⟩ := core_mem hh ht'
    rw [← (core_eq_iff.1 he).2.1]; exact h.complexity t ht
  sound := by
    simp only; rw [hb]
    intro p hp r hr
    obtain ⟨t, ht, hs⟩ := h.sound p hp r hr
    obtain ⟨t', ht', he⟩ := core_get hh.symm ht
    exact ⟨t', ht', by rw [(core_eq_iff.1 he).2.1]; exact hs⟩
  complete := by
    simp only; rw [hj]
    intro r hr t' ht'
    obtain ⟨t, ht, he⟩ := core_get hh ht'
    rcases h.complete r hr t ht with h1 | h1
    · left
      intro s hs
      rw [← (core_eq_iff.1 he).2.1] at hs
      rw [hb]; exact h1 s hs
    · exact .inr h1
  keys := by simp only; rw [hb]; exact h.keys
  sents := h.sents
  same := h.same
  made := by
    intro k a task term todo ha hst
    simp only; rw [core_ids hh, hc]; exact h.made k a task term todo ha hst
  apart := h.apart
  filing := by
    intro k a r term todo ha hst
    obtain ⟨t, ht, hs⟩ := h.filing k a r term todo ha hst
    obtain ⟨t', ht', he⟩ := core_get hh.symm ht
    exact ⟨t', ht', by rw [(core_eq_iff.1 he).2.1]; exact hs⟩
  idle := h.idle

/-- the working list shrinks -/
theorem RaceInv.shrink {cfg : Cfg} {st : Race} (h : RaceInv cfg st) (l l' : List Nat)
    (hl : l.Perm st.sh.judgementTasks) (hj : l'.Sublist l) :
    RaceInv cfg { st with sh := { st.sh with judgementTasks := l' } } :=
  have hsub : ∀ r ∈ l', r ∈ st.sh.judgementTasks := fun r hr => hl.mem_iff.1 (hj.subset hr)
  { h with
    valid := fun r hr => h.valid r (hsub r hr)
    nodup := (hl.nodup_iff.2 h.nodup).sublist hj
    complete := fun r hr t ht => h.complete r (hsub r hr) t ht }

/-- the lookup by term is made anew from the working list -/
theorem rebuildLookup_facts {sh sh' : Shared} (h : rebuildLookup sh = .ok sh') :
    ∃ m, sh' = { sh with judgementTasksByTerm := m } ∧ (m.map (·.1)).Nodup ∧
      (∀ p ∈ m, ∀ r ∈ p.2, ∃ t, sh.heap[r]? = some t ∧ IsSubterm p.1 t.sentence.term) ∧
      (∀ r ∈ sh.judgementTasks, ∀ t, sh.heap[r]? = some t → Filed sh' r t) := by
  unfold rebuildLookup at h
  rw [R.bind_ok] at h
  obtain ⟨terms, ht, h⟩ := h
  cases h
  rw [mapM_ok_iff] at ht
  have h1 : terms.map (·.2) = sh.judgementTasks ∧
      ∀ p ∈ terms, ∃ t, sh.heap[p.2]? = some t ∧ t.sentence.term = p.1 := by
    generalize sh.judgementTasks = l at ht
    induction ht with
    | nil => simp
    | @cons a b l1 l2 hab _ ih =>
      rw [R.bind_ok] at hab
      obtain ⟨t, ht, hab⟩ := hab
      cases hab
      refine ⟨by simp [ih.1], ?_⟩
      intro p hp
      rcases List.mem_cons.1 hp with rfl | hp
      · exact ⟨t, indexAt_ok.1 ht, rfl⟩
      · exact ih.2 p hp
  have key : ∀ (l : List (Term × Nat)) (m : List (Term × List Nat)), (m.map (·.1)).Nodup →
      ((l.foldl (fun m p => populateTaskByTermLookup m p.1 p.2) m).map (·.1)).Nodup ∧
      (∀ p ∈ l.foldl (fun m p => populateTaskByTermLookup m p.1 p.2) m, ∀ x ∈ p.2,
        (∃ q ∈ l, q.2 = x ∧ IsSubterm p.1 q.1) ∨ ∃ q ∈ m, q.1 = p.1 ∧ x ∈ q.2) ∧
      (∀ q ∈ l, ∀ s, IsSubterm s q.1 → ∃ refs,
        lookupRefs (l.foldl (fun m p => populateTaskByTermLookup m p.1 p.2) m) s = some refs ∧ q.2 ∈ refs) ∧
      (∀ s refs x, lookupRefs m s = some refs → x ∈ refs → ∃ refs',
        lookupRefs (l.foldl (fun m p => populateTaskByTermLookup m p.1 p.2) m) s = some refs' ∧ x ∈ refs') := by
    intro l
    induction l with
    | nil =>
      intro m hk
      exact ⟨hk, fun p hp x hx => .inr ⟨p, hp, rfl, hx⟩, by simp, fun s refs x h hx => ⟨refs, h, hx⟩⟩
    | cons a l ih =>
      intro m hk
      obtain ⟨p1, p2, p3, p4⟩ := populate_spec m a.1 a.2 hk
      obtain ⟨i1, i2, i3, i4⟩ := ih _ p1
      simp only [List.foldl_cons]
      refine ⟨i1, ?_, ?_, ?_⟩
      · intro p hp x hx
        rcases i2 p hp x hx with ⟨q, hq, h⟩ | ⟨q, hq, hqp, hxq⟩
        · exact .inl ⟨q, by simp [hq], h⟩
        · rcases p2 q hq x hxq with ⟨h1, h2⟩ | ⟨q', hq', h1, h2⟩
          · exact .inl ⟨a, by simp, h1.symm, by rw [← hqp]; exact h2⟩
          · exact .inr ⟨q', hq', h1.trans hqp, h2⟩
      · intro q hq s hs
        rcases List.mem_cons.1 hq with rfl | hq
        · obtain ⟨refs, h1, h2⟩ := p3 s hs
          exact i4 s refs _ h1 h2
        · exact i3 q hq s hs
      · intro s refs x h hx
        obtain ⟨refs', h1, h2⟩ := p4 s refs x h hx
        exact i4 s refs' x h1 h2
  obtain ⟨k1, k2, k3, _⟩ := key terms [] (by simp)
  refine ⟨_, rfl, k1, ?_, ?_⟩
  · intro p hp r hr
    rcases k2 p hp r hr with ⟨q, hq, rfl, hs⟩ | ⟨q, hq, _⟩
    · obtain ⟨t, ht, he⟩ := h1.2 q hq
      exact ⟨t, ht, by rw [he]; exact hs⟩
    · simp at hq
  · intro r hr t ht s hs
    have hr' : r ∈ terms.map (·.2) := by rw [h1.1]; exact hr
    obtain ⟨q, hq, rfl⟩ := List.mem_map.1 hr'
    obtain ⟨t', ht', he⟩ := h1.2 q hq
    rw [ht] at ht'; cases ht'
    exact k3 q hq s (by rw [← he]; exact hs)

theorem reviseAt_result {s : Sentence} {st st' : Mem × Option Sentence} {t : Term} (h : reviseAt s st t = .ok st')
    (hP : ∀ x, st.2 = some x → x.term = s.term) : ∀ x, st'.2 = some x → x.term = s.term := by
  have hr : ∀ cell table r y, reviseTable cell table s = .ok r → r.2 = some y → y.term = s.term := by
    intro cell table r y h hy
    rcases reviseTable_cases h with ⟨_, rfl⟩ | ⟨pre, b, post, add, rfl, hb, _, _, hr, rfl⟩
    · cases hy
    · cases hy
      obtain ⟨_, _, _, _, _, _, rfl⟩ := revisedBelief_ok hr
      exact hb
  rcases reviseAt_cases h with ⟨_, rfl⟩ | ⟨c, r1, r2, _, g1, g2, rfl⟩
  · exact hP
  · intro y hy
    simp only at hy
    cases e2 : r2.2 with
    | some z => rw [e2] at hy; simp at hy; subst hy; exact hr _ _ _ _ g2 e2
    | none =>
      rw [e2] at hy; simp only [Option.none_or] at hy
      cases e1 : r1.2 with
      | some z => rw [e1] at hy; simp at hy; subst hy; exact hr _ _ _ _ g1 e1
      | none => rw [e1] at hy; simp only [Option.none_or] at hy; exact hP y hy

/-! ## Threads -/

theorem Race.put_ne (st : Race) (sh : Shared) {k j : Nat} (a : Option Adding) (h : j ≠ k) :
    (st.put sh k a).adding j = st.adding j := if_neg h

@[simp] theorem Race.put_self (st : Race) (sh : Shared) (k : Nat) (a : Option Adding) : (st.put sh k a).adding k = a := if_pos rfl

@[simp] theorem Race.put_sh (st : Race) (sh : Shared) (k : Nat) (a : Option Adding) : (st.put sh k a).sh = sh := rfl

/-- thread `k`, which is not between the working list and the lookup, goes on to a stage which is neither -/
theorem RaceInv.goOn {cfg : Cfg} {st : Race} (h : RaceInv cfg st) (k : Nat) (a' : Option Adding)
    (hk : ∀ a r term todo, st.adding k = some a → a.stage ≠ .file r term todo)
    (hs : ∀ a, a' = some a → ∀ s ∈ a.sents, (calcComplexity s.term : Int) ≤ cfg.maxComplexity)
    (hr : ∀ a ts res, a' = some a → a.stage = .revise ts res →
      (calcComplexity a.sentence.term : Int) ≤ cfg.maxComplexity ∧ ∀ x, res = some x → x.term = a.sentence.term)
    (hp : ∀ a task term todo, a' = some a → a.stage ≠ .push task term todo)
    (hf : ∀ a r term todo, a' = some a → a.stage ≠ .file r term todo) :
    RaceInv cfg (st.put st.sh k a') where
  valid := h.valid
  ids := h.ids
  fresh := h.fresh
  nodup := h.nodup
  complexity := h.complexity
  sound := h.sound
  keys := h.keys
  complete := by
    intro r hr t ht
    rcases h.complete r hr t ht with h1 | ⟨j, a, term, todo, ha, hst⟩
    · exact .inl h1
    · right
      refine ⟨j, a, term, todo, ?_, hst⟩
      rw [Race.put_ne]; exact ha
      rintro rfl; exact hk a r term todo ha hst
  sents := by
    intro j a ha
    by_cases hj : j = k
    · subst hj; rw [Race.put_self] at ha; exact hs a ha
    · rw [Race.put_ne _ _ _ hj] at ha; exact h.sents j a ha
  same := by
    intro j a ts res ha
    by_cases hj : j = k
    · subst hj; rw [Race.put_self] at ha; exact hr a ts res ha
    · rw [Race.put_ne _ _ _ hj] at ha; exact h.same j a ts res ha
  made := by
    intro j a task term todo ha hst
    by_cases hj : j = k
    · subst hj; rw [Race.put_self] at ha; exact absurd hst (hp a task term todo ha)
    · rw [Race.put_ne _ _ _ hj] at ha; exact h.made j a task term todo ha hst
  apart := by
    intro j j' a a1 task task' term term' todo todo' hne ha ha' hst hst'
    by_cases hj : j = k
    · subst hj; rw [Race.put_self] at ha; exact absurd hst (hp a task term todo ha)
    · by_cases hj' : j' = k
      · subst hj'; rw [Race.put_self] at ha'; exact absurd hst' (hp a1 task' term' todo' ha')
      · rw [Race.put_ne _ _ _ hj] at ha; rw [Race.put_ne _ _ _ hj'] at ha'
        exact h.apart j j' a a1 task task' term term' todo todo' hne ha ha' hst hst'
  filing := by
    intro j a r term todo ha hst
    by_cases hj : j = k
    · subst hj; rw [Race.put_self] at ha; exact absurd hst (hf a r term todo ha)
    · rw [Race.put_ne _ _ _ hj] at ha; exact h.filing j a r term todo ha hst
  idle := by
    obtain ⟨N, hN⟩ := h.idle
    refine ⟨max N (k + 1), fun j hj => ?_⟩
    rw [Race.put_ne _ _ _ (by omega)]; exact hN j (by omega)

/-- thread `k` has made a task -/
theorem RaceInv.make {cfg : Cfg} {st : Race} (h : RaceInv cfg st) (k : Nat) (a a' : Adding) (task : Task) (todo : List Sentence)
    (ha : st.adding k = some a) (hk : ∀ r term todo, a.stage ≠ .file r term todo)
    (hst : a'.stage = .push task task.sentence.term todo) (hid : task.id = st.sh.taskIdCounter)
    (hc : (calcComplexity task.sentence.term : Int) ≤ cfg.maxComplexity)
    (hs : ∀ s ∈ todo, (calcComplexity s.term : Int) ≤ cfg.maxComplexity) :
    RaceInv cfg (st.put { st.sh with taskIdCounter := st.sh.taskIdCounter + 1 } k (some a')) where
  valid := h.valid
  ids := h.ids
  fresh := fun t ht => by have := h.fresh t ht; simp only [Race.put_sh]; omega
  nodup := h.nodup
  complexity := h.complexity
  sound := h.sound
  keys := h.keys
  complete := by
    intro r hr t ht
    rcases h.complete r hr t ht with h1 | ⟨j, b, term, todo, hb, hst⟩
    · exact .inl h1
    · right
      refine ⟨j, b, term, todo, ?_, hst⟩
      rw [Race.put_ne]; exact hb
      rintro rfl; rw [ha] at hb; cases hb; exact hk r term todo hst
  sents := by
    intro j b hb
    by_cases hj : j = k
    · subst hj; rw [Race.put_self] at hb; cases hb
      unfold Adding.sents; rw [hst]; exact hs
    · rw [Race.put_ne _ _ _ hj] at hb; exact h.sents j b hb
  same := by
    intro j b ts res hb hstb
    by_cases hj : j = k
    · subst hj; rw [Race.put_self] at hb; cases hb; rw [hst] at hstb; cases hstb
    · rw [Race.put_ne _ _ _ hj] at hb; exact h.same j b ts res hb hstb
  made := by
    intro j b task' term todo' hb hstb
    by_cases hj : j = k
    · subst hj; rw [Race.put_self] at hb; cases hb; rw [hst] at hstb; cases hstb
      refine ⟨rfl, hc, by simp only [Race.put_sh]; omega, ?_⟩
      intro hm
      obtain ⟨t, ht, he⟩ := List.mem_map.1 hm
      have := h.fresh t ht
      omega
    · rw [Race.put_ne _ _ _ hj] at hb
      obtain ⟨h1, h2, h3, h4⟩ := h.made j b task' term todo' hb hstb
      exact ⟨h1, h2, by simp only [Race.put_sh]; omega, h4⟩
  apart := by
    intro j j' b b' t1 t2 term term' todo1 todo2 hne hb hb' h1 h2
    by_cases hj : j = k
    · subst hj; rw [Race.put_self] at hb; cases hb; rw [hst] at h1; cases h1
      rw [Race.put_ne _ _ _ (Ne.symm hne)] at hb'
      have := (h.made j' b' t2 term' todo2 hb' h2).2.2.1
      omega
    · rw [Race.put_ne _ _ _ hj] at hb
      by_cases hj' : j' = k
      · subst hj'; rw [Race.put_self] at hb'; cases hb'; rw [hst] at h2; cases h2
        have := (h.made j b t1 term todo1 hb h1).2.2.1
        omega
      · rw [Race.put_ne _ _ _ hj'] at hb'
        exact h.apart j j' b b' t1 t2 term term' todo1 todo2 hne hb hb' h1 h2
  filing := by
    intro j b r term todo' hb hstb
    by_cases hj : j = k
    · subst hj; rw [Race.put_self] at hb; cases hb; rw [hst] at hstb; cases hstb
    · rw [Race.put_ne _ _ _ hj] at hb; exact h.filing j b r term todo' hb hstb
  idle := by
    obtain ⟨N, hN⟩ := h.idle
    refine ⟨max N (k + 1), fun j hj => ?_⟩
    rw [Race.put_ne _ _ _ (by omega)]; exact hN j (by omega)

/-- thread `k` puts its task into the working list -/
theorem RaceInv.push {cfg : Cfg} {st : Race} (h : RaceInv cfg st) (k : Nat) (a a' : Adding) (task : Task) (term : Term)
    (todo : List Sentence) (ha : st.adding k = some a) (hst : a.stage = .push task term todo)
    (hst' : a'.stage = .file st.sh.heap.length term todo) :
    RaceInv cfg (st.put { st.sh with
      heap := st.sh.heap ++ [task], judgementTasks := st.sh.judgementTasks ++ [st.sh.heap.length] } k (some a')) := by
  obtain ⟨m1, m2, m3, m4⟩ := h.made k a task term todo ha hst
  have hold : ∀ {r : Nat} {t : Task}, r < st.sh.heap.length → (st.sh.heap ++ [task])[r]? = some t → st.sh.heap[r]? = some t := by
    intro r t hr h; rw [List.getElem?_append_left hr] at h; exact h
  have hnew : ∀ {r : Nat} {t : Task}, st.sh.heap[r]? = some t → (st.sh.heap ++ [task])[r]? = some t := by
    intro r t hr
    have hlt : r < st.sh.heap.length := by
      by_contra hge
      rw [List.getElem?_eq_none (by omega)] at hr; cases hr
    rw [List.getElem?_append_left hlt]; exact hr
  refine ⟨?_, ?_, ?_, ?_, ?_, ?_, ?_, h.keys, ?_, ?_, ?_, ?_, ?_, ?_⟩
  · intro r hr
    simp only [Race.put_sh] at hr ⊢
    rcases List.mem_append.1 hr with hr | hr
    · have := h.valid r hr; simp; omega
    · simp at hr; simp [hr]
  · simp only [Race.put_sh, List.map_append, List.map_cons, List.map_nil]
    rw [List.nodup_append]
    refine ⟨h.ids, by simp, ?_⟩
    intro x hx y hy
    simp at hy; subst hy
    rintro rfl; exact m4 hx
  · intro t ht
    simp only [Race.put_sh] at ht ⊢
    rcases List.mem_append.1 ht with ht | ht
    · exact h.fresh t ht
    · simp at ht; subst ht; exact m3
  · simp only [Race.put_sh]
    rw [List.nodup_append]
    refine ⟨h.nodup, by simp, ?_⟩
    intro x hx y hy
    simp at hy; subst hy
    have := h.valid x hx; omega
  · intro t ht
    simp only [Race.put_sh] at ht
    rcases List.mem_append.1 ht with ht | ht
    · exact h.complexity t ht
    · simp at ht; subst ht; rw [m1]; exact m2
  · intro p hp r hr
    obtain ⟨t, ht, hs⟩ := h.sound p hp r hr
    exact ⟨t, hnew ht, hs⟩
  · intro r hr t ht
    simp only [Race.put_sh] at hr ht
    rcases List.mem_append.1 hr with hr | hr
    · rcases h.complete r hr t (hold (h.valid r hr) ht) with h1 | ⟨j, b, term', todo', hb, hstb⟩
      · exact .inl h1
      · right
        refine ⟨j, b, term', todo', ?_, hstb⟩
        rw [Race.put_ne]; exact hb
        rintro rfl; rw [ha] at hb; cases hb; rw [hst] at hstb; cases hstb
    · simp at hr; subst hr
      exact .inr ⟨k, a', term, todo, by simp, hst'⟩
  · intro j b hb
    by_cases hj : j = k
    · subst hj; rw [Race.put_self] at hb; cases hb
      have := h.sents j a ha
      unfold Adding.sents at this ⊢; rw [hst] at this; rw [hst']; exact this
    · rw [Race.put_ne _ _ _ hj] at hb; exact h.sents j b hb
  · intro j b ts res hb hstb
    by_cases hj : j = k
    · subst hj; rw [Race.put_self] at hb; cases hb; rw [hst'] at hstb; cases hstb
    · rw [Race.put_ne _ _ _ hj] at hb; exact h.same j b ts res hb hstb
  · intro j b t' term' todo' hb hstb
    by_cases hj : j = k
    · subst hj; rw [Race.put_self] at hb; cases hb; rw [hst'] at hstb; cases hstb
    · rw [Race.put_ne _ _ _ hj] at hb
      obtain ⟨h1, h2, h3, h4⟩ := h.made j b t' term' todo' hb hstb
      refine ⟨h1, h2, h3, ?_⟩
      simp only [Race.put_sh, List.map_append, List.map_cons, List.map_nil, List.mem_append, List.mem_singleton, not_or]
      exact ⟨h4, h.apart j k b a t' task term' term todo' todo hj hb ha hstb hst⟩
  · intro j j' b b' t1 t2 term1 term2 todo1 todo2 hne hb hb' h1 h2
    by_cases hj : j = k
    · subst hj; rw [Race.put_self] at hb; cases hb; rw [hst'] at h1; cases h1
    · by_cases hj' : j' = k
      · subst hj'; rw [Race.put_self] at hb'; cases hb'; rw [hst'] at h2; cases h2
      · rw [Race.put_ne _ _ _ hj] at hb; rw [Race.put_ne _ _ _ hj'] at hb'
        exact h.apart j j' b b' t1 t2 term1 term2 todo1 todo2 hne hb hb' h1 h2
  · intro j b r term' todo' hb hstb
    by_cases hj : j = k
    · subst hj; rw [Race.put_self] at hb; cases hb; rw [hst'] at hstb; cases hstb
      exact ⟨task, by simp, m1⟩
    · rw [Race.put_ne _ _ _ hj] at hb
      obtain ⟨t, ht, he⟩ := h.filing j b r term' todo' hb hstb
      exact ⟨t, hnew ht, he⟩
  · obtain ⟨N, hN⟩ := h.idle
    refine ⟨max N (k + 1), fun j hj => ?_⟩
    rw [Race.put_ne _ _ _ (by omega)]; exact hN j (by omega)

/-- thread `k` enters its task in the lookup -/
theorem RaceInv.file {cfg : Cfg} {st : Race} (h : RaceInv cfg st) (k : Nat) (a a' : Adding) (r0 : Nat) (term : Term)
    (todo : List Sentence) (ha : st.adding k = some a) (hst : a.stage = .file r0 term todo) (hst' : a'.stage = .each todo) :
    RaceInv cfg (st.put { st.sh with
      judgementTasksByTerm := populateTaskByTermLookup st.sh.judgementTasksByTerm term r0 } k (some a')) := by
  obtain ⟨t0, ht0, he0⟩ := h.filing k a r0 term todo ha hst
  obtain ⟨p1, p2, p3, p4⟩ := populate_spec st.sh.judgementTasksByTerm term r0 h.keys
  refine ⟨h.valid, h.ids, h.fresh, h.nodup, h.complexity, ?_, ?_, p1, ?_, ?_, ?_, ?_, ?_, ?_⟩
  · intro p hp r hr
    rcases p2 p hp r hr with ⟨rfl, hsub⟩ | ⟨q, hq, hqp, hrq⟩
    · exact ⟨t0, ht0, by rw [he0]; exact hsub⟩
    · rw [← hqp]; exact h.sound q hq r hrq
  · intro r hr t ht
    rcases h.complete r hr t ht with h1 | ⟨j, b, term', todo', hb, hstb⟩
    · left
      intro s hs
      obtain ⟨refs, h2, h3⟩ := h1 s hs
      exact p4 s refs r h2 h3
    · by_cases hj : j = k
      · subst hj; rw [ha] at hb; cases hb; rw [hst] at hstb; cases hstb
        left
        simp only [Race.put_sh] at ht
        rw [ht0] at ht; cases ht
        intro s hs
        rw [he0] at hs
        exact p3 s hs
      · right
        refine ⟨j, b, term', todo', ?_, hstb⟩
        rw [Race.put_ne _ _ _ hj]; exact hb
  · intro j b hb
    by_cases hj : j = k
    · subst hj; rw [Race.put_self] at hb; cases hb
      have := h.sents j a ha
      unfold Adding.sents at this ⊢; rw [hst] at this; rw [hst']; exact this
    · rw [Race.put_ne _ _ _ hj] at hb; exact h.sents j b hb
  · intro j b ts res hb hstb
    by_cases hj : j = k
    · subst hj; rw [Race.put_self] at hb; cases hb; rw [hst'] at hstb; cases hstb
    · rw [Race.put_ne _ _ _ hj] at hb; exact h.same j b ts res hb hstb
  · intro j b t' term' todo' hb hstb
    by_cases hj : j = k
    · subst hj; rw [Race.put_self] at hb; cases hb; rw [hst'] at hstb; cases hstb
    · rw [Race.put_ne _ _ _ hj] at hb
      exact h.made j b t' term' todo' hb hstb
  · intro j j' b b' t1 t2 term1 term2 todo1 todo2 hne hb hb' h1 h2
    by_cases hj : j = k
    · subst hj; rw [Race.put_self] at hb; cases hb; rw [hst'] at h1; cases h1
    · by_cases hj' : j' = k
      · subst hj'; rw [Race.put_self] at hb'; cases hb'; rw [hst'] at h2; cases h2
      · rw [Race.put_ne _ _ _ hj] at hb; rw [Race.put_ne _ _ _ hj'] at hb'
        exact h.apart j j' b b' t1 t2 term1 term2 todo1 todo2 hne hb hb' h1 h2
  · intro j b r term' todo' hb hstb
    by_cases hj : j = k
    · subst hj; rw [Race.put_self] at hb; cases hb; rw [hst'] at hstb; cases hstb
    · rw [Race.put_ne _ _ _ hj] at hb
      exact h.filing j b r term' todo' hb hstb
  · obtain ⟨N, hN⟩ := h.idle
    refine ⟨max N (k + 1), fun j hj => ?_⟩
    rw [Race.put_ne _ _ _ (by omega)]; exact hN j (by omega)

end Nar
