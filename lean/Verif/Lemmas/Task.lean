import Verif.Spec.Task
import Verif.Lemmas.Mem2
import Verif.Lemmas.Unify
import Mathlib.Data.List.Perm.Basic
/-! # Helper lemmas about tasks -/
namespace Nar
open Term

theorem indexAt_ok {α} {l : List α} {i : Nat} {a : α} : indexAt l i = .ok a ↔ l[i]? = some a := by
  unfold indexAt
  cases l[i]? <;> simp

theorem derefs_iff {sh : Shared} {refs : List Nat} {ts : List Task} :
    sh.derefs refs = .ok ts ↔ List.Forall₂ (fun r t => sh.heap[r]? = some t) refs ts := by
  unfold Shared.derefs
  rw [mapM_ok_iff]
  constructor <;> intro h <;> exact h.imp (fun _ _ h => by simpa [indexAt_ok] using h)

theorem derefs_total {sh : Shared} {refs : List Nat} (h : ∀ r ∈ refs, r < sh.heap.length) :
    ∃ ts, sh.derefs refs = .ok ts := by
  induction refs with
  | nil => exact ⟨[], rfl⟩
  | cons r refs ih =>
    obtain ⟨ts, hts⟩ := ih (fun r hr => h r (by simp [hr]))
    have hr := h r (by simp)
    refine ⟨sh.heap[r] :: ts, ?_⟩
    rw [derefs_iff] at hts ⊢
    exact .cons (List.getElem?_eq_getElem hr) hts

theorem forall₂_left_mem {α β} {R : α → β → Prop} {l : List α} {m : List β} (h : List.Forall₂ R l m) {a : α}
    (ha : a ∈ l) : ∃ b ∈ m, R a b := by
  induction h with
  | nil => simp at ha
  | @cons a' b l m hab _ ih =>
    rcases List.mem_cons.1 ha with rfl | ha
    · exact ⟨b, by simp, hab⟩
    · obtain ⟨b', h1, h2⟩ := ih ha
      exact ⟨b', by simp [h1], h2⟩

theorem forall₂_right_mem {α β} {R : α → β → Prop} {l : List α} {m : List β} (h : List.Forall₂ R l m) {b : β}
    (hb : b ∈ m) : ∃ a ∈ l, R a b := by
  induction h with
  | nil => simp at hb
  | @cons a b' l m hab _ ih =>
    rcases List.mem_cons.1 hb with rfl | hb
    · exact ⟨a, by simp, hab⟩
    · obtain ⟨a', h1, h2⟩ := ih hb
      exact ⟨a', by simp [h1], h2⟩

/-! ## swap_remove -/

theorem swapRemove_perm {α} (l : List α) (i : Nat) (h : i < l.length) : (swapRemove l i).Perm (l.eraseIdx i) := by
  unfold swapRemove
  have hne : l ≠ [] := by intro e; rw [e] at h; simp at h
  rw [List.getLast?_eq_some_getLast hne]
  simp only
  obtain ⟨init, last, rfl⟩ : ∃ init last, l = init ++ [last] :=
    ⟨l.dropLast, l.getLast hne, (List.dropLast_append_getLast hne).symm⟩
  simp only [List.getLast_append_of_ne_nil, List.getLast_singleton, ne_eq, List.cons_ne_nil, not_false_eq_true]
  simp only [List.length_append, List.length_singleton] at h
  rcases Nat.lt_or_ge i init.length with hi | hi
  · rw [List.set_append_left _ _ hi, List.dropLast_append_of_ne_nil (by simp), List.eraseIdx_append_of_lt_length hi]
    simp only [List.dropLast_singleton, List.append_nil]
    exact (List.set_perm_cons_eraseIdx hi last).trans (List.perm_append_singleton _ _).symm
  · have hi' : i = init.length := by omega
    subst hi'
    rw [List.set_append_right _ _ (le_refl _), List.eraseIdx_append_of_length_le (le_refl _)]
    simp

/-! ## invariant -/

/-- relation on references: different statement or evidence -/
def DiffRef (heap : List Task) (r r' : Nat) : Prop :=
  ∀ t t', heap[r]? = some t → heap[r']? = some t' → ¬ SameTask t t'

theorem SameTask.symm {a b : Task} (h : SameTask a b) : SameTask b a := ⟨h.1.symm, h.2.symm⟩

theorem DiffRef.symm {heap : List Task} {r r' : Nat} (h : DiffRef heap r r') : DiffRef heap r' r :=
  fun t t' ht ht' hs => h t' t ht' ht hs.symm

/-- state invariant of the task system -/
structure Inv (cfg : Cfg) (sh : Shared) : Prop where
  valid : ∀ r ∈ sh.judgementTasks, r < sh.heap.length
  ids : (sh.heap.map (·.id)).Nodup
  fresh : ∀ t ∈ sh.heap, t.id < sh.taskIdCounter
  nodup : sh.judgementTasks.Nodup
  complexity : ∀ t ∈ sh.heap, (calcComplexity t.sentence.term : Int) ≤ cfg.maxComplexity
  diff : sh.judgementTasks.Pairwise (DiffRef sh.heap)
  sound : ∀ p ∈ sh.judgementTasksByTerm, ∀ r ∈ p.2, ∃ t, sh.heap[r]? = some t ∧ IsSubterm p.1 t.sentence.term
  complete : ∀ r ∈ sh.judgementTasks, ∀ t, sh.heap[r]? = some t → ∀ s, IsSubterm s t.sentence.term →
    ∃ refs, lookupRefs sh.judgementTasksByTerm s = some refs ∧ r ∈ refs
  keys : (sh.judgementTasksByTerm.map (·.1)).Nodup

/-- the part of a task which never changes -/
def Task.core (t : Task) : Int × Term × Stamp := (t.id, t.sentence.term, t.sentence.stamp)

theorem core_eq_iff {t t' : Task} : t.core = t'.core ↔
    t.id = t'.id ∧ t.sentence.term = t'.sentence.term ∧ t.sentence.stamp = t'.sentence.stamp := by
  simp [Task.core]

/-- changing credits and usage in the heap, everything else alike -/
theorem Inv.of_core {cfg : Cfg} {sh sh' : Shared} (h : Inv cfg sh)
    (hh : sh'.heap.map Task.core = sh.heap.map Task.core) (hj : sh'.judgementTasks = sh.judgementTasks)
    (hb : sh'.judgementTasksByTerm = sh.judgementTasksByTerm) (hc : sh'.taskIdCounter = sh.taskIdCounter) :
    Inv cfg sh' := by
  have hlen : sh'.heap.length = sh.heap.length := by
    have := congrArg List.length hh; simpa using this
  have hget : ∀ {r : Nat} {t' : Task}, sh'.heap[r]? = some t' → ∃ t, sh.heap[r]? = some t ∧ t.core = t'.core := by
    intro r t' h'
    have h1 : (sh'.heap.map Task.core)[r]? = some t'.core := by rw [List.getElem?_map, h']; rfl
    rw [hh, List.getElem?_map, Option.map_eq_some_iff] at h1
    exact h1
  have hget' : ∀ {r : Nat} {t : Task}, sh.heap[r]? = some t → ∃ t', sh'.heap[r]? = some t' ∧ t'.core = t.core := by
    intro r t h'
    have h1 : (sh.heap.map Task.core)[r]? = some t.core := by rw [List.getElem?_map, h']; rfl
    rw [← hh, List.getElem?_map, Option.map_eq_some_iff] at h1
    exact h1
  have hmem : ∀ t' ∈ sh'.heap, ∃ t ∈ sh.heap, t.core = t'.core := by
    intro t' ht'
    obtain ⟨r, hr⟩ := List.mem_iff_getElem?.1 ht'
    obtain ⟨t, ht, hc⟩ := hget hr
    exact ⟨t, List.mem_of_getElem? ht, hc⟩
  have hids : sh'.heap.map (·.id) = sh.heap.map (·.id) := by
    have := congrArg (List.map (·.1)) hh
    simpa [List.map_map, Function.comp_def, Task.core] using this
  refine ⟨?_, ?_, ?_, ?_, ?_, ?_, ?_, ?_, ?_⟩
  · rw [hj, hlen]; exact h.valid
  · rw [hids]; exact h.ids
  · rw [hc]; intro t' ht'
    obtain ⟨t, ht, hc⟩ := hmem t' ht'
    rw [← (core_eq_iff.1 hc).1]; exact h.fresh t ht
  · rw [hj]; exact h.nodup
  · intro t' ht'
    obtain ⟨t, ht, hc⟩ := hmem t' ht'
    rw [← (core_eq_iff.1 hc).2.1]; exact h.complexity t ht
  · rw [hj]
    refine h.diff.imp ?_
    intro r r' hd t t' ht ht' hs
    obtain ⟨u, hu, huc⟩ := hget ht
    obtain ⟨u', hu', huc'⟩ := hget ht'
    rw [core_eq_iff] at huc huc'
    apply hd u u' hu hu'
    exact ⟨by rw [huc.2.1, huc'.2.1]; exact hs.1, by rw [huc.2.2, huc'.2.2]; exact hs.2⟩
  · rw [hb]
    intro p hp r hr
    obtain ⟨t, ht, hs⟩ := h.sound p hp r hr
    obtain ⟨t', ht', hc⟩ := hget' ht
    exact ⟨t', ht', by rw [(core_eq_iff.1 hc).2.1]; exact hs⟩
  · rw [hb, hj]
    intro r hr t' ht' s hs
    obtain ⟨t, ht, hc⟩ := hget ht'
    exact h.complete r hr t ht s (by rw [(core_eq_iff.1 hc).2.1]; exact hs)
  · rw [hb]; exact h.keys

/-- the working list shrinks to a sub-multiset -/
theorem Inv.of_working {cfg : Cfg} {sh sh' : Shared} (h : Inv cfg sh) (hh : sh'.heap = sh.heap)
    (l : List Nat) (hl : l.Perm sh.judgementTasks) (hj : sh'.judgementTasks.Sublist l)
    (hb : sh'.judgementTasksByTerm = sh.judgementTasksByTerm) (hc : sh'.taskIdCounter = sh.taskIdCounter) :
    Inv cfg sh' := by
  have hsub : ∀ r ∈ sh'.judgementTasks, r ∈ sh.judgementTasks := fun r hr => hl.mem_iff.1 (hj.subset hr)
  refine ⟨?_, ?_, ?_, ?_, ?_, ?_, ?_, ?_, ?_⟩
  · rw [hh]; exact fun r hr => h.valid r (hsub r hr)
  · rw [hh]; exact h.ids
  · rw [hh, hc]; exact h.fresh
  · exact (hl.nodup_iff.2 h.nodup).sublist hj
  · rw [hh]; exact h.complexity
  · rw [hh]
    exact List.Pairwise.sublist hj ((hl.pairwise_iff (fun {_ _} h => DiffRef.symm h)).2 h.diff)
  · rw [hh, hb]; exact h.sound
  · rw [hh, hb]; exact fun r hr => h.complete r (hsub r hr)
  · rw [hb]; exact h.keys

/-! ## lookup by term -/

theorem pushRef_keys (m : List (Term × List Nat)) (t : Term) (r : Nat) (h : (m.map (·.1)).Nodup) :
    ((pushRef m t r).map (·.1)).Nodup ∧ ∀ k, k ∈ (pushRef m t r).map (·.1) ↔ k ∈ m.map (·.1) ∨ k = t := by
  induction m with
  | nil => simp [pushRef]
  | cons p m ih =>
    obtain ⟨k0, v⟩ := p
    simp only [List.map_cons, List.nodup_cons] at h
    unfold pushRef
    split
    · rename_i hk
      have := (checkEqTerm_iff _ _).1 hk
      subst this
      simp only [List.map_cons, List.nodup_cons]
      refine ⟨h, ?_⟩
      intro k
      simp only [List.mem_cons]
      tauto
    · rename_i hk
      obtain ⟨h1, h2⟩ := ih h.2
      simp only [List.map_cons, List.nodup_cons]
      refine ⟨⟨?_, h1⟩, ?_⟩
      · rw [h2]
        rintro (h3 | h3)
        · exact h.1 h3
        · exact hk ((checkEqTerm_iff _ _).2 h3)
      · intro k
        simp only [List.mem_cons, h2]
        tauto

theorem pushRef_mem {m : List (Term × List Nat)} {t : Term} {r : Nat} {p : Term × List Nat}
    (h : p ∈ pushRef m t r) : ∀ x ∈ p.2, (x = r ∧ p.1 = t) ∨ ∃ q ∈ m, q.1 = p.1 ∧ x ∈ q.2 := by
  induction m with
  | nil => simp [pushRef] at h; subst h; simp
  | cons q m ih =>
    obtain ⟨k, v⟩ := q
    unfold pushRef at h
    split at h
    · rename_i hk
      have hkt := (checkEqTerm_iff _ _).1 hk
      rcases List.mem_cons.1 h with rfl | h
      · intro x hx
        rcases List.mem_append.1 hx with hx | hx
        · exact .inr ⟨(k, v), by simp, rfl, hx⟩
        · left; simpa using ⟨by simpa using hx, hkt⟩
      · intro x hx
        exact .inr ⟨p, by simp [h], rfl, hx⟩
    · rcases List.mem_cons.1 h with rfl | h
      · intro x hx; exact .inr ⟨_, by simp, rfl, hx⟩
      · intro x hx
        rcases ih h x hx with h1 | ⟨q, hq, h1⟩
        · exact .inl h1
        · exact .inr ⟨q, by simp [hq], h1⟩

theorem lookupRefs_pushRef (m : List (Term × List Nat)) (t : Term) (r : Nat) (s : Term) :
    lookupRefs (pushRef m t r) s =
      if s = t then some ((lookupRefs m t).getD [] ++ [r]) else lookupRefs m s := by
  induction m with
  | nil =>
    by_cases h : s = t
    · subst h; simp [pushRef, lookupRefs, checkEqTerm_self]
    · simp [pushRef, lookupRefs, h, (checkEqTerm_false_iff _ _).2 (Ne.symm h)]
  | cons p m ih =>
    obtain ⟨k, v⟩ := p
    unfold pushRef
    by_cases hk : k = t
    · subst hk
      rw [if_pos (checkEqTerm_self k)]
      by_cases h : s = k
      · subst h; simp [lookupRefs, checkEqTerm_self]
      · have := (checkEqTerm_false_iff _ _).2 (Ne.symm h)
        simp [lookupRefs, h, this]
    · rw [if_neg (by rw [checkEqTerm_iff]; exact hk)]
      by_cases hks : k = s
      · subst hks
        have h1 := (checkEqTerm_false_iff _ _).2 hk
        rw [if_neg hk]
        simp [lookupRefs, checkEqTerm_self]
      · have h1 := (checkEqTerm_false_iff _ _).2 hks
        have h2 := (checkEqTerm_false_iff _ _).2 hk
        have e1 : ∀ (m : List (Term × List Nat)), lookupRefs ((k, v) :: m) s = lookupRefs m s := by
          intro m; simp [lookupRefs, h1]
        have e2 : lookupRefs ((k, v) :: m) t = lookupRefs m t := by simp [lookupRefs, h2]
        rw [e1, e1, e2]; exact ih

/-- facts about registering a task under its sub-terms -/
theorem populate_spec (m : List (Term × List Nat)) (term : Term) (r : Nat) (hk : (m.map (·.1)).Nodup) :
    ((populateTaskByTermLookup m term r).map (·.1)).Nodup ∧
    (∀ p ∈ populateTaskByTermLookup m term r, ∀ x ∈ p.2, (x = r ∧ IsSubterm p.1 term) ∨ ∃ q ∈ m, q.1 = p.1 ∧ x ∈ q.2) ∧
    (∀ s, IsSubterm s term → ∃ refs, lookupRefs (populateTaskByTermLookup m term r) s = some refs ∧ r ∈ refs) ∧
    (∀ s refs x, lookupRefs m s = some refs → x ∈ refs →
      ∃ refs', lookupRefs (populateTaskByTermLookup m term r) s = some refs' ∧ x ∈ refs') := by
  unfold populateTaskByTermLookup
  have hs : ∀ t ∈ retSubterms term, IsSubterm t term := fun t ht => (mem_retSubterms _ _).1 ht
  have key : ∀ (ts : List Term), (∀ t ∈ ts, IsSubterm t term) → ∀ m : List (Term × List Nat), (m.map (·.1)).Nodup →
      ((ts.foldl (fun m t => pushRef m t r) m).map (·.1)).Nodup ∧
      (∀ p ∈ ts.foldl (fun m t => pushRef m t r) m, ∀ x ∈ p.2, (x = r ∧ IsSubterm p.1 term) ∨ ∃ q ∈ m, q.1 = p.1 ∧ x ∈ q.2) ∧
      (∀ s ∈ ts, ∃ refs, lookupRefs (ts.foldl (fun m t => pushRef m t r) m) s = some refs ∧ r ∈ refs) ∧
      (∀ s refs x, lookupRefs m s = some refs → x ∈ refs →
        ∃ refs', lookupRefs (ts.foldl (fun m t => pushRef m t r) m) s = some refs' ∧ x ∈ refs') := by
    intro ts
    induction ts with
    | nil =>
      intro _ m hk
      refine ⟨hk, ?_, by simp, ?_⟩
      · intro p hp x hx; exact .inr ⟨p, hp, rfl, hx⟩
      · intro s refs x h hx; exact ⟨refs, h, hx⟩
    | cons t ts ih =>
      intro hts m hk
      obtain ⟨i1, i2, i3, i4⟩ := ih (fun t ht => hts t (by simp [ht])) (pushRef m t r) (pushRef_keys m t r hk).1
      simp only [List.foldl_cons]
      refine ⟨i1, ?_, ?_, ?_⟩
      · intro p hp x hx
        rcases i2 p hp x hx with h | ⟨q, hq, hqp, hxq⟩
        · exact .inl h
        · rcases pushRef_mem hq x hxq with ⟨h1, h2⟩ | ⟨q', hq', h1, h2⟩
          · left; refine ⟨h1, ?_⟩
            rw [← hqp, h2]; exact hts t (by simp)
          · right; exact ⟨q', hq', h1.trans hqp, h2⟩
      · intro s hsm
        rcases List.mem_cons.1 hsm with rfl | hsm
        · apply i4 s _ r (by rw [lookupRefs_pushRef, if_pos rfl]) (by simp)
        · exact i3 s hsm
      · intro s refs x h hx
        by_cases hst : s = t
        · subst hst
          apply i4 s _ x (by rw [lookupRefs_pushRef, if_pos rfl])
          simp [h, hx]
        · exact i4 s refs x (by rw [lookupRefs_pushRef, if_neg hst]; exact h) hx
  obtain ⟨k1, k2, k3, k4⟩ := key (retSubterms term) hs m hk
  exact ⟨k1, k2, fun s hs => k3 s ((mem_retSubterms _ _).2 hs), k4⟩

/-! ## adding tasks keeps the invariant -/

theorem divCredit_core {t t' : Task} (h : divCreditByComplexity t = .ok t') : t'.core = t.core := by
  unfold divCreditByComplexity at h
  split at h
  · cases h
  · cases h; rfl

theorem payCredit_core {cc : Bool} {t t' : Task} (h : payCredit cc t = .ok t') : t'.core = t.core := by
  unfold payCredit at h
  split at h
  · exact divCredit_core h
  · cases h; rfl

theorem getElem?_append_singleton {α} {l : List α} {a b : α} {r : Nat} (h : (l ++ [a])[r]? = some b) :
    (r < l.length ∧ l[r]? = some b) ∨ (r = l.length ∧ b = a) := by
  rcases Nat.lt_trichotomy r l.length with hr | hr | hr
  · left; rw [List.getElem?_append_left hr] at h; exact ⟨hr, h⟩
  · right; subst hr; simp at h; exact ⟨rfl, h.symm⟩
  · rw [List.getElem?_eq_none (by simp; omega)] at h; cases h

theorem taskExists_iff (tasks : List Task) (s : Sentence) :
    taskExists tasks s = true ↔ ∃ t ∈ tasks, s.term = t.sentence.term ∧ s.stamp = t.sentence.stamp := by
  unfold taskExists
  simp [List.any_eq_true, checkEqTerm_iff, Stamp.checkSame_iff]

theorem Inv.push {cfg : Cfg} {sh : Shared} (h : Inv cfg sh) (s : Sentence) (task : Task)
    (ht : task.core = (sh.taskIdCounter, s.term, s.stamp)) (tasks : List Task)
    (hd : sh.derefs sh.judgementTasks = .ok tasks) (hno : taskExists tasks s = false)
    (hcx : (calcComplexity s.term : Int) ≤ cfg.maxComplexity) :
    Inv cfg { sh with
      taskIdCounter := sh.taskIdCounter + 1
      heap := sh.heap ++ [task]
      judgementTasks := sh.judgementTasks ++ [sh.heap.length]
      judgementTasksByTerm := populateTaskByTermLookup sh.judgementTasksByTerm s.term sh.heap.length } := by
  have hid : task.id = sh.taskIdCounter := congrArg (·.1) ht
  have hterm : task.sentence.term = s.term := congrArg (·.2.1) ht
  have hstamp : task.sentence.stamp = s.stamp := congrArg (·.2.2) ht
  have hold : ∀ {r : Nat} {t : Task}, r < sh.heap.length → (sh.heap ++ [task])[r]? = some t → sh.heap[r]? = some t := by
    intro r t hr h; rw [List.getElem?_append_left hr] at h; exact h
  obtain ⟨p1, p2, p3, p4⟩ := populate_spec sh.judgementTasksByTerm s.term sh.heap.length h.keys
  refine ⟨?_, ?_, ?_, ?_, ?_, ?_, ?_, ?_, ?_⟩
  · intro r hr
    rcases List.mem_append.1 hr with hr | hr
    · have := h.valid r hr; simp; omega
    · simp at hr; simp [hr]
  · simp only [List.map_append, List.map_cons, List.map_nil]
    rw [List.nodup_append]
    refine ⟨h.ids, by simp, ?_⟩
    intro a ha b hb
    obtain ⟨t, ht, rfl⟩ := List.mem_map.1 ha
    simp at hb; subst hb
    have := h.fresh t ht
    rw [hid]; omega
  · intro t ht
    rcases List.mem_append.1 ht with ht | ht
    · have := h.fresh t ht; simp only; omega
    · simp at ht; subst ht; simp only; omega
  · rw [List.nodup_append]
    refine ⟨h.nodup, by simp, ?_⟩
    intro a ha b hb
    simp at hb; subst hb
    have := h.valid a ha; omega
  · intro t ht
    rcases List.mem_append.1 ht with ht | ht
    · exact h.complexity t ht
    · simp at ht; subst ht; rw [hterm]; exact hcx
  · rw [List.pairwise_append]
    refine ⟨?_, by simp, ?_⟩
    · have := h.diff
      refine List.Pairwise.imp_of_mem ?_ this
      intro r r' hr hr' hd t t' ht ht'
      exact hd t t' (hold (h.valid r hr) ht) (hold (h.valid r' hr') ht')
    · intro r hr r' hr' t t' ht ht' hs
      simp at hr'; subst hr'
      have ht := hold (h.valid r hr) ht
      simp at ht'
      subst ht'
      have hmem : t ∈ tasks := by
        rw [derefs_iff] at hd
        obtain ⟨t2, ht2, h2⟩ := forall₂_left_mem hd hr
        rw [ht] at h2; cases h2; exact ht2
      have : taskExists tasks s = true := by
        rw [taskExists_iff]
        refine ⟨t, hmem, ?_, ?_⟩
        · rw [hs.1, hterm]
        · have := hs.2; rw [hstamp] at this
          cases hst : s.stamp; cases htt : t.sentence.stamp
          rw [hst, htt] at this
          simp only at this; rw [this]
      rw [this] at hno; cases hno
  · intro p hp r hr
    rcases p2 p hp r hr with ⟨rfl, hsub⟩ | ⟨q, hq, hqp, hrq⟩
    · exact ⟨task, by simp, by rw [hterm]; exact hsub⟩
    · obtain ⟨t, ht, hs⟩ := h.sound q hq r hrq
      refine ⟨t, ?_, by rw [← hqp]; exact hs⟩
      have hlt : r < sh.heap.length := by
        by_contra hge
        rw [List.getElem?_eq_none (by omega)] at ht; cases ht
      simp only; rw [List.getElem?_append_left hlt]; exact ht
  · intro r hr t ht u hu
    rcases List.mem_append.1 hr with hr | hr
    · obtain ⟨refs, h1, h2⟩ := h.complete r hr t (hold (h.valid r hr) ht) u hu
      exact p4 u refs r h1 h2
    · simp at hr; subst hr
      simp at ht; subst ht
      exact p3 u (by rw [← hterm]; exact hu)
  · exact p1

theorem addTasks_inv {cfg : Cfg} {cc : Bool} {mc : Rat} {ss : List Sentence} {sh sh' : Shared}
    (h : addTasks sh cc mc ss = .ok sh') (hi : Inv cfg sh)
    (hcx : ∀ s ∈ ss, (calcComplexity s.term : Int) ≤ cfg.maxComplexity) : Inv cfg sh' := by
  induction ss generalizing sh with
  | nil => cases h; exact hi
  | cons s ss ih =>
    unfold addTasks at h
    cases hp : s.punct with
    | JUGEMENT =>
      rw [hp] at h
      simp only [R.bind_ok] at h
      obtain ⟨tasks, ht, h⟩ := h
      split at h
      · cases h; exact hi
      · rename_i hex
        rw [R.bind_ok] at h
        obtain ⟨task, htask, h⟩ := h
        refine ih h ?_ (fun s hs => hcx s (by simp [hs]))
        refine Inv.push hi s task ?_ tasks ht (by simpa using hex) (hcx s (by simp))
        have := payCredit_core htask; rw [this]; rfl
    | QUESTION =>
      rw [hp] at h
      refine ih h ?_ (fun s hs => hcx s (by simp [hs]))
      exact hi.of_core rfl rfl rfl rfl
    | GOAL =>
      rw [hp] at h
      exact ih h hi (fun s hs => hcx s (by simp [hs]))

theorem memRevise_result_term {m : Mem} {s x : Sentence} {m' : Mem} (h : memReviseBelief m s = .ok (m', some x)) :
    x.term = s.term := by
  rcases memReviseBelief_cases h with ⟨_, he⟩ | ⟨_, h⟩
  · cases he
  · have := foldlM_inv (fun st : Mem × Option Sentence => ∀ x, st.2 = some x → x.term = s.term) h (by simp) ?_
    · exact this x rfl
    · intro t _ st st' hP h1
      have hr : ∀ cell table r y, reviseTable cell table s = .ok r → r.2 = some y → y.term = s.term := by
        intro cell table r y h hy
        rcases reviseTable_cases h with ⟨_, rfl⟩ | ⟨pre, b, post, add, rfl, hb, _, _, hr, rfl⟩
        · cases hy
        · cases hy
          obtain ⟨_, _, _, _, _, _, rfl⟩ := revisedBelief_ok hr
          exact hb
      rcases reviseAt_cases h1 with ⟨_, rfl⟩ | ⟨c, r1, r2, _, g1, g2, rfl⟩
      · exact hP
      · intro y hy
        simp only at hy
        cases e2 : r2.2 with
        | some z => rw [e2] at hy; simp at hy; subst hy; exact hr _ _ _ _ g2 e2
        | none =>
          rw [e2] at hy; simp only [Option.none_or] at hy
          cases e1 : r1.2 with
          | some z => rw [e1] at hy; simp at hy; subst hy; exact hr _ _ _ _ g1 e1
          | none => rw [e1] at hy; simp only [Option.none_or] at hy; exact hP y hy

theorem memAddTask_cases {cfg : Cfg} {sh sh' : Shared} {s : Sentence} {cc : Bool} {mc : Rat} {now : Int}
    (h : memAddTask cfg sh s cc mc now = .ok sh') :
    (cfg.maxComplexity < calcComplexity s.term ∧ sh' = sh) ∨
    ((calcComplexity s.term : Int) ≤ cfg.maxComplexity ∧ ∃ mem rev, addBelief sh.mem s cfg.nBeliefs now = .ok (mem, rev) ∧
      addTasks { sh with mem := mem } cc mc (s :: rev.toList) = .ok sh') := by
  unfold memAddTask at h
  split at h
  · rename_i hc; cases h; exact .inl ⟨hc, rfl⟩
  · rename_i hc
    rw [R.bind_ok] at h
    obtain ⟨⟨mem, rev⟩, h1, h⟩ := h
    exact .inr ⟨by omega, mem, rev, h1, h⟩

theorem memAddTask_inv {cfg : Cfg} {sh sh' : Shared} {s : Sentence} {cc : Bool} {mc : Rat} {now : Int}
    (h : memAddTask cfg sh s cc mc now = .ok sh') (hi : Inv cfg sh) : Inv cfg sh' := by
  rcases memAddTask_cases h with ⟨_, rfl⟩ | ⟨hc, mem, rev, h1, h2⟩
  · exact hi
  · refine addTasks_inv h2 (hi.of_core rfl rfl rfl rfl) ?_
    intro x hx
    rcases List.mem_cons.1 hx with rfl | hx
    · exact hc
    · rw [Option.mem_toList] at hx
      rcases addBelief_cases h1 with ⟨y, hy, h⟩ | ⟨hy, _⟩
      · rw [hy] at hx; cases hx
        rw [memRevise_result_term h]; exact hc
      · rw [hy] at hx; cases hx

/-! ## the other actions keep the invariant -/

theorem modify_core {heap : List Task} {r : Nat} {f : Task → Task} (hf : ∀ t, (f t).core = t.core) :
    (heap.modify r f).map Task.core = heap.map Task.core := by
  apply List.ext_getElem
  · simp
  · intro i h1 h2
    simp only [List.getElem_map, List.getElem_modify]
    split
    · exact hf _
    · rfl

/-- only credits and the usage of tasks changed -/
def SameBut (sh sh' : Shared) : Prop :=
  sh'.heap.map Task.core = sh.heap.map Task.core ∧ sh'.judgementTasks = sh.judgementTasks ∧
  sh'.judgementTasksByTerm = sh.judgementTasksByTerm ∧ sh'.taskIdCounter = sh.taskIdCounter ∧
  sh'.questionTasks = sh.questionTasks ∧ sh'.mem = sh.mem

theorem SameBut.refl (sh : Shared) : SameBut sh sh := ⟨rfl, rfl, rfl, rfl, rfl, rfl⟩
theorem SameBut.trans {a b c : Shared} (h : SameBut a b) (h' : SameBut b c) : SameBut a c :=
  ⟨h'.1.trans h.1, h'.2.1.trans h.2.1, h'.2.2.1.trans h.2.2.1, h'.2.2.2.1.trans h.2.2.2.1,
    h'.2.2.2.2.1.trans h.2.2.2.2.1, h'.2.2.2.2.2.trans h.2.2.2.2.2⟩

theorem SameBut.modify (sh : Shared) (r : Nat) (f : Task → Task) (hf : ∀ t, (f t).core = t.core) :
    SameBut sh (sh.modifyTask r f) := ⟨modify_core hf, rfl, rfl, rfl, rfl, rfl⟩

theorem SameBut.foldl {α} (f : Shared → α → Shared) (l : List α) (hf : ∀ sh a, SameBut sh (f sh a)) (sh : Shared) :
    SameBut sh (l.foldl f sh) := by
  induction l generalizing sh with
  | nil => exact SameBut.refl sh
  | cons a l ih => exact (hf sh a).trans (ih (f sh a))

theorem creditQuestions_same (sh : Shared) : SameBut sh (creditQuestions sh) := by
  unfold creditQuestions
  apply SameBut.foldl
  intro sh q
  unfold creditQuestion
  apply SameBut.foldl
  intro sh t
  split
  · apply SameBut.foldl
    intro sh r
    exact SameBut.modify sh r _ (fun t => rfl)
  · exact SameBut.refl sh

theorem modify_core_at {heap : List Task} {r : Nat} {t t' : Task} (ht : heap[r]? = some t) (hc : t'.core = t.core) :
    (heap.modify r (fun _ => t')).map Task.core = heap.map Task.core := by
  apply List.ext_getElem
  · simp
  · intro i h1 h2
    simp only [List.getElem_map, List.getElem_modify]
    split
    · rename_i hri
      subst hri
      simp at h2
      rw [List.getElem?_eq_getElem h2] at ht
      cases ht; exact hc
    · rfl

theorem baseCredit_same {sh sh' : Shared} (h : baseCredit sh = .ok sh') : SameBut sh sh' := by
  unfold baseCredit at h
  have h1 : SameBut sh (sh.judgementTasks.foldl
      (fun sh r => sh.modifyTask r (fun t => { t with credit := t.credit + 1/2 })) sh) :=
    SameBut.foldl _ _ (fun sh r => SameBut.modify sh r (fun t => { t with credit := t.credit + 1/2 }) (fun _ => rfl)) sh
  refine h1.trans ?_
  refine foldlM_inv (fun x => SameBut _ x) h (SameBut.refl _) ?_
  intro r _ a b hab hstep
  rw [R.bind_ok] at hstep
  obtain ⟨t, ht, hstep⟩ := hstep
  rw [R.bind_ok] at hstep
  obtain ⟨t', ht', hstep⟩ := hstep
  cases hstep
  refine hab.trans ⟨?_, rfl, rfl, rfl, rfl, rfl⟩
  exact modify_core_at (indexAt_ok.1 ht) (divCredit_core ht')

/-- only credits and usage changed -/
structure SameUpTo (sh sh' : Shared) : Prop where
  core : sh'.heap.map Task.core = sh.heap.map Task.core
  working : sh'.judgementTasks = sh.judgementTasks
  byTerm : sh'.judgementTasksByTerm = sh.judgementTasksByTerm
  counter : sh'.taskIdCounter = sh.taskIdCounter
  questions : sh'.questionTasks = sh.questionTasks
  mem : UsageOnly sh.mem sh'.mem

theorem SameUpTo.refl (sh : Shared) : SameUpTo sh sh := ⟨rfl, rfl, rfl, rfl, rfl, .refl _⟩
theorem SameUpTo.trans {a b c : Shared} (h : SameUpTo a b) (h' : SameUpTo b c) : SameUpTo a c :=
  ⟨h'.1.trans h.1, h'.2.trans h.2, h'.3.trans h.3, h'.4.trans h.4, h'.5.trans h.5, h.6.trans h'.6⟩

theorem useTask_cases (now : Int) (sh : Shared) (r : Nat) :
    (sh.heap[r]? = none ∧ useTask now sh r = sh) ∨
    ∃ task, sh.heap[r]? = some task ∧ useTask now sh r =
      { sh with heap := sh.heap.map (fun t => { t with sentence := t.sentence.useCell task.sentence.usage.cell now }),
                mem := sh.mem.useCell task.sentence.usage.cell now } := by
  unfold useTask
  split
  · rename_i task h; exact .inr ⟨task, h, rfl⟩
  · rename_i h; exact .inl ⟨h, rfl⟩

theorem updateUsage_inv (P : Shared → Prop) {sh : Shared} (msg : Msg) (now : Int) (h0 : P sh)
    (hs : ∀ sh r, P sh → P (useTask now sh r)) : P (updateUsage sh msg now) := by
  unfold updateUsage
  generalize msg.primary :: msg.secondary = l
  induction l generalizing sh with
  | nil => exact h0
  | cons r l ih => exact ih (hs sh r h0)

theorem useTask_same (now : Int) (sh : Shared) (r : Nat) : SameUpTo sh (useTask now sh r) := by
  rcases useTask_cases now sh r with ⟨_, h⟩ | ⟨task, _, h⟩
  · rw [h]; exact .refl _
  · rw [h]
    refine ⟨?_, rfl, rfl, rfl, rfl, .useCell _ _ _⟩
    rw [List.map_map]
    refine List.map_congr_left fun t _ => ?_
    simp only [Task.core, Function.comp]
    rw [useCell_eq]

theorem updateUsage_same (sh : Shared) (msg : Msg) (now : Int) : SameUpTo sh (updateUsage sh msg now) :=
  updateUsage_inv (fun x => SameUpTo sh x) msg now (.refl _) fun a r h => h.trans (useTask_same now a r)

theorem answerSampled_frame {cfg : Cfg} {v : Rat} {sh : Shared} {r : Shared × List AnswerCall}
    (h : answerSampled cfg v sh = .ok r) : ∃ qs, r.1 = { sh with questionTasks := qs } := by
  unfold answerSampled at h
  split at h
  · simp only [R.bind_ok] at h
    obtain ⟨i, _, q, _, ⟨q', calls⟩, _, h⟩ := h
    cases h; exact ⟨_, rfl⟩
  · cases h; exact ⟨_, rfl⟩

theorem offerConclusion_frame {cfg : Cfg} {c : Sentence} {sh : Shared} {r : Shared × List AnswerCall}
    (h : offerConclusion cfg sh c = .ok r) : ∃ qs, r.1 = { sh with questionTasks := qs } := by
  unfold offerConclusion at h
  split at h
  · simp only [R.bind_ok] at h
    obtain ⟨⟨qs, calls⟩, _, h⟩ := h
    cases h; exact ⟨_, rfl⟩
  · cases h; exact ⟨_, rfl⟩

/-- replace the working list -/
def Shared.withWorking (sh : Shared) (l : List Nat) : Shared := { sh with judgementTasks := l }

theorem selectPrimary_cases {cfg : Cfg} {sh : Shared} {r : Shared × Option Nat} (h : selectPrimary cfg sh = .ok r) :
    (sh.judgementTasks = [] ∧ r = (sh, none)) ∨
    (∃ tasks p, sh.derefs sh.judgementTasks = .ok tasks ∧
      sh.judgementTasks[taskSelByCreditTop cfg.decay tasks sh.cycleCounter]? = some p ∧
      r = (Shared.withWorking sh (swapRemove sh.judgementTasks
              (taskSelByCreditTop cfg.decay tasks sh.cycleCounter)), some p)) := by
  unfold selectPrimary at h
  split at h
  · simp only [R.bind_ok] at h
    obtain ⟨tasks, ht, p, hp, h⟩ := h
    cases h
    exact .inr ⟨tasks, p, ht, indexAt_ok.1 hp, rfl⟩
  · rename_i hl
    cases h
    exact .inl ⟨List.eq_nil_of_length_eq_zero (by omega), rfl⟩

theorem selectPrimary_inv {cfg : Cfg} {sh : Shared} {r : Shared × Option Nat} (h : selectPrimary cfg sh = .ok r)
    (hi : Inv cfg sh) : Inv cfg r.1 := by
  rcases selectPrimary_cases h with ⟨_, rfl⟩ | ⟨tasks, p, _, hp, rfl⟩
  · exact hi
  · have hlt : taskSelByCreditTop cfg.decay tasks sh.cycleCounter < sh.judgementTasks.length := by
      by_contra hge
      rw [List.getElem?_eq_none (by omega)] at hp; cases hp
    have hperm := swapRemove_perm sh.judgementTasks _ hlt
    have hs : (sh.judgementTasks.eraseIdx (taskSelByCreditTop cfg.decay tasks sh.cycleCounter)).Sublist
        sh.judgementTasks := List.eraseIdx_sublist _ _
    -- a permutation of the whole list which starts with the swapped list
    have hp2 := List.getElem_cons_eraseIdx_perm hlt
    refine hi.of_working rfl
      (swapRemove sh.judgementTasks (taskSelByCreditTop cfg.decay tasks sh.cycleCounter) ++
        [sh.judgementTasks[taskSelByCreditTop cfg.decay tasks sh.cycleCounter]]) ?_ ?_ rfl rfl
    · exact (List.perm_append_singleton _ _).trans ((hperm.cons _).trans hp2)
    · exact List.sublist_append_left _ _

theorem cleanupTasks_spec {cfg : Cfg} {sh sh' : Shared} (h : cleanupTasks cfg sh = .ok sh') :
    ∃ sorted : List (Rat × Nat), (sorted.map (·.2)).Perm sh.judgementTasks ∧
      sorted.Pairwise (fun a b => b.1 ≤ a.1) ∧
      (∀ p ∈ sorted, ∃ t, sh.heap[p.2]? = some t ∧ p.1 = taskCalcCredit cfg.decay t sh.cycleCounter) ∧
      sh' = { sh with judgementTasks :=
        ((sorted.take 30).filter (fun p => decide (p.1 > 1/1000))).map (·.2) } := by
  unfold cleanupTasks at h
  rw [R.bind_ok] at h
  obtain ⟨ks, hk, h⟩ := h
  cases h
  rw [mapM_ok_iff] at hk
  have h1 : ks.map (·.2) = sh.judgementTasks ∧
      ∀ p ∈ ks, ∃ t, sh.heap[p.2]? = some t ∧ p.1 = taskCalcCredit cfg.decay t sh.cycleCounter := by
    generalize sh.judgementTasks = l at hk
    induction hk with
    | nil => simp
    | @cons a b l1 l2 hab _ ih =>
      rw [R.bind_ok] at hab
      obtain ⟨t, ht, hab⟩ := hab
      cases hab
      refine ⟨by simp [ih.1], ?_⟩
      intro p hp
      rcases List.mem_cons.1 hp with rfl | hp
      · exact ⟨t, indexAt_ok.1 ht, rfl⟩
      · exact ih.2 p hp
  refine ⟨sortDesc ks, ?_, sortDesc_sorted ks, ?_, ?_⟩
  · rw [← h1.1]; exact (sortDesc_perm ks).map _
  · intro p hp; exact h1.2 p ((sortDesc_perm ks).mem_iff.1 hp)
  · rw [Nat.min_comm, take_min_length]

theorem cleanupTasks_inv {cfg : Cfg} {sh sh' : Shared} (h : cleanupTasks cfg sh = .ok sh') (hi : Inv cfg sh) :
    Inv cfg sh' := by
  obtain ⟨sorted, hp, _, _, rfl⟩ := cleanupTasks_spec h
  refine hi.of_working rfl (sorted.map (·.2)) hp ?_ rfl rfl
  exact (List.filter_sublist.trans (List.take_sublist _ _)).map _

theorem rebuildLookup_inv {cfg : Cfg} {sh sh' : Shared} (h : rebuildLookup sh = .ok sh') (hi : Inv cfg sh) :
    Inv cfg sh' := by
  unfold rebuildLookup at h
  rw [R.bind_ok] at h
  obtain ⟨terms, ht, h⟩ := h
  cases h
  rw [mapM_ok_iff] at ht
  have h1 : terms.map (·.2) = sh.judgementTasks ∧
      ∀ p ∈ terms, ∃ t, sh.heap[p.2]? = some t ∧ t.sentence.term = p.1 := by
    generalize sh.judgementTasks = l at ht
    induction ht with
    | nil => simp
    | @cons a b l1 l2 hab _ ih =>
      rw [R.bind_ok] at hab
      obtain ⟨t, ht, hab⟩ := hab
      cases hab
      refine ⟨by simp [ih.1], ?_⟩
      intro p hp
      rcases List.mem_cons.1 hp with rfl | hp
      · exact ⟨t, indexAt_ok.1 ht, rfl⟩
      · exact ih.2 p hp
  have key : ∀ (l : List (Term × Nat)) (m : List (Term × List Nat)), (m.map (·.1)).Nodup →
      ((l.foldl (fun m p => populateTaskByTermLookup m p.1 p.2) m).map (·.1)).Nodup ∧
      (∀ p ∈ l.foldl (fun m p => populateTaskByTermLookup m p.1 p.2) m, ∀ x ∈ p.2,
        (∃ q ∈ l, q.2 = x ∧ IsSubterm p.1 q.1) ∨ ∃ q ∈ m, q.1 = p.1 ∧ x ∈ q.2) ∧
      (∀ q ∈ l, ∀ s, IsSubterm s q.1 → ∃ refs,
        lookupRefs (l.foldl (fun m p => populateTaskByTermLookup m p.1 p.2) m) s = some refs ∧ q.2 ∈ refs) ∧
      (∀ s refs x, lookupRefs m s = some refs → x ∈ refs → ∃ refs',
        lookupRefs (l.foldl (fun m p => populateTaskByTermLookup m p.1 p.2) m) s = some refs' ∧ x ∈ refs') := by
    intro l
    induction l with
    | nil =>
      intro m hk
      exact ⟨hk, fun p hp x hx => .inr ⟨p, hp, rfl, hx⟩, by simp, fun s refs x h hx => ⟨refs, h, hx⟩⟩
    | cons a l ih =>
      intro m hk
      obtain ⟨p1, p2, p3, p4⟩ := populate_spec m a.1 a.2 hk
      obtain ⟨i1, i2, i3, i4⟩ := ih _ p1
      simp only [List.foldl_cons]
      refine ⟨i1, ?_, ?_, ?_⟩
      · intro p hp x hx
        rcases i2 p hp x hx with ⟨q, hq, h⟩ | ⟨q, hq, hqp, hxq⟩
        · exact .inl ⟨q, by simp [hq], h⟩
        · rcases p2 q hq x hxq with ⟨h1, h2⟩ | ⟨q', hq', h1, h2⟩
          · exact .inl ⟨a, by simp, h1.symm, by rw [← hqp]; exact h2⟩
          · exact .inr ⟨q', hq', h1.trans hqp, h2⟩
      · intro q hq s hs
        rcases List.mem_cons.1 hq with rfl | hq
        · obtain ⟨refs, h1, h2⟩ := p3 s hs
          exact i4 s refs _ h1 h2
        · exact i3 q hq s hs
      · intro s refs x h hx
        obtain ⟨refs', h1, h2⟩ := p4 s refs x h hx
        exact i4 s refs' x h1 h2
  obtain ⟨k1, k2, k3, _⟩ := key terms [] (by simp)
  refine ⟨hi.valid, hi.ids, hi.fresh, hi.nodup, hi.complexity, hi.diff, ?_, ?_, k1⟩
  · intro p hp r hr
    rcases k2 p hp r hr with ⟨q, hq, rfl, hs⟩ | ⟨q, hq, _⟩
    · obtain ⟨t, ht, he⟩ := h1.2 q hq
      exact ⟨t, ht, by rw [he]; exact hs⟩
    · simp at hq
  · intro r hr t ht s hs
    have hr' : r ∈ terms.map (·.2) := by rw [h1.1]; exact hr
    obtain ⟨q, hq, rfl⟩ := List.mem_map.1 hr'
    obtain ⟨t', ht', he⟩ := h1.2 q hq
    simp only at ht
    rw [ht] at ht'; cases ht'
    exact k3 q hq s (by rw [← he]; exact hs)

theorem flushTasks_inv {cfg : Cfg} {sh : Shared} (hi : Inv cfg sh) : Inv cfg (flushTasks sh) :=
  ⟨by simp [flushTasks], hi.ids, hi.fresh, by simp [flushTasks], hi.complexity, by simp [flushTasks],
    by simp [flushTasks], by simp [flushTasks], by simp [flushTasks]⟩

theorem createShared_inv (cfg : Cfg) : Inv cfg createShared := by
  constructor <;> simp [createShared]

theorem TaskOp.run_inv {cfg : Cfg} {sh : Shared} {op : TaskOp} {r : Shared × List AnswerCall}
    (h : op.run cfg sh = .ok r) (hi : Inv cfg sh) : Inv cfg r.1 := by
  have hsame : ∀ sh', SameBut sh sh' → Inv cfg sh' := fun sh' hs => hi.of_core hs.1 hs.2.1 hs.2.2.1 hs.2.2.2.1
  cases op with
  | add s cc mc now =>
    obtain ⟨sh', h1, rfl⟩ := R.map_ok.1 h
    exact memAddTask_inv h1 hi
  | tick => cases h; exact hi.of_core rfl rfl rfl rfl
  | creditQuestions => cases h; exact hsame _ (creditQuestions_same sh)
  | baseCredit =>
    obtain ⟨sh', h1, rfl⟩ := R.map_ok.1 h
    exact hsame _ (baseCredit_same h1)
  | answer v =>
    obtain ⟨qs, hq⟩ := answerSampled_frame h
    rw [hq]; exact hi.of_core rfl rfl rfl rfl
  | offer c =>
    obtain ⟨qs, hq⟩ := offerConclusion_frame h
    rw [hq]; exact hi.of_core rfl rfl rfl rfl
  | select =>
    obtain ⟨r', h1, rfl⟩ := R.map_ok.1 h
    exact selectPrimary_inv h1 hi
  | usage msg now =>
    cases h
    have hs := updateUsage_same sh msg now
    exact hi.of_core hs.core hs.working hs.byTerm hs.counter
  | cleanup =>
    obtain ⟨sh', h1, rfl⟩ := R.map_ok.1 h
    exact cleanupTasks_inv h1 hi
  | rebuild =>
    obtain ⟨sh', h1, rfl⟩ := R.map_ok.1 h
    exact rebuildLookup_inv h1 hi
  | forget n =>
    obtain ⟨m, h1, rfl⟩ := R.map_ok.1 h
    exact hi.of_core rfl rfl rfl rfl
  | flush => cases h; exact flushTasks_inv hi
  | newStampId => cases h; exact hi.of_core rfl rfl rfl rfl
  | procMem m => cases h; exact hi.of_core rfl rfl rfl rfl

/-- general invariant rule for task histories -/
theorem runTasks_inv {cfg : Cfg} (P : Shared × List AnswerCall → Prop) {ops : List TaskOp}
    {st : Shared × List AnswerCall} (h : runTasks cfg ops = .ok st) (h0 : P (createShared, []))
    (hs : ∀ op ∈ ops, ∀ sh log sh' calls, Inv cfg sh → P (sh, log) → op.run cfg sh = .ok (sh', calls) →
      P (sh', log ++ calls)) : Inv cfg st.1 ∧ P st := by
  refine foldlM_inv (fun st : Shared × List AnswerCall => Inv cfg st.1 ∧ P st) h ⟨createShared_inv cfg, h0⟩ ?_
  rintro op hop ⟨sh, log⟩ st' ⟨hi, hP⟩ h
  rw [R.bind_ok] at h
  obtain ⟨⟨sh', calls⟩, h1, h⟩ := h
  cases h
  exact ⟨(TaskOp.run_inv h1 hi : Inv cfg (sh', calls).1), hs op hop sh log sh' calls hi hP h1⟩

end Nar
