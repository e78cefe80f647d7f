import Verif.Lemmas.Rest1
/-! # Helper lemmas: no pair of tasks is overlooked -/
namespace Nar
open Term

theorem SameSent.symm {t t' : Task} (h : SameSent t t') : SameSent t' t := by
  unfold SameSent at *
  rw [h]

/-- what follows from the two tasks has been concluded, or the worker is going to conclude it -/
def PairDone (cfg : Cfg) (s : Sys) (a b : Nat) : Prop :=
  (∃ m ∈ s.queue, m.primary = a ∧ b ∈ m.secondary) ∨
  ∀ ta tb, s.sh.heap[a]? = some ta → s.sh.heap[b]? = some tb → ∀ c w, Follows ta.sentence tb.sentence c w → Concluded cfg s c

/-- the same for a single task -/
def AloneDone (cfg : Cfg) (s : Sys) (a : Nat) : Prop :=
  (∃ m ∈ s.queue, m.primary = a) ∨ ∀ ta, s.sh.heap[a]? = some ta → ∀ c w, FollowsAlone ta.sentence c w → Concluded cfg s c

/-- two tasks have a term in common -/
def Meet (sh : Shared) (a b : Nat) : Prop :=
  ∃ ta tb x, sh.heap[a]? = some ta ∧ sh.heap[b]? = some tb ∧ IsSubterm x ta.sentence.term ∧ IsSubterm x tb.sentence.term

/-- no selected task, and no pair of selected tasks, was overlooked -/
structure Fair (cfg : Cfg) (s : Sys) : Prop where
  listed : Listed s.sh
  alone : ∀ a, a < s.sh.heap.length → a ∉ s.sh.judgementTasks → AloneDone cfg s a
  pairs : ∀ a b, a ∉ s.sh.judgementTasks → b ∉ s.sh.judgementTasks → Meet s.sh a b → PairDone cfg s a b ∨ PairDone cfg s b a

/-- what becomes of the tasks in a step -/
structure TaskStep (sh sh' : Shared) : Prop where
  kept : HeapKept sh.heap sh'.heap
  back : ∀ r, r ∉ sh'.judgementTasks → r < sh'.heap.length → r < sh.heap.length

theorem Extended.taskStep {sh sh' : Shared} (h : Extended sh sh') : TaskStep sh sh' :=
  ⟨h.kept, fun r h1 h2 => by
    by_contra h3
    exact h1 (h.fresh r (by omega) h2)⟩

theorem Alike.taskStep {sh sh' : Shared} (h : Alike sh sh') : TaskStep sh sh' := ⟨h.kept, fun r _ h2 => by rw [← h.length]; exact h2⟩

theorem TaskStep.task {sh sh' : Shared} (h : TaskStep sh sh') {r : Nat} (hr : r ∉ sh'.judgementTasks) {t' : Task}
    (ht : sh'.heap[r]? = some t') : ∃ t, sh.heap[r]? = some t ∧ SameSent t t' := by
  have hlt := h.back r hr (List.getElem?_eq_some_iff.1 ht).1
  obtain ⟨t1, h1, h2⟩ := h.kept r sh.heap[r] (List.getElem?_eq_getElem hlt)
  rw [ht] at h1; cases h1
  exact ⟨_, List.getElem?_eq_getElem hlt, h2⟩

theorem TaskStep.meet {sh sh' : Shared} (h : TaskStep sh sh') {a b : Nat} (ha : a ∉ sh'.judgementTasks) (hb : b ∉ sh'.judgementTasks)
    (hm : Meet sh' a b) : Meet sh a b := by
  obtain ⟨ta, tb, x, h1, h2, h3, h4⟩ := hm
  obtain ⟨ta', h1', s1⟩ := h.task ha h1
  obtain ⟨tb', h2', s2⟩ := h.task hb h2
  exact ⟨ta', tb', x, h1', h2', by rw [← s1.term]; exact h3, by rw [← s2.term]; exact h4⟩

theorem Concluded.kept {cfg : Cfg} {s s' : Sys} {c : Sentence} (h : HeapKept s.sh.heap s'.sh.heap) (hc : Concluded cfg s c) : Concluded cfg s' c :=
  fun h1 h2 => (hc h1 h2).kept h

theorem PairDone.kept {cfg : Cfg} {s s' : Sys} {a b : Nat} (h : TaskStep s.sh s'.sh) (hq : ∀ m ∈ s.queue, m ∈ s'.queue)
    (ha : a ∉ s'.sh.judgementTasks) (hb : b ∉ s'.sh.judgementTasks) (hp : PairDone cfg s a b) : PairDone cfg s' a b := by
  rcases hp with ⟨m, hm, h1, h2⟩ | hp
  · exact .inl ⟨m, hq m hm, h1, h2⟩
  · refine .inr fun ta tb h1 h2 c w hf => ?_
    obtain ⟨ta', h1', s1⟩ := h.task ha h1
    obtain ⟨tb', h2', s2⟩ := h.task hb h2
    exact (hp ta' tb' h1' h2' c w (hf.same s1.symm s2.symm)).kept h.kept

theorem AloneDone.kept {cfg : Cfg} {s s' : Sys} {a : Nat} (h : TaskStep s.sh s'.sh) (hq : ∀ m ∈ s.queue, m ∈ s'.queue)
    (ha : a ∉ s'.sh.judgementTasks) (hp : AloneDone cfg s a) : AloneDone cfg s' a := by
  rcases hp with ⟨m, hm, h1⟩ | hp
  · exact .inl ⟨m, hq m hm, h1⟩
  · refine .inr fun ta h1 c w hf => ?_
    obtain ⟨ta', h1', s1⟩ := h.task ha h1
    exact (hp ta' h1' c w (hf.same s1.symm)).kept h.kept

/-- something comes in -/
theorem Fair.extended {cfg : Cfg} {s s' : Sys} (hf : Fair cfg s) (h : Extended s.sh s'.sh) (hi : Inv cfg s'.sh) (hq : s'.queue = s.queue) :
    Fair cfg s' where
  listed := h.listed hi hf.listed
  alone a h1 h2 := (hf.alone a (h.taskStep.back a h2 h1) (fun k => h2 (h.pending a k))).kept h.taskStep (by rw [hq]; exact fun _ k => k) h2
  pairs a b ha hb hm := by
    have hq' : ∀ m ∈ s.queue, m ∈ s'.queue := by rw [hq]; exact fun _ k => k
    rcases hf.pairs a b (fun k => ha (h.pending a k)) (fun k => hb (h.pending b k)) (h.taskStep.meet ha hb hm) with k | k
    · exact .inl (k.kept h.taskStep hq' ha hb)
    · exact .inr (k.kept h.taskStep hq' hb ha)

/-- the worker deals with a message -/
theorem Fair.worked {cfg : Cfg} {s s' : Sys} (hf : Fair cfg s) (hi : Inv cfg s'.sh) {m : Msg} {rest : List Msg} {calls : List AnswerCall}
    (hq : s.queue = m :: rest) (hw : work cfg s.sh m = .ok (s'.sh, calls)) (hq' : s'.queue = rest) : Fair cfg s' := by
  have h := work_grown hw
  have hdone : ∀ c w, Nar.Concludes s.sh m c w → Concluded cfg s' c := fun c w hc => (work_deals hw hc).1
  refine ⟨h.listed hi hf.listed, fun a h1 h2 => ?_, fun a b ha hb hm => ?_⟩
  · rcases hf.alone a (h.taskStep.back a h2 h1) (fun k => h2 (h.pending a k)) with ⟨m', hm', rfl⟩ | hp
    · rw [hq] at hm'
      rcases List.mem_cons.1 hm' with rfl | hm'
      · refine .inr fun ta hta c w hfo => ?_
        obtain ⟨ta', hta', s1⟩ := h.taskStep.task h2 hta
        exact hdone c w ⟨ta', hta', .inl (hfo.same s1.symm)⟩
      · exact .inl ⟨m', by rw [hq']; exact hm', rfl⟩
    · refine .inr fun ta hta c w hfo => ?_
      obtain ⟨ta', hta', s1⟩ := h.taskStep.task h2 hta
      exact (hp ta' hta' c w (hfo.same s1.symm)).kept h.kept
  · have key : ∀ a b, a ∉ s'.sh.judgementTasks → b ∉ s'.sh.judgementTasks → PairDone cfg s a b → PairDone cfg s' a b := by
      intro a b ha hb hp
      rcases hp with ⟨m', hm', rfl, hsec⟩ | hp
      · rw [hq] at hm'
        rcases List.mem_cons.1 hm' with rfl | hm'
        · refine .inr fun ta tb hta htb c w hfo => ?_
          obtain ⟨ta', hta', s1⟩ := h.taskStep.task ha hta
          obtain ⟨tb', htb', s2⟩ := h.taskStep.task hb htb
          exact hdone c w ⟨ta', hta', .inr (.inl ⟨b, hsec, tb', htb', hfo.same s1.symm s2.symm⟩)⟩
        · exact .inl ⟨m', by rw [hq']; exact hm', rfl, hsec⟩
      · refine .inr fun ta tb hta htb c w hfo => ?_
        obtain ⟨ta', hta', s1⟩ := h.taskStep.task ha hta
        obtain ⟨tb', htb', s2⟩ := h.taskStep.task hb htb
        exact (hp ta' tb' hta' htb' c w (hfo.same s1.symm s2.symm)).kept h.kept
    rcases hf.pairs a b (fun k => ha (h.pending a k)) (fun k => hb (h.pending b k)) (h.taskStep.meet ha hb hm) with k | k
    · exact .inl (key a b ha hb k)
    · exact .inr (key b a hb ha k)

/-- a cycle which does not trim hands out a task -/
theorem Fair.cycled {cfg : Cfg} {s : Sys} (hf : Fair cfg s) (hi : Inv cfg s.sh) {v : Rat} {now : Int} {sh' : Shared} {msg : Option Msg}
    {calls log : List AnswerCall} (h : reasonCycle cfg v now s.sh = .ok (sh', msg, calls)) (ht : (s.sh.cycleCounter + 1) % 111 ≠ 0) (room : Room s.sh) :
    Fair cfg { sh := sh', queue := s.queue ++ msg.toList, log := log } := by
  obtain ⟨_, _, _, t4, t5⟩ := reasonCycle_taken h hi
  have al := t4 ht
  have st := al.taskStep
  have hqq : ∀ m ∈ s.queue, m ∈ ({ sh := sh', queue := s.queue ++ msg.toList, log := log } : Sys).queue := fun m hm => by simp [hm]
  rcases t5 with ⟨e1, rfl, e3⟩ | ⟨m, l, rfl, p1, _, p4, p5, _⟩
  · refine ⟨al.listed hf.listed, fun a h1 h2 => ?_, fun a b ha hb hm => ?_⟩
    · exact (hf.alone a (st.back a h2 h1) (by rw [e1]; simp)).kept st hqq h2
    · rcases hf.pairs a b (by rw [e1]; simp) (by rw [e1]; simp) (st.meet ha hb hm) with k | k
      · exact .inl (k.kept st hqq ha hb)
      · exact .inr (k.kept st hqq hb ha)
  · have ej := p4 ht
    have hp := p5 room
    have hmq : m ∈ ({ sh := sh', queue := s.queue ++ (some m).toList, log := log } : Sys).queue := by simp
    have hsel : ∀ r, r ∉ sh'.judgementTasks → r = m.primary ∨ r ∉ s.sh.judgementTasks := by
      intro r hr
      by_cases h0 : r = m.primary
      · exact .inl h0
      · refine .inr fun k => ?_
        rcases List.mem_cons.1 (p1.mem_iff.2 k) with k | k
        · exact h0 k
        · rw [ej] at hr; exact hr k
    have hsec : ∀ b, Meet s.sh m.primary b → b ∈ m.secondary := by
      rintro b ⟨ta, tb, x, h1, h2, h3, h4⟩
      obtain ⟨refs, k1, k2⟩ := hf.listed b tb h2 x h4
      exact hp ta h1 b x refs h3 k1 k2
    refine ⟨al.listed hf.listed, fun a h1 h2 => ?_, fun a b ha hb hm => ?_⟩
    · rcases hsel a h2 with rfl | h3
      · exact .inl ⟨m, hmq, rfl⟩
      · exact (hf.alone a (st.back a h2 h1) h3).kept st hqq h2
    · have hm0 := st.meet ha hb hm
      rcases hsel a ha with rfl | ha'
      · exact .inl (.inl ⟨m, hmq, rfl, hsec b hm0⟩)
      · rcases hsel b hb with rfl | hb'
        · obtain ⟨ta, tb, x, h1, h2, h3, h4⟩ := hm0
          exact .inr (.inl ⟨m, hmq, rfl, hsec a ⟨tb, ta, x, h2, h1, h4, h3⟩⟩)
        · rcases hf.pairs a b ha' hb' hm0 with k | k
          · exact .inl (k.kept st hqq ha hb)
          · exact .inr (k.kept st hqq hb ha)

theorem cyclesIn_append (a b : List SysOp) : cyclesIn (a ++ b) = cyclesIn a + cyclesIn b := by
  induction a with
  | nil => simp [cyclesIn]
  | cons op a ih => cases op <;> simp [cyclesIn, ih] <;> omega

/-- a single action: the invariant is kept, room before follows from room after, the clock counts the cycles -/
theorem fair_step {cfg : Cfg} {s s' : Sys} {op : SysOp} (h : op.run cfg s = .ok s') (hi : Inv cfg s.sh) (hi' : Inv cfg s'.sh)
    (hf : op ≠ .flush) (hc : cyclesIn [op] ≠ 0 → (s.sh.cycleCounter + 1) % 111 ≠ 0) :
    (Room s'.sh → Room s.sh) ∧ (Room s.sh → Fair cfg s → Fair cfg s') ∧ s'.sh.cycleCounter = s.sh.cycleCounter + cyclesIn [op] := by
  cases op with
  | input x cc mc now =>
    simp only [SysOp.run] at h
    obtain ⟨sh1, h1, h⟩ := R.bind_ok.1 h
    cases h
    have he := memAddTask_grown h1
    exact ⟨he.room, fun _ k => k.extended he hi' rfl, by simpa [cyclesIn] using memAddTask_clock h1⟩
  | cycle v now =>
    simp only [SysOp.run] at h
    obtain ⟨⟨sh1, msg, calls⟩, h1, h⟩ := R.bind_ok.1 h
    cases h
    have hc := hc (by simp [cyclesIn])
    obtain ⟨_, _, t3, t4, _⟩ := reasonCycle_taken h1 hi
    have al := t4 hc
    exact ⟨fun r => ⟨by rw [← al.byTerm]; exact r.perTerm, by rw [← al.length]; exact r.total⟩, fun r k => k.cycled hi h1 hc r, by simpa [cyclesIn] using t3⟩
  | work =>
    simp only [SysOp.run] at h
    cases hq : s.queue with
    | nil =>
      rw [hq] at h
      rw [← Except.ok.inj h]
      exact ⟨id, fun _ k => k, by simp [cyclesIn]⟩
    | cons m rest =>
      rw [hq] at h
      simp only at h
      obtain ⟨⟨sh1, calls⟩, h1, h⟩ := R.bind_ok.1 h
      have h2 := Except.ok.inj h
      have he := work_grown h1
      rw [← h2] at hi' ⊢
      exact ⟨he.room, fun _ k => k.worked (s' := { sh := sh1, queue := rest, log := s.log ++ calls }) hi' hq h1 rfl, by simpa [cyclesIn] using he.clock⟩
  | flush => exact absurd rfl hf
  | newStampId =>
    simp only [SysOp.run] at h
    cases h
    exact ⟨fun r => ⟨r.perTerm, r.total⟩, fun _ k => k.extended (.same rfl rfl rfl rfl) hi' rfl, by simp [cyclesIn]⟩
  | procMem m =>
    simp only [SysOp.run] at h
    cases h
    exact ⟨fun r => ⟨r.perTerm, r.total⟩, fun _ k => k.extended (.same rfl rfl rfl rfl) hi' rfl, by simp [cyclesIn]⟩

theorem Fair.start (cfg : Cfg) : Fair cfg { sh := createShared, queue := [], log := [] } where
  listed := fun r t h => by simp [createShared] at h
  alone a h := by simp [createShared] at h
  pairs a b _ _ h := by
    obtain ⟨ta, tb, x, h1, _⟩ := h
    simp [createShared] at h1

theorem fair_more {cfg : Cfg} {ops : List SysOp} : ∀ {c : Nat} {s s' : Sys}, moreSys cfg s ops = .ok s' → Inv cfg s.sh → SysOp.flush ∉ ops →
    s.sh.cycleCounter = c → c + cyclesIn ops < 111 →
    (Room s'.sh → Room s.sh) ∧ (Room s'.sh → Fair cfg s → Fair cfg s') ∧ s'.sh.cycleCounter = (c + cyclesIn ops : Nat) := by
  induction ops with
  | nil => intro c s s' h _ _ hc _; cases h; exact ⟨id, fun _ k => k, by simpa [cyclesIn] using hc⟩
  | cons op ops ih =>
    intro c s s' h hi hf hc hlt
    obtain ⟨s1, h1, h2⟩ := foldlM_cons_ok.1 h
    have hcat : cyclesIn (op :: ops) = cyclesIn [op] + cyclesIn ops := cyclesIn_append [op] ops
    have hi1 : Inv cfg s1.sh := (SysOp.run_kept h1).inv hi
    obtain ⟨a, b, d⟩ := fair_step h1 hi hi1 (fun k => hf (by simp [k])) (fun hcy => by rw [hc]; omega)
    obtain ⟨a', b', d'⟩ := ih (c := c + cyclesIn [op]) (s := s1) h2 hi1 (fun k => hf (List.mem_cons_of_mem _ k)) (by rw [d, hc]; simp) (by omega)
    exact ⟨fun r => a (a' r), fun r k => b' r (b (a (a' r)) k), by rw [d', hcat]; congr 1; omega⟩

theorem fair_run {cfg : Cfg} {ops : List SysOp} {s : Sys} (h : runSys cfg ops = .ok s) (hf : SysOp.flush ∉ ops) (hc : cyclesIn ops < 111) :
    (Room s.sh → Fair cfg s) ∧ s.sh.cycleCounter = cyclesIn ops := by
  obtain ⟨_, b, c⟩ := fair_more (c := 0) (s := { sh := createShared, queue := [], log := [] }) h (createShared_inv cfg) hf rfl (by omega)
  exact ⟨fun r => b r (Fair.start cfg), by rw [c]; simp⟩

end Nar
