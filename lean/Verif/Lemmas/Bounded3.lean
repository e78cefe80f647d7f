import Verif.Lemmas.Bounded2
/-! # Helper lemmas: the limits over histories -/
namespace Nar
open Term

/-- an action changes the declarative memory by at most one memory operation -/
theorem TaskOp.tablesAtMost {cfg : Cfg} {sh sh' : Shared} {op : TaskOp} {calls : List AnswerCall}
    (h : op.run cfg sh = .ok (sh', calls)) (ht : TablesAtMost (max 1 cfg.nBeliefs) sh.mem) :
    TablesAtMost (max 1 cfg.nBeliefs) sh'.mem := by
  have key : ∀ (mop : MemOp) (m' : Mem), mop.run cfg.nBeliefs sh.mem = .ok m' → TablesAtMost (max 1 cfg.nBeliefs) m' := by
    intro mop m' hm
    refine MemOp.run_tables (fun e u => e.length ≤ max 1 cfg.nBeliefs ∧ u.length ≤ max 1 cfg.nBeliefs) hm ?_ ?_ ?_ ?_ ht
    · intro s; simp
    · intro s now e u e' u' hP he hu
      exact ⟨storeTable_length he (le_max_right _ _) hP.1, storeTable_length hu (le_max_right _ _) hP.2⟩
    · intro _ _ s e u r1 r2 hP h1 h2
      have l1 := (reviseTable_terms h1).length_eq
      have l2 := (reviseTable_terms h2).length_eq
      simp only [List.length_map] at l1 l2
      rw [l1, l2]; exact hP
    · intro e u f1 f2 hP; simpa using hP
  cases op with
  | add s cc mc now =>
    obtain ⟨x, h1, h2⟩ := R.map_ok.1 h
    cases h2
    rcases memAddTask_cases h1 with ⟨_, rfl⟩ | ⟨hc, mem, rev, h3, h4⟩
    · exact ht
    · have h5 := addTasks_mem h4
      simp only at h5
      refine key (.add s now) _ ?_
      simp only [MemOp.run]
      rw [h3, h5]; rfl
  | usage msg now =>
    cases h
    obtain ⟨g, hg⟩ := (updateUsage_same sh msg now).mem
    exact key (.touch g) _ (by rw [hg]; rfl)
  | forget n =>
    obtain ⟨m, h1, h2⟩ := R.map_ok.1 h; cases h2
    exact key (.forget n) _ h1
  | offer c => obtain ⟨qs, hq⟩ := offerConclusion_frame h; simp only at hq; rw [hq]; exact ht
  | _ =>
    rcases TaskOp.run_memop h trivial with e | ⟨mop, _, hm⟩
    · rw [e]; exact ht
    · exact key mop _ hm

theorem moreTasks_tables {cfg : Cfg} {st st' : Shared × List AnswerCall} {ops : List TaskOp}
    (h : moreTasks cfg st ops = .ok st') (ht : TablesAtMost (max 1 cfg.nBeliefs) st.1.mem) :
    TablesAtMost (max 1 cfg.nBeliefs) st'.1.mem := by
  refine foldlM_inv (fun st : Shared × List AnswerCall => TablesAtMost (max 1 cfg.nBeliefs) st.1.mem) h ht ?_
  rintro op _ ⟨sh, log⟩ b ha hs
  obtain ⟨⟨sh', calls⟩, h3, h4⟩ := R.bind_ok.1 hs
  rw [← Except.ok.inj h4]
  exact TaskOp.tablesAtMost h3 ha

/-- what is needed to bound the work of the worker -/
structure Limited (cfg : Cfg) (s : Sys) : Prop where
  inv : DInv cfg s.sh
  queue : QueueOk s.sh s.queue
  tables : TablesAtMost (max 1 cfg.nBeliefs) s.sh.mem
  partners : ∀ m ∈ s.queue, m.secondary.length ≤ 300

theorem Limited.start (cfg : Cfg) : Limited cfg { sh := createShared, queue := [], log := [] } :=
  ⟨DInv.init cfg, (fun m hm => by cases hm), (fun c hc => by cases hc), (fun m hm => by cases hm)⟩

theorem addAll_keeps {cfg : Cfg} {f : Sentence × Rat → Rat} {now : Int} {cs : List (Sentence × Rat)} {sh sh' : Shared} {n : Nat}
    (h : cs.foldlM (fun sh c => memAddTask cfg sh c.1 true (f c) now) sh = .ok sh') (hk : KeepsAtMost sh n) :
    KeepsAtMost sh' (n + 2 * cs.length) := by
  induction cs generalizing sh n with
  | nil => cases h; exact hk
  | cons c cs ih =>
    rw [List.foldlM_cons] at h
    obtain ⟨sh1, h1, h⟩ := R.bind_ok.1 h
    have := ih h (memAddTask_keeps h1 hk)
    refine this.mono ?_
    simp only [List.length_cons]; omega

theorem offerAll_keeps {cfg : Cfg} {cs : List Sentence} {sh sh' : Shared} {calls : List AnswerCall} {n : Nat}
    (h : offerAll cfg sh cs = .ok (sh', calls)) (hk : KeepsAtMost sh n) :
    KeepsAtMost sh' n ∧ sh'.cycleCounter = sh.cycleCounter := by
  induction cs generalizing sh calls with
  | nil => cases h; exact ⟨hk, rfl⟩
  | cons c cs ih =>
    unfold offerAll at h
    obtain ⟨⟨sh1, c1⟩, h1, h⟩ := R.bind_ok.1 h
    obtain ⟨⟨sh2, c2⟩, h2, h⟩ := R.bind_ok.1 h
    obtain ⟨rfl, _⟩ := Prod.mk.inj (Except.ok.inj h)
    obtain ⟨qs, hq⟩ := offerConclusion_frame h1
    simp only at hq
    have := ih h2 (hk.same (by rw [hq]) (by rw [hq]))
    exact ⟨this.1, by rw [this.2, hq]⟩

theorem memAddTask_clock {cfg : Cfg} {sh sh' : Shared} {s : Sentence} {cc : Bool} {mc : Rat} {now : Int}
    (h : memAddTask cfg sh s cc mc now = .ok sh') : sh'.cycleCounter = sh.cycleCounter :=
  (outer_of_outer3 (memAddTask_outer3 h)).2

theorem SysOp.step_limited {cfg : Cfg} {s s' : Sys} {op : SysOp} (hl : Limited cfg s) (hs : op.Sane) (h : op.run cfg s = .ok s') :
    Limited cfg s' ∧ ∀ n, KeepsAtMost s.sh n → KeepsAtMost s'.sh (n + op.mayAdd cfg) ∧
      ((∀ v now, op ≠ .cycle v now) → s'.sh.cycleCounter = s.sh.cycleCounter) := by
  obtain ⟨s1, h1, h2, h3⟩ := SysOp.step_total hl.inv hl.queue hs
  rw [h] at h1
  rw [← Except.ok.inj h1] at h2 h3
  obtain ⟨tops, h4, _⟩ := SysOp.run_more h
  have h5 := moreTasks_tables h4 hl.tables
  have fin : (∀ m ∈ s'.queue, m.secondary.length ≤ 300) → Limited cfg s' := fun hq => ⟨h2, h3, h5, hq⟩
  cases op with
  | input x cc mc now =>
    obtain ⟨sh, g1, g⟩ := R.bind_ok.1 h
    rw [← Except.ok.inj g] at fin ⊢
    exact ⟨fin hl.partners, fun n hn => ⟨memAddTask_keeps g1 hn, fun _ => memAddTask_clock g1⟩⟩
  | cycle v now =>
    obtain ⟨⟨sh, msg, calls⟩, g1, g⟩ := R.bind_ok.1 h
    rw [← Except.ok.inj g] at fin ⊢
    refine ⟨fin ?_, fun n hn => ⟨(reasonCycle_keeps g1 hn).2.1, fun hne => absurd rfl (hne v now)⟩⟩
    intro m hm
    rcases List.mem_append.1 hm with hm | hm
    · exact hl.partners m hm
    · exact reasonCycle_secondary g1 m hm
  | work =>
    simp only [SysOp.run] at h
    split at h
    · rw [← Except.ok.inj h]
      exact ⟨hl, fun n hn => ⟨hn.mono (by omega), fun _ => rfl⟩⟩
    · rename_i m rest e
      obtain ⟨⟨sh, calls⟩, g1, g⟩ := R.bind_ok.1 h
      rw [← Except.ok.inj g] at fin ⊢
      refine ⟨fin fun m' hm' => hl.partners m' (by rw [e]; simp [hm']), fun n hn => ?_⟩
      unfold Nar.work at g1
      obtain ⟨concl, a1, g1⟩ := R.bind_ok.1 g1
      obtain ⟨p, a2, g1⟩ := R.bind_ok.1 g1
      obtain ⟨⟨sh2, c2⟩, a3, g1⟩ := R.bind_ok.1 g1
      obtain ⟨sh3, a4, g1⟩ := R.bind_ok.1 g1
      obtain ⟨rfl, _⟩ := Prod.mk.inj (Except.ok.inj g1)
      have b1 := workConclusions_length hl.inv (hl.partners m (by rw [e]; simp)) hl.tables a1
      have b2 := offerAll_keeps a3 hn
      have b3 := addAll_keeps (f := fun c => 1 * p.mulCredit * c.2) a4 b2.1
      refine ⟨b3.mono ?_, fun _ => ?_⟩
      · simp only [SysOp.mayAdd]; omega
      · have := foldlM_inv (fun x : Shared => x.cycleCounter = sh2.cycleCounter) a4 rfl
          (fun c _ a b ha hb => (memAddTask_clock hb).trans ha)
        exact this.trans b2.2
  | flush =>
    rw [← Except.ok.inj h] at fin ⊢
    refine ⟨fin hl.partners, fun n hn => ⟨hn.sub ?_, fun _ => rfl⟩⟩
    rintro r (hr | ⟨p, hp, _⟩)
    · cases hr
    · cases hp
  | newStampId =>
    rw [← Except.ok.inj h] at fin ⊢
    exact ⟨fin hl.partners, fun n hn => ⟨hn.same rfl rfl, fun _ => rfl⟩⟩
  | procMem m =>
    rw [← Except.ok.inj h] at fin ⊢
    exact ⟨fin hl.partners, fun n hn => ⟨hn.same rfl rfl, fun _ => rfl⟩⟩

theorem light_limited {cfg : Cfg} {ops : List SysOp} {s s' : Sys} (hl : Limited cfg s) (hs : ∀ op ∈ ops, op.Sane)
    (h : moreSys cfg s ops = .ok s') :
    Limited cfg s' ∧ ∀ n, KeepsAtMost s.sh n → KeepsAtMost s'.sh (n + load cfg ops) ∧
      ((∀ op ∈ ops, ∀ v now, op ≠ .cycle v now) → s'.sh.cycleCounter = s.sh.cycleCounter) := by
  induction ops generalizing s with
  | nil => cases h; exact ⟨hl, fun n hn => ⟨hn, fun _ => rfl⟩⟩
  | cons op ops ih =>
    obtain ⟨s1, h1, h⟩ := foldlM_cons_ok.1 h
    obtain ⟨a1, a2⟩ := SysOp.step_limited hl (hs op (by simp)) h1
    obtain ⟨b1, b2⟩ := ih a1 (fun o ho => hs o (by simp [ho])) h
    refine ⟨b1, fun n hn => ?_⟩
    obtain ⟨c1, c2⟩ := a2 n hn
    obtain ⟨d1, d2⟩ := b2 _ c1
    refine ⟨d1.mono ?_, fun hne => ?_⟩
    · unfold load; simp only [List.map_cons, List.sum_cons]; omega
    · rw [d2 fun o ho => hne o (by simp [ho]), c2 (hne op (by simp))]

/-- spans of actions, a cycle at the end of each: tasks are kept for at most 111 cycles -/
theorem spans_limited {cfg : Cfg} {k : Nat} (ds : List Span) (hd : ∀ d ∈ ds, Light cfg k d.before)
    (hs : ∀ d ∈ ds, ∀ op ∈ d.before, op.Sane) {s s' : Sys} (hl : Limited cfg s) (c : Nat) (hc : s.sh.cycleCounter = c)
    (hk : KeepsAtMost s.sh (30 + (c % 111) * k)) (h : moreSys cfg s (ds.flatMap Span.ops) = .ok s') :
    Limited cfg s' ∧ s'.sh.cycleCounter = ((c + ds.length : Nat) : Int) ∧
      KeepsAtMost s'.sh (30 + ((c + ds.length) % 111) * k) := by
  induction ds generalizing s c with
  | nil => cases h; exact ⟨hl, by simpa using hc, by simpa using hk⟩
  | cons d ds ih =>
    rw [List.flatMap_cons] at h
    unfold moreSys at h
    rw [List.foldlM_append] at h
    obtain ⟨s1, h1, h⟩ := R.bind_ok.1 h
    unfold Span.ops at h1
    rw [List.foldlM_append] at h1
    obtain ⟨s2, h2, h1⟩ := R.bind_ok.1 h1
    obtain ⟨s3, h3, h4⟩ := foldlM_cons_ok.1 h1
    cases h4
    obtain ⟨a1, a2⟩ := light_limited hl (hs d (by simp)) h2
    obtain ⟨b1, b2⟩ := a2 _ hk
    have b2 := b2 (hd d (by simp)).1
    have b3 := SysOp.step_limited a1 (op := .cycle d.selVal d.now) trivial h3
    obtain ⟨⟨sh, msg, calls⟩, g1, g⟩ := R.bind_ok.1 h3
    obtain ⟨c1, c2, c3, _⟩ := reasonCycle_keeps g1 b1
    have e : s1.sh = sh := by rw [← Except.ok.inj g]
    rw [← e] at c1 c2 c3
    have hc' : s1.sh.cycleCounter = ((c + 1 : Nat) : Int) := by rw [c1, b2, hc]; push_cast; rfl
    have hk' : KeepsAtMost s1.sh (30 + ((c + 1) % 111) * k) := by
      by_cases hz : (c + 1) % 111 = 0
      · refine (c3 ?_).mono (by omega)
        rw [hc']; exact_mod_cast congrArg (Nat.cast (R := Int)) hz
      · refine c2.mono ?_
        have h111 : (c + 1) % 111 = c % 111 + 1 := by omega
        rw [h111, Nat.add_mul, Nat.one_mul]
        have := (hd d (by simp)).2
        omega
    have := ih (fun x hx => hd x (by simp [hx])) (fun x hx => hs x (by simp [hx])) b3.1 (c + 1) hc' hk' h
    rw [List.length_cons, show c + (ds.length + 1) = c + 1 + ds.length by omega]
    exact this

end Nar
