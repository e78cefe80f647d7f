import Verif.Lemmas.Channel
import Verif.Lemmas.Whole
import Verif.Spec.Counters
/-! # Lemmas about counters of use -/
namespace Nar
open Term

/-! ## counting the uses of a message -/

theorem Usage.after_cell (n : Nat) (now : Int) (u : Usage) : (u.after n now).cell = u.cell := by
  unfold Usage.after; split <;> rfl

theorem Sentence.after_cell (n : List Int → Nat) (now : Int) (s : Sentence) : (s.after n now).usage.cell = s.usage.cell :=
  Usage.after_cell _ _ _

theorem Sentence.after_zero (now : Int) (s : Sentence) : s.after (fun _ => 0) now = s := by
  simp [Sentence.after, Usage.after]

theorem useCell_after (cell : List Int) (n : List Int → Nat) (now : Int) (s : Sentence) :
    (s.useCell cell now).after n now = s.after (fun c => (if c = cell then 1 else 0) + n c) now := by
  unfold Sentence.useCell
  split
  · rename_i h
    subst h
    have h1 : ¬ (1 + n s.usage.cell = 0) := by omega
    simp only [Sentence.after, usageUpdate, Usage.after, if_true, h1, if_false]
    by_cases h0 : n s.usage.cell = 0
    · simp [h0]
    · simp only [h0, if_false]; congr 2; push_cast; ring
  · rename_i h
    unfold Sentence.after
    simp [h]

/-- the state after the counted uses -/
def Shared.after (n : List Int → Nat) (now : Int) (sh : Shared) : Shared :=
  { sh with
    heap := sh.heap.map (fun t => { t with sentence := t.sentence.after n now })
    mem := sh.mem.map (fun c => { c with
      beliefsByExp := c.beliefsByExp.map (Sentence.after n now)
      beliefsByUsage := c.beliefsByUsage.map (Sentence.after n now) }) }

theorem Shared.after_zero (now : Int) (sh : Shared) : sh.after (fun _ => 0) now = sh := by
  unfold Shared.after
  have : (Sentence.after (fun _ => 0) now) = id := by funext s; exact Sentence.after_zero now s
  simp [this]

def usesIn (sh : Shared) (l : List Nat) (cell : List Int) : Nat :=
  l.countP (fun r => match sh.heap[r]? with | some t => decide (t.sentence.usage.cell = cell) | none => false)

theorem useTask_heap_cell (now : Int) (sh : Shared) (a r : Nat) :
    ((useTask now sh a).heap[r]?.map fun t => t.sentence.usage.cell) = (sh.heap[r]?.map fun t => t.sentence.usage.cell) := by
  rcases useTask_cases now sh a with ⟨_, e⟩ | ⟨task, _, e⟩
  · rw [e]
  · rw [e]
    simp only [List.getElem?_map]
    cases sh.heap[r]? with
    | none => rfl
    | some t =>
      simp only [Option.map_some]
      unfold Sentence.useCell
      split <;> rfl

theorem usesIn_useTask (now : Int) (sh : Shared) (a : Nat) (l : List Nat) :
    usesIn (useTask now sh a) l = usesIn sh l := by
  funext cell
  unfold usesIn
  congr 1
  funext r
  have := useTask_heap_cell now sh a r
  cases h1 : (useTask now sh a).heap[r]? <;> cases h2 : sh.heap[r]? <;> rw [h1, h2] at this <;> simp at this ⊢
  rw [this]

theorem useTask_after (now : Int) (sh : Shared) (a : Nat) (n : List Int → Nat) :
    (useTask now sh a).after n now = sh.after (fun c => usesIn sh [a] c + n c) now := by
  have hu : usesIn sh [a] = fun c => match sh.heap[a]? with | some t => (if t.sentence.usage.cell = c then 1 else 0) | none => 0 := by
    funext c
    unfold usesIn
    rw [List.countP_singleton]
    cases sh.heap[a]? with
    | none => rfl
    | some t => simp
  rcases useTask_cases now sh a with ⟨h, e⟩ | ⟨task, h, e⟩
  · rw [e, hu, h]; simp
  · rw [e, hu, h]
    have key : ∀ s : Sentence, (s.useCell task.sentence.usage.cell now).after n now =
        s.after (fun c => (if task.sentence.usage.cell = c then 1 else 0) + n c) now := by
      intro s; rw [useCell_after]; congr 1; funext c; simp [eq_comm]
    unfold Shared.after Mem.useCell
    simp only [List.map_map, Function.comp_def, key]

theorem updateUsage_after (sh : Shared) (msg : Msg) (now : Int) :
    updateUsage sh msg now = sh.after (usesOf sh msg) now := by
  have key : ∀ (l : List Nat) (sh : Shared), l.foldl (useTask now) sh = sh.after (usesIn sh l) now := by
    intro l
    induction l with
    | nil => intro sh; exact (Shared.after_zero now sh).symm
    | cons a l ih =>
      intro sh
      rw [List.foldl_cons, ih, usesIn_useTask, useTask_after]
      congr 1
      funext c
      unfold usesIn
      rw [← List.countP_append]; rfl
  exact key _ sh

/-! ## one cell, one value -/

/-- the cell from which a chain of pooled beliefs started -/
def rootOf : List Int → List Int
  | [] => []
  | [x] => [x]
  | x :: y :: l => if x = 0 then rootOf (y :: l) else x :: y :: l

theorem rootOf_zero {c : List Int} (h : c ≠ []) : rootOf (0 :: c) = rootOf c := by
  cases c with
  | nil => exact absurd rfl h
  | cons x l => simp [rootOf]

/-- copies of counters agree, and the names of cells are taken from a set of used names -/
structure Counters (U : List Int → Prop) (sh : Shared) : Prop where
  agree : ∀ u v, HoldsCounters sh u → HoldsCounters sh v → u.cell = v.cell → u = v
  used : ∀ u, HoldsCounters sh u → U (rootOf u.cell)
  nonneg : ∀ u, HoldsCounters sh u → 0 ≤ u.useCount

theorem Counters.mono {U U' : List Int → Prop} {sh : Shared} (h : Counters U sh) (hu : ∀ c, U c → U' c) : Counters U' sh :=
  ⟨h.agree, fun u k => hu _ (h.used u k), h.nonneg⟩

theorem Counters.sub {U : List Int → Prop} {sh sh' : Shared} (h : Counters U sh)
    (hs : ∀ u, HoldsCounters sh' u → HoldsCounters sh u) : Counters U sh' :=
  ⟨fun u v hu hv => h.agree u v (hs u hu) (hs v hv), fun u k => h.used u (hs u k), fun u k => h.nonneg u (hs u k)⟩

theorem holds_allP (sh : Shared) : AllP (fun s => HoldsCounters sh s.usage) (fun _ => True) sh :=
  ⟨fun t ht => .inl ⟨t, ht, rfl⟩, fun c hc => ⟨fun b hb => .inr ⟨c, hc, b, .inl hb, rfl⟩,
    fun b hb => .inr ⟨c, hc, b, .inr hb, rfl⟩⟩, fun _ _ => ⟨fun _ _ => trivial, fun _ _ => trivial⟩⟩

theorem AllP.holds {P : Usage → Prop} {Q : Sentence → Prop} {sh : Shared} (h : AllP (fun s => P s.usage) Q sh) :
    ∀ u, HoldsCounters sh u → P u := by
  rintro u (⟨t, ht, rfl⟩ | ⟨c, hc, b, hb | hb, rfl⟩)
  · exact h.1 t ht
  · exact (h.2.1 c hc).1 b hb
  · exact (h.2.1 c hc).2 b hb

/-- the action neither adds a sentence nor counts a use -/
def TaskOp.Quiet : TaskOp → Prop
  | .add _ _ _ _ => False
  | .usage _ _ => False
  | _ => True

theorem TaskOp.run_quietly {P : Sentence → Prop} {cfg : Cfg} {sh sh' : Shared} {op : TaskOp}
    {calls : List AnswerCall} (h : op.run cfg sh = .ok (sh', calls)) (h0 : AllP P (fun _ => True) sh) (hq : op.Quiet) :
    AllP P (fun _ => True) sh' := by
  cases op with
  | add s cc mc now => exact hq.elim
  | tick => cases h; exact h0
  | creditQuestions => cases h; exact creditQuestions_P h0
  | baseCredit =>
    obtain ⟨x, h1, h2⟩ := R.map_ok.1 h
    cases h2; exact baseCredit_P h1 h0
  | answer v =>
    obtain ⟨qs, hf⟩ := answerSampled_frame h
    have : sh' = { sh with questionTasks := qs } := hf
    rw [this]; exact h0
  | offer c =>
    simp only [TaskOp.run] at h
    unfold offerConclusion at h
    split at h
    · rw [R.bind_ok] at h
      obtain ⟨⟨qs, cs⟩, h1, h⟩ := h
      cases h
      exact h0
    · cases h; exact h0
  | select =>
    obtain ⟨r', h1, h2⟩ := R.map_ok.1 h
    cases h2
    rcases selectPrimary_cases h1 with ⟨_, rfl⟩ | ⟨_, _, _, _, rfl⟩ <;> exact h0
  | usage msg now => exact hq.elim
  | cleanup =>
    obtain ⟨x, h1, h2⟩ := R.map_ok.1 h
    cases h2
    obtain ⟨_, _, _, _, rfl⟩ := cleanupTasks_spec h1
    exact h0
  | rebuild =>
    obtain ⟨x, h1, h2⟩ := R.map_ok.1 h
    cases h2
    unfold rebuildLookup at h1
    rw [R.bind_ok] at h1
    obtain ⟨_, _, h1⟩ := h1
    cases h1; exact h0
  | forget n =>
    obtain ⟨m, h1, h2⟩ := R.map_ok.1 h
    cases h2
    exact ⟨h0.1, fun c hc => h0.2.1 c (limitMemory_mem h1 c hc), h0.2.2⟩
  | flush => cases h; exact h0
  | newStampId => cases h; exact h0
  | procMem m => cases h; exact ⟨h0.1, h0.2.1, fun _ _ => ⟨fun _ _ => trivial, fun _ _ => trivial⟩⟩

theorem after_holds {n : List Int → Nat} {now : Int} {sh : Shared} {u : Usage} (h : HoldsCounters (sh.after n now) u) :
    ∃ v, HoldsCounters sh v ∧ u = v.after (n v.cell) now := by
  rcases h with ⟨t, ht, rfl⟩ | ⟨c, hc, b, hb, rfl⟩
  · obtain ⟨a, ha, rfl⟩ := List.mem_map.1 ht
    exact ⟨_, .inl ⟨a, ha, rfl⟩, rfl⟩
  · obtain ⟨d, hd, rfl⟩ := List.mem_map.1 hc
    rcases hb with hb | hb
    · obtain ⟨a, ha, rfl⟩ := List.mem_map.1 hb
      exact ⟨_, .inr ⟨d, hd, a, .inl ha, rfl⟩, rfl⟩
    · obtain ⟨a, ha, rfl⟩ := List.mem_map.1 hb
      exact ⟨_, .inr ⟨d, hd, a, .inr ha, rfl⟩, rfl⟩

theorem Counters.after {U : List Int → Prop} {sh : Shared} (h : Counters U sh) (n : List Int → Nat) (now : Int) :
    Counters U (sh.after n now) := by
  constructor
  · intro u v hu hv he
    obtain ⟨u', hu', rfl⟩ := after_holds hu
    obtain ⟨v', hv', rfl⟩ := after_holds hv
    rw [Usage.after_cell, Usage.after_cell] at he
    rw [h.agree u' v' hu' hv' he]
  · intro u hu
    obtain ⟨u', hu', rfl⟩ := after_holds hu
    rw [Usage.after_cell]; exact h.used u' hu'
  · intro u hu
    obtain ⟨u', hu', rfl⟩ := after_holds hu
    have := h.nonneg u' hu'
    unfold Usage.after
    split
    · exact this
    · show 0 ≤ u'.useCount + _; omega

/-- counters of a belief just made from the sentence whose cell has the root `ρ` -/
def FreshUsage (ρ : List Int) (u : Usage) : Prop := u.lastUsed = 0 ∧ u.useCount = 0 ∧ u.cell ≠ [] ∧ rootOf u.cell = ρ

theorem reviseTable_fresh {P : Sentence → Prop} {ρ : List Int} (hP : ∀ s, FreshUsage ρ s.usage → P s) {cell : List Int}
    {table : List Sentence} {s : Sentence} {r : List Sentence × Option Sentence} (h : reviseTable cell table s = .ok r)
    (ht : ∀ b ∈ table, P b) (hc : cell ≠ [] ∧ rootOf cell = ρ) :
    (∀ b ∈ r.1, P b) ∧ ∀ x, r.2 = some x → FreshUsage ρ x.usage := by
  rcases reviseTable_cases h with ⟨_, rfl⟩ | ⟨pre, b, post, add, rfl, hb, hn, _, hr, rfl⟩
  · exact ⟨ht, by simp⟩
  · obtain ⟨_, _, _, _, _, _, rfl⟩ := revisedBelief_ok hr
    refine ⟨?_, by rintro x hx; cases hx; exact ⟨rfl, rfl, hc.1, hc.2⟩⟩
    intro x hx
    simp only [List.mem_append, List.mem_singleton] at hx
    rcases hx with (hx | hx) | rfl
    · exact ht x (by simp [hx])
    · exact ht x (by simp [hx])
    · exact hP _ ⟨rfl, rfl, hc.1, hc.2⟩

theorem nextCell_fresh {ρ : List Int} {s : Sentence} {res : Option Sentence} (hs : FreshUsage ρ s.usage)
    (hr : ∀ x, res = some x → FreshUsage ρ x.usage) : nextCell s res ≠ [] ∧ rootOf (nextCell s res) = ρ := by
  refine ⟨by simp [nextCell], ?_⟩
  unfold nextCell
  cases res with
  | none => simp only [Option.getD_none]; rw [rootOf_zero hs.2.2.1]; exact hs.2.2.2
  | some x => simp only [Option.getD_some]; rw [rootOf_zero (hr x rfl).2.2.1]; exact (hr x rfl).2.2.2

theorem memReviseBelief_fresh {P : Sentence → Prop} {ρ : List Int} (hP : ∀ s, FreshUsage ρ s.usage → P s) {m : Mem}
    {s : Sentence} {st : Mem × Option Sentence} (h : memReviseBelief m s = .ok st) (hm : MemP P m)
    (hs : FreshUsage ρ s.usage) : MemP P st.1 ∧ ∀ x, st.2 = some x → FreshUsage ρ x.usage := by
  rcases memReviseBelief_cases h with ⟨_, rfl⟩ | ⟨hp, h⟩
  · exact ⟨hm, by simp⟩
  · refine foldlM_inv (fun st : Mem × Option Sentence => MemP P st.1 ∧ ∀ x, st.2 = some x → FreshUsage ρ x.usage) h
      ⟨hm, by simp⟩ ?_
    intro t _ a b hab hstep
    unfold reviseAt at hstep
    split at hstep
    · rename_i c hg
      obtain ⟨⟨e, r1⟩, g1, hstep⟩ := R.bind_ok.1 hstep
      obtain ⟨⟨u, r2⟩, g2, hstep⟩ := R.bind_ok.1 hstep
      cases hstep
      have hc := hab.1 c (Mem.get_some hg).1
      have k1 := reviseTable_fresh hP g1 hc.1 (nextCell_fresh hs hab.2)
      have k1' : ∀ x, r1.or a.2 = some x → FreshUsage ρ x.usage := by
        intro x hx
        cases r1 with
        | none => exact hab.2 x hx
        | some y => exact k1.2 x hx
      have k2 := reviseTable_fresh hP g2 hc.2 (nextCell_fresh hs k1')
      refine ⟨?_, ?_⟩
      · intro d hd
        rcases Mem.mem_set hd with rfl | ⟨hd, _⟩
        · exact ⟨k1.1, k2.1⟩
        · exact hab.1 d hd
      · intro y hy
        cases r2 with
        | none => exact k1' y hy
        | some z => exact k2.2 y hy
    · cases hstep; exact hab

theorem memAddTask_fresh {P Q : Sentence → Prop} {ρ : List Int} (hP : ∀ s, FreshUsage ρ s.usage → P s) {cfg : Cfg}
    {sh sh' : Shared} {s : Sentence} {cc : Bool} {mc : Rat} {now : Int} (h : memAddTask cfg sh s cc mc now = .ok sh')
    (h0 : AllP P Q sh) (hs : FreshUsage ρ s.usage) : AllP P Q sh' := by
  rcases memAddTask_cases h with ⟨_, rfl⟩ | ⟨_, mem, rev, h1, h2⟩
  · exact h0
  · have key : MemP P mem ∧ ∀ x, rev = some x → FreshUsage ρ x.usage := by
      rcases addBelief_cases h1 with ⟨x, rfl, g1⟩ | ⟨rfl, m1, g1, g2⟩
      · exact memReviseBelief_fresh hP g1 h0.2.1 hs
      · exact ⟨storeInConcepts2_P g2 (memReviseBelief_fresh hP g1 h0.2.1 hs).1 (fun _ => hP s hs), by simp⟩
    refine addTasks_P h2 ⟨h0.1, key.1, h0.2.2⟩ ?_
    intro x hx hj
    rcases List.mem_cons.1 hx with rfl | hx
    · exact hP _ hs
    · rw [Option.mem_toList] at hx
      exact hP x (key.2 x hx)

theorem Counters.add {U : List Int → Prop} {ρ : List Int} {cfg : Cfg} {sh sh' : Shared} {s : Sentence} {cc : Bool} {mc : Rat}
    {now : Int} (h : memAddTask cfg sh s cc mc now = .ok sh') (h0 : Counters U sh) (hs : FreshUsage ρ s.usage) (hf : ¬ U ρ) :
    Counters (fun c => U c ∨ c = ρ) sh' := by
  have key := AllP.holds (P := fun u => HoldsCounters sh u ∨ FreshUsage ρ u) (memAddTask_fresh (ρ := ρ)
    (P := fun s => HoldsCounters sh s.usage ∨ FreshUsage ρ s.usage) (fun s hs => .inr hs) h
    ((holds_allP sh).mono fun s hs => .inl hs) hs)
  constructor
  · intro u v hu hv he
    rcases key u hu with hu | hu <;> rcases key v hv with hv | hv
    · exact h0.agree u v hu hv he
    · exact absurd (by rw [← hv.2.2.2, ← he]; exact h0.used u hu) hf
    · exact absurd (by rw [← hu.2.2.2, he]; exact h0.used v hv) hf
    · obtain ⟨a1, a2, _, _⟩ := hu
      obtain ⟨b1, b2, _, _⟩ := hv
      cases u; cases v
      simp only at a1 a2 b1 b2 he
      subst a1 a2 b1 b2 he; rfl
  · intro u hu
    rcases key u hu with hu | hu
    · exact .inl (h0.used u hu)
    · exact .inr hu.2.2.2
  · intro u hu
    rcases key u hu with hu | hu
    · exact h0.nonneg u hu
    · rw [hu.2.1]

theorem Counters.act {U : List Int → Prop} {cfg : Cfg} {sh sh' : Shared} {op : TaskOp} {calls : List AnswerCall}
    (h : op.run cfg sh = .ok (sh', calls)) (h0 : Counters U sh) (hq : ∀ s cc mc now, op ≠ .add s cc mc now) : Counters U sh' := by
  cases op with
  | add s cc mc now => exact absurd rfl (hq s cc mc now)
  | usage msg now => cases h; rw [updateUsage_after]; exact h0.after _ _
  | _ => exact h0.sub ((TaskOp.run_quietly h (holds_allP sh) trivial).holds (P := HoldsCounters sh))

theorem Counters.more {U : List Int → Prop} {cfg : Cfg} {st st' : Shared × List AnswerCall} {ops : List TaskOp}
    (h : moreTasks cfg st ops = .ok st') (h0 : Counters U st.1) (hq : ∀ op ∈ ops, ∀ s cc mc now, op ≠ .add s cc mc now) :
    Counters U st'.1 := by
  refine foldlM_inv (fun st : Shared × List AnswerCall => Counters U st.1) h h0 ?_
  rintro op hop ⟨sh, log⟩ b h1 hstep
  obtain ⟨⟨sh', calls⟩, h3, h4⟩ := R.bind_ok.1 hstep
  cases h4
  exact h1.act h3 (hq op hop)

theorem cycleOps_quiet {cycle : Int} {v : Rat} {now : Int} {msg : Option Msg} :
    ∀ o ∈ cycleOps cycle v now msg, ∀ s cc mc t, o ≠ .add s cc mc t := by
  intro o ho
  simp only [cycleOps, maintenance] at ho
  split at ho <;> split at ho <;> cases msg <;> simp at ho <;>
    (try rcases ho with rfl | rfl | rfl | rfl | rfl | rfl | rfl | rfl | rfl) <;> simp_all

/-! ## the whole reasoner -/

/-- names of cells which have been used -/
def UsedRoot (r : Reasoner) (c : List Int) : Prop :=
  (∃ id, c = [id] ∧ id < r.sh.stampIdCounter) ∨
  ∃ cy i, c = [cy, i] ∧ 1 ≤ cy ∧ cy ≤ r.sh.cycleCounter ∧ ∀ m ∈ r.queue, m.cycleCounter ≠ cy

structure CellInv (r : Reasoner) : Prop where
  counters : Counters (UsedRoot r) r.sh
  distinct : (r.queue.map (·.cycleCounter)).Nodup
  range : ∀ m ∈ r.queue, 1 ≤ m.cycleCounter ∧ m.cycleCounter ≤ r.sh.cycleCounter
  pos : 0 ≤ r.sh.cycleCounter

theorem CellInv.same {r r' : Reasoner} (h : CellInv r) (h1 : r'.sh = r.sh) (h2 : r'.queue = r.queue) : CellInv r' := by
  have hu : UsedRoot r' = UsedRoot r := by unfold UsedRoot; rw [h1, h2]
  exact ⟨by rw [hu, h1]; exact h.counters, by rw [h2]; exact h.distinct, by rw [h1, h2]; exact h.range, by rw [h1]; exact h.pos⟩

theorem memAddTask_frame {cfg : Cfg} {sh sh' : Shared} {s : Sentence} {cc : Bool} {mc : Rat} {now : Int}
    (h : memAddTask cfg sh s cc mc now = .ok sh') :
    sh'.cycleCounter = sh.cycleCounter ∧ sh'.stampIdCounter = sh.stampIdCounter := by
  have key : ∀ (ss : List Sentence) (a b : Shared), addTasks a cc mc ss = .ok b →
      b.cycleCounter = a.cycleCounter ∧ b.stampIdCounter = a.stampIdCounter := by
    intro ss
    induction ss with
    | nil => intro a b h; cases h; exact ⟨rfl, rfl⟩
    | cons s ss ih =>
      intro a b h
      unfold addTasks at h
      cases hp : s.punct with
      | JUGEMENT =>
        rw [hp] at h
        simp only [R.bind_ok] at h
        obtain ⟨tasks, ht, h⟩ := h
        split at h
        · cases h; exact ⟨rfl, rfl⟩
        · rw [R.bind_ok] at h
          obtain ⟨task, htask, h⟩ := h
          have := ih _ _ h; exact this
      | QUESTION => rw [hp] at h; have := ih _ _ h; exact this
      | GOAL => rw [hp] at h; have := ih _ _ h; exact this
  rcases memAddTask_cases h with ⟨_, rfl⟩ | ⟨_, mem, rev, _, h2⟩
  · exact ⟨rfl, rfl⟩
  · have := key _ _ _ h2; exact this

theorem cycle_CellInv {env : Env} {r r' : Reasoner} {v : Rat} (h : cycle env r v = .ok r') (hi : CellInv r) : CellInv r' := by
  have hq := cycle_queue h
  have ht := cycle_time h
  unfold cycle at h
  obtain ⟨⟨sh, msg, calls⟩, h1, h⟩ := R.bind_ok.1 h
  have hs : r'.sh = { sh with procMem := r.sh.procMem } := by
    cases msg with
    | none => cases h; rfl
    | some m =>
      simp only [sendMsg] at h
      split at h
      · cases h; rfl
      · cases h
  have hc : r'.sh.cycleCounter = r.sh.cycleCounter + 1 := ht.2.1
  have hid : r'.sh.stampIdCounter = r.sh.stampIdCounter := by
    rw [hs]
    show sh.stampIdCounter = _
    rw [(Prod.mk.inj (reasonCycle_outer h1)).1]; unfold Reasoner.look; split <;> rfl
  have hl : Counters (UsedRoot r) r.look := by
    refine hi.counters.sub ?_
    intro u hu
    unfold Reasoner.look at hu
    split at hu <;> exact hu
  have hd : Counters (UsedRoot r) sh := Counters.more (reasonCycle_more [] h1) hl cycleOps_quiet
  have hd' : Counters (UsedRoot r) r'.sh := by rw [hs]; exact hd.sub fun u hu => hu
  rcases hq.2 with ⟨_, hq⟩ | ⟨_, _, m, hq, _, hm⟩
  · refine ⟨hd'.mono ?_, by rw [hq]; exact hi.distinct, ?_, by rw [hc]; have := hi.pos; omega⟩
    · rintro c (⟨id, rfl, h⟩ | ⟨cy, i, rfl, h1, h2, h3⟩)
      · exact .inl ⟨id, rfl, by omega⟩
      · exact .inr ⟨cy, i, rfl, h1, by omega, by rw [hq]; exact h3⟩
    · intro m hm
      rw [hq] at hm
      have := hi.range m hm
      omega
  · refine ⟨hd'.mono ?_, ?_, ?_, by rw [hc]; have := hi.pos; omega⟩
    · rintro c (⟨id, rfl, h⟩ | ⟨cy, i, rfl, h1, h2, h3⟩)
      · exact .inl ⟨id, rfl, by omega⟩
      · refine .inr ⟨cy, i, rfl, h1, by omega, ?_⟩
        rw [hq]
        intro x hx
        rcases List.mem_append.1 hx with hx | hx
        · exact h3 x hx
        · rw [List.mem_singleton] at hx; subst hx; omega
    · rw [hq, List.map_append, List.nodup_append]
      refine ⟨hi.distinct, by simp, ?_⟩
      intro a ha b hb
      obtain ⟨x, hx, rfl⟩ := List.mem_map.1 ha
      simp only [List.map_cons, List.map_nil, List.mem_singleton] at hb
      have := hi.range x hx
      omega
    · intro x hx
      rw [hq] at hx
      rcases List.mem_append.1 hx with hx | hx
      · have := hi.range x hx; omega
      · rw [List.mem_singleton] at hx; subst hx
        have := hi.pos; omega

theorem nameCells_add {cfg : Cfg} {U : List Int → Prop} {cy : Int} {mc : Sentence × Rat → Rat} {now : Int} (hcy : 1 ≤ cy)
    (hU : ∀ i, ¬ U [cy, i]) (concl : List (Sentence × Rat)) {sh sh' : Shared} (h0 : Counters U sh)
    (h : (nameCells cy concl).foldlM (fun sh c => memAddTask cfg sh c.1 true (mc c) now) sh = .ok sh') :
    Counters (fun c => U c ∨ ∃ i, c = [cy, i]) sh' ∧ sh'.cycleCounter = sh.cycleCounter ∧ sh'.stampIdCounter = sh.stampIdCounter := by
  suffices key : ∀ (concl : List (Sentence × Rat)) (k : Nat) (sh sh' : Shared),
      Counters (fun c => U c ∨ ∃ i : Nat, i < k ∧ c = [cy, (i : Int)]) sh →
      (concl.mapIdx fun i c => ({ c.1 with usage := ⟨0, 0, [cy, ((i + k : Nat) : Int)]⟩ }, c.2)).foldlM
        (fun sh c => memAddTask cfg sh c.1 true (mc c) now) sh = .ok sh' →
      Counters (fun c => U c ∨ ∃ i : Nat, i < k + concl.length ∧ c = [cy, (i : Int)]) sh' ∧
        sh'.cycleCounter = sh.cycleCounter ∧ sh'.stampIdCounter = sh.stampIdCounter by
    obtain ⟨k1, k2⟩ := key concl 0 sh sh' (h0.mono fun c hc => .inl hc) h
    exact ⟨k1.mono fun c hc => hc.imp id fun ⟨i, _, hi⟩ => ⟨i, hi⟩, k2⟩
  intro concl
  induction concl with
  | nil => intro k sh sh' h0 h; cases h; exact ⟨h0, rfl, rfl⟩
  | cons c concl ih =>
    intro k sh sh' h0 h
    rw [List.mapIdx_cons, foldlM_cons_ok] at h
    obtain ⟨sh1, h1, h⟩ := h
    have hr : rootOf [cy, ((0 + k : Nat) : Int)] = [cy, (k : Int)] := by
      rw [Nat.zero_add]; simp only [rootOf]; rw [if_neg (by omega)]
    have h2 := Counters.add (ρ := [cy, (k : Int)]) h1 h0 ⟨rfl, rfl, by simp, hr⟩ (by
      rintro (h | ⟨i, hi, he⟩)
      · exact hU _ h
      · simp only [List.cons.injEq, and_true, true_and] at he
        omega)
    have hf := memAddTask_frame h1
    have e : ∀ i : Nat, (i + 1 + k : Nat) = i + (k + 1) := fun i => by omega
    simp only [e] at h
    obtain ⟨k1, k2, k3⟩ := ih (k + 1) sh1 sh' (h2.mono (by
      rintro c ((h | ⟨i, hi, rfl⟩) | rfl)
      · exact .inl h
      · exact .inr ⟨i, by omega, rfl⟩
      · exact .inr ⟨k, by omega, rfl⟩)) h
    refine ⟨k1.mono ?_, k2.trans hf.1, k3.trans hf.2⟩
    rintro c (h | ⟨i, hi, rfl⟩)
    · exact .inl h
    · exact .inr ⟨i, by rw [List.length_cons]; omega, rfl⟩

theorem offerAll_frame {cfg : Cfg} {cs : List Sentence} {sh sh' : Shared} {calls : List AnswerCall}
    (h : offerAll cfg sh cs = .ok (sh', calls)) : ∃ qs, sh' = { sh with questionTasks := qs } := by
  induction cs generalizing sh calls with
  | nil => cases h; exact ⟨_, rfl⟩
  | cons c cs ih =>
    unfold offerAll at h
    obtain ⟨⟨sh1, c1⟩, h1, h⟩ := R.bind_ok.1 h
    obtain ⟨⟨sh2, c2⟩, h2, h⟩ := R.bind_ok.1 h
    cases h
    obtain ⟨qs, rfl⟩ := ih h2
    unfold offerConclusion at h1
    split at h1
    · obtain ⟨⟨q, cs⟩, _, h1⟩ := R.bind_ok.1 h1
      cases h1; exact ⟨_, rfl⟩
    · cases h1; exact ⟨_, rfl⟩

theorem work_Counters {cfg : Cfg} {U : List Int → Prop} {sh sh' : Shared} {m : Msg} {calls : List AnswerCall}
    (h : work cfg sh m = .ok (sh', calls)) (h0 : Counters U sh) (hm : 1 ≤ m.cycleCounter) (hU : ∀ i, ¬ U [m.cycleCounter, i]) :
    Counters (fun c => U c ∨ ∃ i, c = [m.cycleCounter, i]) sh' ∧ sh'.cycleCounter = sh.cycleCounter ∧
      sh'.stampIdCounter = sh.stampIdCounter := by
  unfold work at h
  obtain ⟨concl, hc, h⟩ := R.bind_ok.1 h
  obtain ⟨p, hp, h⟩ := R.bind_ok.1 h
  obtain ⟨⟨sh1, c1⟩, h1, h⟩ := R.bind_ok.1 h
  obtain ⟨sh2, h2, h⟩ := R.bind_ok.1 h
  cases h
  obtain ⟨qs, rfl⟩ := offerAll_frame h1
  obtain ⟨drawn, rfl, _⟩ := workConclusions_iff hc
  have := nameCells_add (mc := fun c => 1 * p.mulCredit * c.2) hm hU drawn
    (sh := { sh with questionTasks := qs }) (h0.sub fun u hu => hu) h2
  exact this

theorem declWork_CellInv (env : Env) {r : Reasoner} (hi : CellInv r) : CellInv (declWork env r) := by
  unfold declWork
  split
  · split
    · exact hi
    · rename_i m rest hq
      have hd := hi.distinct
      rw [hq, List.map_cons, List.nodup_cons] at hd
      have hrange : ∀ x ∈ rest, 1 ≤ x.cycleCounter ∧ x.cycleCounter ≤ r.sh.cycleCounter :=
        fun x hx => hi.range x (by rw [hq]; exact List.mem_cons_of_mem _ hx)
      have hm := hi.range m (by rw [hq]; exact List.mem_cons_self)
      have hmono : ∀ r' : Reasoner, r'.queue = rest → r'.sh.cycleCounter = r.sh.cycleCounter →
          r'.sh.stampIdCounter = r.sh.stampIdCounter → ∀ c, UsedRoot r c → UsedRoot r' c := by
        rintro r' e1 e2 e3 c (⟨id, rfl, h⟩ | ⟨cy, i, rfl, h1, h2, h3⟩)
        · exact .inl ⟨id, rfl, by rw [e3]; exact h⟩
        · refine .inr ⟨cy, i, rfl, h1, by rw [e2]; exact h2, ?_⟩
          rw [e1]; exact fun x hx => h3 x (by rw [hq]; exact List.mem_cons_of_mem _ hx)
      split
      · rename_i sh calls hw
        obtain ⟨k1, k2, k3⟩ := work_Counters hw hi.counters hm.1 (by
          rintro i (⟨id, h, _⟩ | ⟨cy, j, h, _, _, h3⟩)
          · simp at h
          · simp only [List.cons.injEq, and_true] at h
            exact h3 m (by rw [hq]; exact List.mem_cons_self) h.1)
        refine ⟨k1.mono ?_, hd.2, ?_, ?_⟩
        · rintro c (h | ⟨i, rfl⟩)
          · exact hmono _ rfl k2 k3 c h
          · refine .inr ⟨m.cycleCounter, i, rfl, hm.1, by show _ ≤ sh.cycleCounter; rw [k2]; exact hm.2, ?_⟩
            intro x hx he
            exact hd.1 (List.mem_map.2 ⟨x, hx, he⟩)
        · intro x hx
          show _ ∧ _ ≤ sh.cycleCounter
          rw [k2]; exact hrange x hx
        · show 0 ≤ sh.cycleCounter
          rw [k2]; exact hi.pos
      · exact ⟨hi.counters.mono (hmono _ rfl rfl rfl), hd.2, hrange, hi.pos⟩
  · exact hi

theorem declWorkN_CellInv (env : Env) {r : Reasoner} (n : Nat) (hi : CellInv r) : CellInv (declWorkN env r n) := by
  induction n generalizing r with
  | zero => exact hi
  | succ n ih => exact ih (declWork_CellInv env hi)

theorem cyclesLoop_CellInv {env : Env} {draws : Nat → Rat × Nat} {n i : Nat} {r r' : Reasoner}
    (h : cyclesLoop env draws n i r = .ok r') (hi : CellInv r) : CellInv r' := by
  induction n generalizing r i with
  | zero => cases h; exact hi
  | succ n ih =>
    unfold cyclesLoop at h
    obtain ⟨r1, h1, h⟩ := R.bind_ok.1 h
    exact ih h (cycle_CellInv h1 (declWorkN_CellInv env _ hi))

/-- a new evidence id is taken, and a sentence told with it or not -/
theorem CellInv.newId {r r' : Reasoner} (hi : CellInv r) (hq : r'.queue = r.queue)
    (hc : r'.sh.cycleCounter = r.sh.cycleCounter) (hid : r'.sh.stampIdCounter = r.sh.stampIdCounter + 1)
    (hk : Counters (fun c => UsedRoot r c ∨ c = [r.sh.stampIdCounter]) r'.sh) : CellInv r' := by
  refine ⟨hk.mono ?_, by rw [hq]; exact hi.distinct, by rw [hq, hc]; exact hi.range, by rw [hc]; exact hi.pos⟩
  rintro c ((⟨id, rfl, h⟩ | ⟨cy, i, rfl, h1, h2, h3⟩) | rfl)
  · exact .inl ⟨id, rfl, by omega⟩
  · exact .inr ⟨cy, i, rfl, h1, by rw [hc]; exact h2, by rw [hq]; exact h3⟩
  · exact .inl ⟨_, rfl, by omega⟩

theorem CellInv.tell {r : Reasoner} (hi : CellInv r) {cfg : Cfg} {term : Term} {punct : Punct} {tv : Tv} {cc : Bool} {mc : Rat}
    {now : Int} {sh' : Shared}
    (h : memAddTask cfg { r.sh with stampIdCounter := r.sh.stampIdCounter + 1 }
        (newEternalSentenceByTv term punct tv ⟨[r.sh.stampIdCounter]⟩) cc mc now = .ok sh') : CellInv { r with sh := sh' } := by
  have hf := memAddTask_frame h
  refine hi.newId rfl hf.1 hf.2 ?_
  refine Counters.add h (hi.counters.sub fun u hu => hu) ⟨rfl, rfl, by simp [newEternalSentenceByTv], rfl⟩ ?_
  rintro (⟨id, h, h'⟩ | ⟨cy, i, h, _⟩)
  · simp only [List.cons.injEq, and_true] at h; omega
  · simp at h

theorem inputT2_CellInv {env : Env} {r r' : Reasoner} {term : Term} {punct : Punct} {tv : Tv} {isEvent : Bool} {rng : List Nat}
    (h : inputT2 env r term punct tv isEvent rng = .ok r') (hi : CellInv r) : CellInv r' := by
  obtain ⟨hq, _, _, _, _, _, _, hsh | ⟨hadd, _, _⟩⟩ := inputT2_cases h
  · refine hi.newId hq (by rw [hsh]) (by rw [hsh]) ?_
    rw [hsh]
    have : Counters (UsedRoot r) { r.sh with stampIdCounter := r.sh.stampIdCounter + 1 } := hi.counters.sub fun u hu => hu
    exact this.mono fun c hc => .inl hc
  · exact (hi.tell hadd).same rfl hq

theorem inputN_CellInv {env : Env} {r r' : Reasoner} {txt : List Char} {ok : Bool} {rng : List Nat}
    (h : inputN env r txt rng = .ok (r', ok)) (hi : CellInv r) : CellInv r' := by
  unfold inputN at h
  obtain ⟨p, hp, h⟩ := R.bind_ok.1 h
  split at h
  · obtain ⟨r1, h1, h⟩ := R.bind_ok.1 h
    cases h; exact inputT2_CellInv h1 hi
  · cases h; exact hi

theorem declEffects_CellInv {env : Env} {r r' : Reasoner} {ops : List Op} {t : Int} {executed : Option Term}
    (h : declEffects env r ops t executed = .ok r') (hi : CellInv r) : CellInv r' := by
  unfold declEffects at h
  split at h
  · cases h; exact hi
  · split at h
    · cases h; exact hi
    · obtain ⟨effs, he, h⟩ := R.bind_ok.1 h
      obtain ⟨sh, h1, h⟩ := R.bind_ok.1 h
      cases h
      refine foldlM_inv (fun x : Shared => CellInv { r with sh := x }) h1 hi ?_
      rintro eff hmem a b ha hstep
      cases eff with
      | inject e => cases hstep; exact ha
      | relate rel => exact ha.tell (r := { r with sh := a }) hstep

theorem procStep1_CellInv {env : Env} {r r' : Reasoner} {d : LineDraws} (h : procStep1 env r d = .ok r')
    (hi : CellInv r) : CellInv r' := by
  unfold procStep1 at h
  obtain ⟨⟨p, executed⟩, hn, h⟩ := R.bind_ok.1 h
  exact declEffects_CellInv h (hi.same rfl rfl)

theorem runCommand_CellInv {env : Env} {r r' : Reasoner} {d : LineDraws} {s : List Char} {c : Command} {out : List (List Char)}
    (h : runCommand env r d s c = .ok (r', out)) (hi : CellInv r) : CellInv r' := by
  cases c with
  | step =>
    obtain ⟨r1, h1, h⟩ := R.bind_ok.1 h
    cases h
    unfold procStep at h1
    obtain ⟨p, h0, h1⟩ := R.bind_ok.1 h1
    rw [procWork_fold] at h1
    exact procStep1_CellInv h1 (hi.same rfl rfl)
  | stepA =>
    obtain ⟨p, _, h⟩ := R.bind_ok.1 h
    cases h; exact hi.same rfl rfl
  | stepB =>
    obtain ⟨r1, h1, h⟩ := R.bind_ok.1 h
    cases h; exact procStep1_CellInv h1 hi
  | cycles arg =>
    obtain ⟨n, _, h⟩ := R.bind_ok.1 h
    obtain ⟨r1, h1, h⟩ := R.bind_ok.1 h
    cases h; exact cyclesLoop_CellInv h1 hi
  | flush => cases h; exact ⟨hi.counters.sub fun u hu => hu, hi.distinct, hi.range, hi.pos⟩
  | register arg =>
    simp only [runCommand] at h
    split at h
    · cases h; exact hi.same rfl rfl
    · cases h; exact hi
  | showEvidence =>
    obtain ⟨_, _, h⟩ := R.bind_ok.1 h
    cases h; exact hi
  | nlp a =>
    obtain ⟨r1, h1, h⟩ := R.bind_ok.1 h
    cases h
    unfold nlpProcess at h1
    refine foldlM_inv CellInv h1 hi ?_
    rintro rel hrel a b ha hstep
    obtain ⟨txt, ht, hstep⟩ := R.bind_ok.1 hstep
    obtain ⟨⟨r1, ok⟩, h1, hstep⟩ := R.bind_ok.1 hstep
    cases hstep
    exact inputN_CellInv h1 ha
  | debugTasks =>
    obtain ⟨_, _, h⟩ := R.bind_ok.1 h
    cases h; exact hi
  | narsese =>
    obtain ⟨⟨r1, ok⟩, h1, h⟩ := R.bind_ok.1 h
    cases h; exact inputN_CellInv h1 hi
  | babbleOff | babbleOn => cases h; exact hi.same rfl rfl
  | comment | debugMemory | quit | empty => cases h; exact hi

theorem NarOp.run_CellInv {env : Env} {r r' : Reasoner} {op : NarOp} (h : op.run env r = .ok r') (hi : CellInv r) :
    CellInv r' := by
  cases op with
  | line l d =>
    obtain ⟨x, h1, rfl⟩ := R.map_ok.1 h
    unfold input at h1
    obtain ⟨c, hc, h1⟩ := R.bind_ok.1 h1
    obtain ⟨⟨r1, out⟩, h2, h1⟩ := R.bind_ok.1 h1
    cases h1
    exact runCommand_CellInv h2 hi
  | tell term punct tv isEvent rng => exact inputT2_CellInv h hi
  | cycle v => exact cycle_CellInv h hi
  | declWork => cases h; exact declWork_CellInv env hi
  | procWork rng => cases h; exact hi.same rfl rfl
  | handlers n => cases h; exact hi.same rfl rfl
  | verbosity v => cases h; exact hi.same rfl rfl
  | workerLost => cases h; exact hi.same rfl rfl
  | link => cases h; exact hi.same rfl rfl

theorem runNar_CellInv {env : Env} {ops : List NarOp} {r : Reasoner} (h : runNar env ops = .ok r) : CellInv r := by
  refine foldlM_inv CellInv h ?_ (fun _ _ _ _ ha hs => NarOp.run_CellInv hs ha)
  refine ⟨⟨?_, ?_, ?_⟩, by simp [createNar], by simp [createNar], by simp [createNar, createShared]⟩
  · rintro u v (⟨t, ht, _⟩ | ⟨c, hc, _⟩)
    · simp [createNar, createShared] at ht
    · simp [createNar, createShared] at hc
  · rintro u (⟨t, ht, _⟩ | ⟨c, hc, _⟩)
    · simp [createNar, createShared] at ht
    · simp [createNar, createShared] at hc
  · rintro u (⟨t, ht, _⟩ | ⟨c, hc, _⟩)
    · simp [createNar, createShared] at ht
    · simp [createNar, createShared] at hc

/-! ## the uses of a cycle -/

/-- the sentences of the tasks are the same, and no concept is new -/
def SameSentences (sh sh' : Shared) : Prop :=
  sh'.heap.map (·.sentence) = sh.heap.map (·.sentence) ∧ ∀ c ∈ sh'.mem, c ∈ sh.mem

theorem SameSentences.trans {a b c : Shared} (h : SameSentences a b) (h' : SameSentences b c) : SameSentences a c :=
  ⟨h'.1.trans h.1, fun x hx => h.2 x (h'.2 x hx)⟩

theorem SameSentences.modify (sh : Shared) (r : Nat) (f : Task → Task)
    (hf : ∀ t, sh.heap[r]? = some t → (f t).sentence = t.sentence) : SameSentences sh (sh.modifyTask r f) := by
  refine ⟨?_, fun c hc => hc⟩
  apply List.ext_getElem?
  intro i
  simp only [Shared.modifyTask, List.getElem?_map, List.getElem?_modify]
  cases h : sh.heap[i]? with
  | none => rfl
  | some t =>
    simp only [Option.map_some, Functor.map]
    split
    · rename_i e; subst e; rw [hf t h]
    · rfl

theorem SameSentences.foldl {α} (f : Shared → α → Shared) (l : List α) (sh : Shared)
    (hf : ∀ sh a, SameSentences sh (f sh a)) : SameSentences sh (l.foldl f sh) := by
  induction l generalizing sh with
  | nil => exact ⟨rfl, fun _ h => h⟩
  | cons a l ih => exact (hf sh a).trans (ih _)

theorem TaskOp.quiet_sentences {cfg : Cfg} {sh sh' : Shared} {op : TaskOp}
    {calls : List AnswerCall} (h : op.run cfg sh = .ok (sh', calls)) (hq : op.Quiet) : SameSentences sh sh' := by
  cases op with
  | add s cc mc now => exact hq.elim
  | tick => cases h; exact ⟨rfl, fun _ h => h⟩
  | creditQuestions =>
    cases h
    unfold Nar.creditQuestions
    refine SameSentences.foldl _ _ _ fun sh q => ?_
    unfold creditQuestion
    refine SameSentences.foldl _ _ _ fun sh t => ?_
    split
    · exact SameSentences.foldl _ _ _ fun sh r => .modify _ _ _ fun _ _ => rfl
    · exact ⟨rfl, fun _ h => h⟩
  | baseCredit =>
    obtain ⟨x, h1, h2⟩ := R.map_ok.1 h
    cases h2
    unfold Nar.baseCredit at h1
    refine foldlM_inv (fun x => SameSentences sh x) h1 ?_ ?_
    · exact SameSentences.foldl _ _ _ fun sh r => .modify _ _ _ fun _ _ => rfl
    · intro r _ a b hok hstep
      obtain ⟨t, ht, hstep⟩ := R.bind_ok.1 hstep
      obtain ⟨t', ht', hstep⟩ := R.bind_ok.1 hstep
      cases hstep
      refine hok.trans (.modify _ _ _ ?_)
      intro u hu
      rw [indexAt_ok] at ht
      rw [ht] at hu; cases hu
      exact payCredit_sentence (cc := true) ht'
  | answer v =>
    obtain ⟨qs, hf⟩ := answerSampled_frame h
    have : sh' = { sh with questionTasks := qs } := hf
    rw [this]; exact ⟨rfl, fun _ h => h⟩
  | offer c =>
    simp only [TaskOp.run] at h
    unfold offerConclusion at h
    split at h
    · rw [R.bind_ok] at h
      obtain ⟨⟨qs, cs⟩, h1, h⟩ := h
      cases h
      exact ⟨rfl, fun _ h => h⟩
    · cases h; exact ⟨rfl, fun _ h => h⟩
  | select =>
    obtain ⟨r', h1, h2⟩ := R.map_ok.1 h
    cases h2
    rcases selectPrimary_cases h1 with ⟨_, rfl⟩ | ⟨_, _, _, _, rfl⟩ <;> exact ⟨rfl, fun _ h => h⟩
  | usage msg now => exact hq.elim
  | cleanup =>
    obtain ⟨x, h1, h2⟩ := R.map_ok.1 h
    cases h2
    obtain ⟨_, _, _, _, rfl⟩ := cleanupTasks_spec h1
    exact ⟨rfl, fun _ h => h⟩
  | rebuild =>
    obtain ⟨x, h1, h2⟩ := R.map_ok.1 h
    cases h2
    unfold rebuildLookup at h1
    rw [R.bind_ok] at h1
    obtain ⟨_, _, h1⟩ := h1
    cases h1; exact ⟨rfl, fun _ h => h⟩
  | forget n =>
    obtain ⟨m, h1, h2⟩ := R.map_ok.1 h
    cases h2
    exact ⟨rfl, fun c hc => limitMemory_mem h1 c hc⟩
  | flush => cases h; exact ⟨rfl, fun _ h => h⟩
  | newStampId => cases h; exact ⟨rfl, fun _ h => h⟩
  | procMem m => cases h; exact ⟨rfl, fun _ h => h⟩

theorem moreTasks_sentences {cfg : Cfg} {st st' : Shared × List AnswerCall} {ops : List TaskOp}
    (h : moreTasks cfg st ops = .ok st') (hq : ∀ op ∈ ops, op.Quiet) : SameSentences st.1 st'.1 := by
  refine foldlM_inv (fun x : Shared × List AnswerCall => SameSentences st.1 x.1) h ⟨rfl, fun _ h => h⟩ ?_
  rintro op hop ⟨sh, log⟩ b h1 hstep
  obtain ⟨⟨sh', calls⟩, h3, h4⟩ := R.bind_ok.1 hstep
  cases h4
  exact h1.trans (TaskOp.quiet_sentences h3 (hq op hop))

theorem SameSentences.uses {a b : Shared} (h : SameSentences a b) (msg : Msg) : usesOf b msg = usesOf a msg := by
  funext cell
  unfold usesOf
  congr 1
  funext r
  have := congrArg (fun l => l[r]?) h.1
  simp only [List.getElem?_map] at this
  cases h1 : a.heap[r]? <;> cases h2 : b.heap[r]? <;> rw [h1, h2] at this <;> simp at this ⊢
  rw [this]

theorem reasonCycle_counted {cfg : Cfg} {v : Rat} {now : Int} {sh sh' : Shared} {msg : Option Msg} {calls : List AnswerCall}
    (h : reasonCycle cfg v now sh = .ok (sh', msg, calls)) :
    UsesCounted (match msg with | some m => usesOf sh m | none => fun _ => 0) now sh sh' := by
  have hm := reasonCycle_more [] h
  unfold cycleOps at hm
  unfold moreTasks at hm
  rw [List.foldlM_append] at hm
  obtain ⟨st2, hm, h3⟩ := R.bind_ok.1 hm
  rw [List.foldlM_append] at hm
  obtain ⟨st1, h1, h2⟩ := R.bind_ok.1 hm
  have q1 := moreTasks_sentences h1 (by simp [TaskOp.Quiet])
  have q3 := moreTasks_sentences h3 (by
    unfold maintenance
    intro o ho
    split at ho <;> split at ho <;> simp at ho <;> (try rcases ho with rfl | rfl | rfl) <;> simp_all [TaskOp.Quiet])
  simp only at q1 q3
  cases msg with
  | none =>
    cases h2
    have := q1.trans q3
    refine ⟨?_, fun c hc => ⟨c, this.2 c hc, ?_⟩⟩
    · rw [this.1]; simp only [Sentence.after_zero]
    · have e : (Sentence.after (fun _ => 0) now) = id := by funext s; exact Sentence.after_zero now s
      simp [e]
  | some m =>
    simp only [Option.toList_some, List.map_cons, List.map_nil] at h2
    rw [foldlM_cons_ok] at h2
    obtain ⟨st, h2, h2'⟩ := h2
    have e2 := Except.ok.inj h2'
    subst e2
    obtain ⟨⟨s2, c2⟩, h2, h2'⟩ := R.bind_ok.1 h2
    have e3 := Except.ok.inj h2'
    subst e3
    have e4 : updateUsage st1.1 m now = s2 := (Prod.mk.inj (Except.ok.inj h2)).1
    simp only at q3
    rw [← e4, updateUsage_after] at q3
    have hu := q1.uses m
    rw [hu] at q3
    refine ⟨?_, ?_⟩
    · rw [q3.1]
      unfold Shared.after
      rw [List.map_map]
      have := congrArg (List.map (Sentence.after (usesOf sh m) now)) q1.1
      rw [List.map_map, List.map_map] at this
      exact this
    · intro c' hc'
      obtain ⟨c, hc, rfl⟩ := List.mem_map.1 (q3.2 c' hc')
      exact ⟨c, q1.2 c hc, rfl⟩

theorem cycle_counted {env : Env} {r r' : Reasoner} {v : Rat} (h : cycle env r v = .ok r') :
    (r'.queue = r.queue ∧ UsesCounted (fun _ => 0) r'.currentTime r.sh r'.sh) ∨
    ∃ m, r'.queue = r.queue ++ [m] ∧ UsesCounted (usesOf r.sh m) r'.currentTime r.sh r'.sh := by
  unfold cycle at h
  obtain ⟨⟨sh, msg, calls⟩, h1, h⟩ := R.bind_ok.1 h
  have hk := reasonCycle_counted h1
  have hl : r.look.heap = r.sh.heap ∧ r.look.mem = r.sh.mem := by
    unfold Reasoner.look; split <;> exact ⟨rfl, rfl⟩
  unfold UsesCounted at hk
  rw [hl.1, hl.2] at hk
  cases msg with
  | none => cases h; exact .inl ⟨rfl, hk⟩
  | some m =>
    have hu : usesOf r.look m = usesOf r.sh m := by unfold usesOf; rw [hl.1]
    simp only [sendMsg] at h
    split at h
    · cases h
      simp only [hu] at hk
      exact .inr ⟨m, rfl, hk⟩
    · cases h

/-! ## full tables -/

theorem sortDesc_append_last {α} (l : List (Rat × α)) (a : Rat × α) (h : ∀ b ∈ l, a.1 ≤ b.1) :
    sortDesc (l ++ [a]) = sortDesc l ++ [a] := by
  have hi : ∀ (b : Rat × α) (l : List (Rat × α)), a.1 ≤ b.1 → (∀ x ∈ l, a.1 ≤ x.1) →
      insertDesc b (l ++ [a]) = insertDesc b l ++ [a] := by
    intro b l hb hl
    induction l with
    | nil =>
      simp only [List.nil_append, insertDesc]
      rw [if_pos hb]; rfl
    | cons x l ih =>
      simp only [List.cons_append, insertDesc]
      split
      · rfl
      · rw [ih fun y hy => hl y (List.mem_cons_of_mem _ hy)]; rfl
  induction l with
  | nil => rfl
  | cons b l ih =>
    show insertDesc b (sortDesc (l ++ [a])) = insertDesc b (sortDesc l) ++ [a]
    rw [ih fun x hx => h x (List.mem_cons_of_mem _ hx)]
    refine hi b _ (h b List.mem_cons_self) ?_
    intro x hx
    exact h x (List.mem_cons_of_mem _ ((sortDesc_perm l).mem_iff.1 hx))

theorem keyed_useful (now : Int) (l : List Sentence) :
    keyed (usefulOf now) l = .ok (l.map fun s => (calcUsageUsefulness s.usage now, s)) := by
  induction l with
  | nil => rfl
  | cons a l ih =>
    unfold keyed at ih ⊢
    rw [List.mapM_cons, ih]; rfl

theorem useful_nonneg (u : Usage) (now : Int) (h : 0 ≤ u.useCount) : 0 ≤ calcUsageUsefulness u now := by
  have hr : (0 : Rat) ≤ (max (now - u.lastUsed) 0 : Int) := by exact_mod_cast le_max_right _ _
  have hu : (0 : Rat) ≤ u.useCount := by exact_mod_cast h
  simp only [calcUsageUsefulness]
  positivity

/-- a full table by use takes in no unused belief -/
theorem storeTable_full {now : Int} {table table' : List Sentence} {s : Sentence} {n : Nat}
    (h : storeTable (usefulOf now) table s n = .ok table') (hs : s.usage.useCount = 0)
    (ht : ∀ b ∈ table, 0 ≤ b.usage.useCount) (hn : n ≤ table.length) :
    ∃ sorted : List Sentence, sorted.Perm table ∧ (table' = table ∨ table' = sorted.take n) := by
  unfold storeTable at h
  split at h
  · cases h; exact ⟨table, .refl _, .inl rfl⟩
  · rw [keyed_useful] at h
    have hz : calcUsageUsefulness s.usage now = 0 := by simp [calcUsageUsefulness, hs]
    have hk : sortDesc ((table ++ [shallowCopySentence s]).map fun s => (calcUsageUsefulness s.usage now, s)) =
        sortDesc (table.map fun s => (calcUsageUsefulness s.usage now, s)) ++ [(0, s)] := by
      rw [List.map_append, List.map_cons, List.map_nil, shallowCopy_eq, hz]
      refine sortDesc_append_last _ _ ?_
      intro b hb
      obtain ⟨x, hx, rfl⟩ := List.mem_map.1 hb
      exact useful_nonneg _ _ (ht x hx)
    have hp : ((sortDesc (table.map fun s => (calcUsageUsefulness s.usage now, s))).map (·.2)).Perm table := by
      have := (sortDesc_perm (table.map fun s => (calcUsageUsefulness s.usage now, s))).map (·.2)
      rw [List.map_map] at this
      simpa [Function.comp_def] using this
    refine ⟨_, hp, .inr ?_⟩
    have h' := Except.ok.inj h
    rw [hk, take_min_length] at h'
    rw [← h', List.map_append, List.take_append_of_le_length]
    rw [hp.length_eq]; exact hn

theorem listed_set {m : Mem} {name : Term} {n : Nat} {l : List Term} {c d : Concept} {t : Term} (hg : m.get t = some c)
    (hl : ListedByUse m name n l) (hd : d.name = c.name)
    (hp : n ≤ c.beliefsByUsage.length → (∀ b ∈ c.beliefsByUsage, b.term ∈ l) →
      n ≤ d.beliefsByUsage.length ∧ ∀ b ∈ d.beliefsByUsage, b.term ∈ l) :
    ListedByUse (m.set d) name n l := by
  obtain ⟨x, hx, hn, hmem⟩ := hl
  have hc := (Mem.get_some hg).2
  by_cases he : name = t
  · subst he
    rw [hg] at hx; cases hx
    have : m.get d.name = some c := by rw [hd, hc]; exact hg
    refine ⟨d, ?_, hp hn hmem⟩
    rw [← hc, ← hd]; exact Mem.get_set_self this
  · refine ⟨x, ?_, hn, hmem⟩
    rw [Mem.get_set_ne (by rw [hd, hc]; exact he)]; exact hx

theorem reviseAt_listed {s : Sentence} {st st' : Mem × Option Sentence} {t name : Term} {n : Nat} {l : List Term}
    (h : reviseAt s st t = .ok st') (hl : ListedByUse st.1 name n l) : ListedByUse st'.1 name n l := by
  rcases reviseAt_cases h with ⟨_, rfl⟩ | ⟨c, r1, r2, hg, _, g2, rfl⟩
  · exact hl
  · refine listed_set hg hl rfl fun hn hm => ⟨by rw [reviseTable_length g2]; exact hn, ?_⟩
    intro b hb
    have := (reviseTable_terms g2).mem_iff.1 (List.mem_map.2 ⟨b, hb, rfl⟩)
    obtain ⟨x, hx, he⟩ := List.mem_map.1 this
    rw [← he]; exact hm x hx

theorem storeAt_listed {s : Sentence} {n k : Nat} {now : Int} {m m' : Mem} {t name : Term} {l : List Term}
    (h : storeAt s n now m t = .ok m') (hs : s.usage.useCount = 0) (hk : k = n)
    (hi : MemP (fun b => 0 ≤ b.usage.useCount) m ∧ ListedByUse m name k l) :
    MemP (fun b => 0 ≤ b.usage.useCount) m' ∧ ListedByUse m' name k l := by
  subst hk
  refine ⟨storeAt_P h hi.1 (by rw [hs]), ?_⟩
  rcases storeAt_cases h with ⟨c, e, u, hg, _, hu, rfl⟩ | ⟨hn', rfl⟩
  · refine listed_set hg hi.2 rfl fun hn hm => ?_
    obtain ⟨sorted, h1, h2⟩ := storeTable_full hu hs (hi.1 c (Mem.get_some hg).1).2 hn
    rcases h2 with rfl | rfl
    · exact ⟨hn, hm⟩
    · refine ⟨by rw [List.length_take, h1.length_eq]; omega, ?_⟩
      intro b hb
      exact hm b (h1.mem_iff.1 (List.mem_of_mem_take hb))
  · obtain ⟨x, hx, hperm⟩ := hi.2
    refine ⟨x, ?_, hperm⟩
    rw [Mem.get_append hn']
    split
    · rename_i e; subst e; rw [hn'] at hx; cases hx
    · exact hx

theorem addBelief_listed {m m' : Mem} {s : Sentence} {n : Nat} {now : Int} {r : Option Sentence} {name : Term} {l : List Term}
    (h : addBelief m s n now = .ok (m', r)) (hs : s.usage.useCount = 0)
    (hm : MemP (fun b => 0 ≤ b.usage.useCount) m) (hl : ListedByUse m name n l) : ListedByUse m' name n l := by
  have hrev : ∀ st : Mem × Option Sentence, memReviseBelief m s = .ok st →
      MemP (fun b => 0 ≤ b.usage.useCount) st.1 ∧ ListedByUse st.1 name n l := by
    intro st h1
    refine ⟨?_, ?_⟩
    · rcases memReviseBelief_cases h1 with ⟨_, rfl⟩ | ⟨_, h1⟩
      · exact hm
      · refine foldlM_inv (fun st : Mem × Option Sentence => MemP (fun b => 0 ≤ b.usage.useCount) st.1) h1 hm ?_
        intro t _ a b ha hstep
        rcases reviseAt_cases hstep with ⟨_, rfl⟩ | ⟨c, r1, r2, hg, g1, g2, rfl⟩
        · exact ha
        · have key : ∀ {cell : List Int} {table : List Sentence} {r : List Sentence × Option Sentence},
              reviseTable cell table s = .ok r → (∀ b ∈ table, 0 ≤ b.usage.useCount) → ∀ b ∈ r.1, 0 ≤ b.usage.useCount := by
            intro cell table r h ht
            rcases reviseTable_cases h with ⟨_, rfl⟩ | ⟨pre, b, post, add, rfl, hb, hn, _, hr, rfl⟩
            · exact ht
            · obtain ⟨_, _, _, _, _, _, rfl⟩ := revisedBelief_ok hr
              intro x hx
              simp only [List.mem_append, List.mem_singleton] at hx
              rcases hx with (hx | hx) | rfl
              · exact ht x (by simp [hx])
              · exact ht x (by simp [hx])
              · exact le_refl _
          intro d hd
          rcases Mem.mem_set hd with rfl | ⟨hd, _⟩
          · exact ⟨key g1 (ha c (Mem.get_some hg).1).1, key g2 (ha c (Mem.get_some hg).1).2⟩
          · exact ha d hd
    · rcases memReviseBelief_cases h1 with ⟨_, rfl⟩ | ⟨_, h1⟩
      · exact hl
      · exact foldlM_inv (fun st : Mem × Option Sentence => ListedByUse st.1 name n l) h1 hl
          fun t _ a b ha hstep => reviseAt_listed hstep ha
  rcases addBelief_cases h with ⟨x, rfl, g1⟩ | ⟨rfl, m1, g1, g2⟩
  · exact (hrev _ g1).2
  · rcases storeInConcepts2_cases g2 with ⟨_, rfl⟩ | ⟨_, g2⟩
    · exact (hrev _ g1).2
    · exact (foldlM_inv (fun m => MemP (fun b => 0 ≤ b.usage.useCount) m ∧ ListedByUse m name n l) g2 (hrev _ g1)
        fun t _ a b ha hstep => storeAt_listed hstep hs rfl ha).2

theorem addTasks_memory {cc : Bool} {mc : Rat} (ss : List Sentence) : ∀ {sh sh' : Shared}, addTasks sh cc mc ss = .ok sh' →
    sh'.mem = sh.mem := by
  induction ss with
  | nil => intro a b h; cases h; rfl
  | cons s ss ih =>
    intro a b h
    unfold addTasks at h
    cases hp : s.punct with
    | JUGEMENT =>
      rw [hp] at h
      simp only [R.bind_ok] at h
      obtain ⟨tasks, ht, h⟩ := h
      split at h
      · cases h; rfl
      · rw [R.bind_ok] at h
        obtain ⟨task, htask, h⟩ := h
        have := ih h; exact this
    | QUESTION => rw [hp] at h; have := ih h; exact this
    | GOAL => rw [hp] at h; have := ih h; exact this

theorem memAddTask_listed {cfg : Cfg} {sh sh' : Shared} {s : Sentence} {cc : Bool} {mc : Rat} {now : Int} {name : Term}
    {l : List Term} (h : memAddTask cfg sh s cc mc now = .ok sh') (hs : s.usage.useCount = 0)
    (hm : MemP (fun b => 0 ≤ b.usage.useCount) sh.mem) (hl : ListedByUse sh.mem name cfg.nBeliefs l) :
    ListedByUse sh'.mem name cfg.nBeliefs l := by
  rcases memAddTask_cases h with ⟨_, rfl⟩ | ⟨_, mem, rev, h1, h2⟩
  · exact hl
  · rw [addTasks_memory _ h2]
    exact addBelief_listed h1 hs hm hl

theorem Counters.memP {U : List Int → Prop} {sh : Shared} (h : Counters U sh) : MemP (fun b => 0 ≤ b.usage.useCount) sh.mem :=
  fun c hc => ⟨fun b hb => h.nonneg _ (.inr ⟨c, hc, b, .inl hb, rfl⟩), fun b hb => h.nonneg _ (.inr ⟨c, hc, b, .inr hb, rfl⟩)⟩

theorem Counters.allP {U : List Int → Prop} {sh : Shared} (h : Counters U sh) :
    AllP (fun b => 0 ≤ b.usage.useCount) (fun _ => True) sh :=
  ⟨fun t ht => h.nonneg _ (.inl ⟨t, ht, rfl⟩), h.memP, fun _ _ => ⟨fun _ _ => trivial, fun _ _ => trivial⟩⟩

theorem addTasks_one {cc : Bool} {mc : Rat} {s : Sentence} {sh sh' : Shared} (h : addTasks sh cc mc [s] = .ok sh')
    (hj : s.punct = .JUGEMENT) :
    (∃ t ∈ sh.heap, t.sentence.term = s.term) ∨
    ∃ t, t.sentence = s ∧ sh'.heap = sh.heap ++ [t] ∧ sh'.judgementTasks = sh.judgementTasks ++ [sh.heap.length] := by
  unfold addTasks at h
  rw [hj] at h
  simp only [R.bind_ok] at h
  obtain ⟨tasks, g1, h⟩ := h
  split at h
  · rename_i hex
    unfold taskExists at hex
    obtain ⟨t, htm, hb⟩ := List.any_eq_true.1 hex
    rw [Bool.and_eq_true, checkEqTerm_iff] at hb
    obtain ⟨a, _, ha⟩ := forall₂_right_mem (derefs_iff.1 g1) htm
    exact .inl ⟨t, List.mem_of_getElem? ha, hb.1.symm⟩
  · obtain ⟨task, g2, h⟩ := R.bind_ok.1 h
    have e := Except.ok.inj h
    exact .inr ⟨task, payCredit_sentence g2, by rw [← e], by rw [← e]⟩

theorem memReviseBelief_none {m m1 : Mem} {s : Sentence} (h : memReviseBelief m s = .ok (m1, none)) (x : Term) :
    m1.get x = m.get x := by
  rcases memReviseBelief_cases h with ⟨_, he⟩ | ⟨_, h⟩
  · rw [(Prod.mk.inj he).1]
  · refine foldlM_inv (fun st : Mem × Option Sentence => st.2 = none → st.1.get x = m.get x) h (fun _ => rfl) ?_ rfl
    intro t _ a b ha hstep hb
    rcases reviseAt_cases hstep with ⟨_, rfl⟩ | ⟨c, r1, r2, hg, g1, g2, rfl⟩
    · exact ha hb
    · have hb' : r2.2.or (r1.2.or a.2) = none := hb
      have h2 : r2.2 = none := by cases h : r2.2 <;> simp_all
      have h1 : r1.2 = none := by cases h : r1.2 <;> simp_all
      have h0 : a.2 = none := by cases h : a.2 <;> simp_all
      have key : ∀ {cell : List Int} {table : List Sentence} {r : List Sentence × Option Sentence},
          reviseTable cell table s = .ok r → r.2 = none → r.1 = table := by
        intro cell table r h hn
        rcases reviseTable_cases h with ⟨_, rfl⟩ | ⟨pre, b, post, add, rfl, hb, hn', _, hr, rfl⟩
        · rfl
        · cases hn
      rw [← ha h0]
      have e : ({ c with beliefsByExp := r1.1, beliefsByUsage := r2.1 } : Concept) = c := by
        rw [key g1 h1, key g2 h2]
      show (a.1.set { c with beliefsByExp := r1.1, beliefsByUsage := r2.1 }).get x = _
      rw [e]
      obtain ⟨_, rfl⟩ := Mem.get_some hg
      by_cases hx : x = c.name
      · subst hx; rw [Mem.get_set_self hg, hg]
      · rw [Mem.get_set_ne hx]

theorem only_one {α : Type} {l : List α} {p q : α} (hl : l.length ≤ 1) (hp : p ∈ l) (hq : q ∈ l) : p = q := by
  rcases l with _ | ⟨z, _ | ⟨y, l⟩⟩
  · cases hp
  · rw [List.mem_singleton.1 hp, List.mem_singleton.1 hq]
  · simp at hl

theorem storeTable_better {key : Sentence → R Rat} {table table' : List Sentence} {s b : Sentence} {n : Nat} {eb es : Rat}
    (h : storeTable key table s n = .ok table') (hd : dependentBelief table s = false) (hn : table.length ≤ n)
    (hb : b ∈ table) (hkb : key b = .ok eb) (hks : key s = .ok es) (hlt : eb < es) : s ∈ table' := by
  rcases storeTable_cases h with ⟨hd', _⟩ | ⟨_, sorted, hp, hs, hk, rfl⟩
  · rw [hd] at hd'; cases hd'
  · have hlen : sorted.length = table.length + 1 := by simpa using hp.length_eq
    have hmem : s ∈ sorted.map (·.2) := hp.mem_iff.2 (by simp)
    have hbm : b ∈ sorted.map (·.2) := hp.mem_iff.2 (by simp [hb])
    obtain ⟨p, hps, hpe⟩ := List.mem_map.1 hmem
    obtain ⟨q, hqs, hqe⟩ := List.mem_map.1 hbm
    rw [← List.map_take]
    rw [← List.take_append_drop n sorted, List.mem_append] at hps
    rcases hps with hps | hps
    · exact List.mem_map.2 ⟨p, hps, hpe⟩
    · exfalso
      have hp1 : es = p.1 := by
        have h1 := hk p (List.mem_of_mem_drop hps)
        rw [hpe, hks] at h1; exact Except.ok.inj h1
      have hq1 : eb = q.1 := by
        have h1 := hk q hqs
        rw [hqe, hkb] at h1; exact Except.ok.inj h1
      have hdl : (sorted.drop n).length ≤ 1 := by rw [List.length_drop]; omega
      have hle : p.1 ≤ q.1 := by
        rw [← List.take_append_drop n sorted] at hs hqs
        rcases List.mem_append.1 hqs with hq | hq
        · exact (List.pairwise_append.1 hs).2.2 q hq p hps
        · rw [only_one hdl hps hq]
      rw [← hp1, ← hq1] at hle
      exact absurd hlt (not_lt.2 hle)

theorem storeInConcepts_better {m m' : Mem} {s : Sentence} {n : Nat} {now : Int} {x : Term} {c : Concept} {b : Sentence} {eb es : Rat}
    (h : storeInConcepts m s n now = .ok m') (hj : s.punct = .JUGEMENT) (hne : SharesEvidence s s) (hx : IsSubterm x s.term)
    (hc : m.get x = some c) (hd : dependentBelief c.beliefsByExp s = false) (hn : c.beliefsByExp.length ≤ n)
    (hb : b ∈ c.beliefsByExp) (hkb : expOf b = .ok eb) (hks : expOf s = .ok es) (hlt : eb < es) :
    ∃ c', m'.get x = some c' ∧ s ∈ c'.beliefsByExp := by
  have hP : ∀ (l : List Term) (m m' : Mem), l.foldlM (storeAt s n now) m = .ok m' →
      (∃ c', m.get x = some c' ∧ s ∈ c'.beliefsByExp) ∨ (m.get x = some c ∧ x ∈ l) →
      ∃ c', m'.get x = some c' ∧ s ∈ c'.beliefsByExp := by
    intro l
    induction l with
    | nil =>
      intro m m' h hor
      rw [← foldlM_nil_ok.1 h]
      rcases hor with h | ⟨_, h⟩
      · exact h
      · cases h
    | cons t l ih =>
      intro m m' h hor
      obtain ⟨m1, h1, h⟩ := foldlM_cons_ok.1 h
      refine ih m1 m' h ?_
      rcases storeAt_cases h1 with ⟨d, e, u, hg, he, _, rfl⟩ | ⟨hn', rfl⟩
      · obtain ⟨_, rfl⟩ := Mem.get_some hg
        by_cases hxd : x = d.name
        · subst hxd
          left
          refine ⟨_, Mem.get_set_self (d := { d with beliefsByExp := e, beliefsByUsage := u }) hg, ?_⟩
          rcases hor with ⟨c', hc', hs⟩ | ⟨hc', _⟩
          · rw [hg] at hc'; cases hc'
            show s ∈ e
            rw [storeTable_dependent ⟨s, hs, rfl, hne⟩ he]; exact hs
          · rw [hg] at hc'; cases hc'
            exact storeTable_better he hd hn hb hkb hks hlt
        · rw [Mem.get_set_ne (d := { d with beliefsByExp := e, beliefsByUsage := u }) hxd]
          rcases hor with h | ⟨h, hm⟩
          · exact .inl h
          · exact .inr ⟨h, by simpa [hxd] using hm⟩
      · rw [Mem.get_append hn']
        by_cases hxt : x = t
        · subst hxt
          rcases hor with ⟨c', hc', _⟩ | ⟨hc', _⟩ <;> rw [hn'] at hc' <;> cases hc'
        · rw [if_neg hxt]
          rcases hor with h | ⟨h, hm⟩
          · exact .inl h
          · exact .inr ⟨h, by simpa [hxt] using hm⟩
  unfold storeInConcepts storeInConcepts2 at h
  rw [if_neg (by simp [hj])] at h
  exact hP _ _ _ h (.inr ⟨hc, (mem_retSubterms _ _).2 hx⟩)

/-- what telling a statement outside time does to the shared state -/
theorem inputT2_told {env : Env} {r r' : Reasoner} {term : Term} {tv : Tv} {rng : List Nat} (hn : ¬ IsTemporal term)
    (ht : inputT2 env r term .JUGEMENT tv false rng = .ok r') :
    memAddTask (r.cfg env) { r.sh with stampIdCounter := r.sh.stampIdCounter + 1 }
      (newEternalSentenceByTv term .JUGEMENT tv ⟨[r.sh.stampIdCounter]⟩) true 1 r.proc.t = .ok r'.sh := by
  unfold inputT2 at ht
  obtain ⟨_, _, ht⟩ := R.bind_ok.1 ht
  simp only [Bool.false_eq_true, if_false] at ht
  unfold inputEternalT at ht
  split at ht
  · rename_i hx
    exact absurd ((isTemporal_iff term).1 hx) hn
  · simp only [newEternalSentenceByTv] at ht
    unfold addInputTask at ht
    obtain ⟨sh, hs, ht⟩ := R.bind_ok.1 ht
    cases ht
    exact hs

end Nar
