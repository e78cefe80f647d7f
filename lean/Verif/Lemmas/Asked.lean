import Verif.Spec.Asked
import Verif.Lemmas.Thinks5
/-! # Helper lemmas for questions about something which is known -/
namespace Nar
open Term

theorem foldl_procMem {α} (f : Shared → α → Shared) (l : List α) (hf : ∀ sh a, (f sh a).procMem = sh.procMem) (sh : Shared) :
    (l.foldl f sh).procMem = sh.procMem := by
  induction l generalizing sh with
  | nil => rfl
  | cons a l ih => rw [List.foldl_cons, ih, hf]

theorem creditQuestions_procMem (sh : Shared) : (creditQuestions sh).procMem = sh.procMem := by
  unfold creditQuestions
  apply foldl_procMem
  intro sh q
  unfold creditQuestion
  apply foldl_procMem
  intro sh t
  split
  · apply foldl_procMem
    intro sh r; rfl
  · rfl

theorem baseCredit_procMem {sh sh' : Shared} (h : baseCredit sh = .ok sh') : sh'.procMem = sh.procMem := by
  unfold baseCredit at h
  have h1 : (sh.judgementTasks.foldl
      (fun sh r => sh.modifyTask r (fun t => { t with credit := t.credit + 1/2 })) sh).procMem = sh.procMem := by
    apply foldl_procMem
    intro sh r; rfl
  rw [← h1]
  generalize sh.judgementTasks.foldl
      (fun sh r => sh.modifyTask r (fun t => { t with credit := t.credit + 1/2 })) sh = sh0 at h
  refine foldlM_inv (fun x : Shared => x.procMem = sh0.procMem) h rfl ?_
  intro r _ a b hab hstep
  rw [R.bind_ok] at hstep
  obtain ⟨t, _, hstep⟩ := hstep
  obtain ⟨t', _, hstep⟩ := R.bind_ok.1 hstep
  cases hstep
  exact hab

theorem buildMsg_questions {cfg : Cfg} {sh sh' : Shared} {msg : Option Msg} (h : buildMsg cfg sh = .ok (sh', msg)) :
    sh'.questionTasks = sh.questionTasks ∧ sh'.mem = sh.mem := by
  unfold buildMsg at h
  obtain ⟨⟨shs, prim⟩, hs, h3⟩ := R.bind_ok.1 h
  rcases selectPrimary_cases hs with ⟨e, he⟩ | ⟨tasks, p, _, hp, he⟩
  · cases he; cases h3; exact ⟨rfl, rfl⟩
  · cases he
    obtain ⟨sec, hsec, h3⟩ := R.bind_ok.1 h3
    cases h3; exact ⟨rfl, rfl⟩

theorem everyCleanup_questions {cfg : Cfg} {sh sh' : Shared} (h : everyCleanup cfg sh = .ok sh') :
    sh'.questionTasks = sh.questionTasks ∧ sh'.mem = sh.mem := by
  unfold everyCleanup at h
  split at h
  · obtain ⟨sh1, h1, h⟩ := R.bind_ok.1 h
    obtain ⟨sorted, hp, _, _, rfl⟩ := cleanupTasks_spec h1
    unfold rebuildLookup at h
    obtain ⟨_, _, h⟩ := R.bind_ok.1 h
    cases h; exact ⟨rfl, rfl⟩
  · cases h; exact ⟨rfl, rfl⟩

theorem everyForget_questions {sh sh' : Shared} (h : everyForget sh = .ok sh') :
    sh'.questionTasks = sh.questionTasks ∧ ∀ c ∈ sh'.mem, c ∈ sh.mem := by
  unfold everyForget at h
  split at h
  · obtain ⟨m, h1, h⟩ := R.bind_ok.1 h
    cases h
    refine ⟨rfl, fun c hc => ?_⟩
    exact limitMemory_mem h1 c hc
  · cases h; exact ⟨rfl, fun c hc => hc⟩

/-- what a cycle does to the questions and what it tells about them -/
theorem reasonCycle_asks {cfg : Cfg} {v : Rat} {now : Int} {sh sh' : Shared} {msg : Option Msg} {calls : List AnswerCall}
    (h : reasonCycle cfg v now sh = .ok (sh', msg, calls)) :
    (∀ c ∈ sh'.mem, ∃ d ∈ sh.mem, d.name = c.name) ∧
    ((sh.questionTasks = [] ∧ calls = [] ∧ sh'.questionTasks = []) ∨
     ∃ (i : Nat) (q q' : Task2) (cands : List Sentence), task2SelByCreditRandom v sh.questionTasks = .ok i ∧
      sh.questionTasks[i]? = some q ∧ (∀ b, b ∈ cands ↔ Candidate sh q.sentence.term b) ∧
      qaTryAll cfg.nGlobal q cands = .ok (q', calls) ∧ sh'.questionTasks = sh.questionTasks.set i q') := by
  unfold reasonCycle at h
  obtain ⟨sh1, h1, h⟩ := R.bind_ok.1 h
  obtain ⟨⟨sh2, c2⟩, h2, h⟩ := R.bind_ok.1 h
  obtain ⟨⟨sh3, m3⟩, h3, h⟩ := R.bind_ok.1 h
  obtain ⟨sh4, h4, h⟩ := R.bind_ok.1 h
  obtain ⟨sh5, h5, h⟩ := R.bind_ok.1 h
  cases h
  have hs := (creditQuestions_same { sh with cycleCounter := sh.cycleCounter + 1 }).trans (baseCredit_same h1)
  have hp : sh1.procMem = sh.procMem := by rw [baseCredit_procMem h1, creditQuestions_procMem]
  have hq : sh1.questionTasks = sh.questionTasks := hs.2.2.2.2.1
  have hm : sh1.mem = sh.mem := hs.2.2.2.2.2
  have hcand : ∀ q b, Candidate sh1 q b ↔ Candidate sh q b := by
    intro q b
    unfold Candidate
    rw [hp, hm]
  obtain ⟨qs, e2⟩ := answerSampled_frame h2
  simp only at e2
  obtain ⟨b1, b2⟩ := buildMsg_questions h3
  obtain ⟨k1, k2⟩ := everyCleanup_questions h4
  obtain ⟨f1, f2⟩ := everyForget_questions h5
  have hu : (useMsg sh3 now msg).questionTasks = sh3.questionTasks ∧ UsageOnly sh3.mem (useMsg sh3 now msg).mem := by
    cases msg with
    | none => exact ⟨rfl, .refl _⟩
    | some m => exact ⟨(updateUsage_same sh3 m now).questions, (updateUsage_same sh3 m now).mem⟩
  have hq5 : sh'.questionTasks = sh2.questionTasks := by rw [f1, k1, hu.1, b1]
  refine ⟨?_, ?_⟩
  · intro c hc
    have hc := f2 c hc
    rw [k2] at hc
    obtain ⟨d, hd, e⟩ : ∃ d ∈ sh3.mem, d.name = c.name := by
      obtain ⟨g, hg⟩ := hu.2
      rw [hg] at hc
      unfold touchMem at hc
      obtain ⟨d, hd, rfl⟩ := List.mem_map.1 hc
      exact ⟨d, hd, rfl⟩
    rw [b2, e2] at hd
    exact ⟨d, by rw [← hm]; exact hd, e⟩
  · unfold answerSampled at h2
    split at h2
    · right
      obtain ⟨i, g1, h2⟩ := R.bind_ok.1 h2
      obtain ⟨q, g2, h2⟩ := R.bind_ok.1 h2
      obtain ⟨⟨q', c⟩, g3, h2⟩ := R.bind_ok.1 h2
      cases h2
      refine ⟨i, q, q', relevantBeliefs sh1 q, by rw [← hq]; exact g1, by rw [← hq]; exact indexAt_ok.1 g2, ?_, g3, ?_⟩
      · intro b
        rw [relevantBeliefs_iff, hcand]
      · rw [hq5]
        show sh1.questionTasks.set i q' = _
        rw [hq]
    · left
      cases h2
      have : sh.questionTasks = [] := by rw [← hq]; exact List.length_eq_zero_iff.1 (by omega)
      exact ⟨this, rfl, by rw [hq5, hq, this]⟩

theorem cycle_asks {env : Env} {r r' : Reasoner} {v : Rat} (h : cycle env r v = .ok r') :
    (∀ c ∈ r'.sh.mem, ∃ d ∈ r.sh.mem, d.name = c.name) ∧ ∃ calls, r'.answers = r.answers ++ calls ∧ r'.nGlobal = r.nGlobal ∧
    ((r.sh.questionTasks = [] ∧ calls = [] ∧ r'.sh.questionTasks = []) ∨
     ∃ (i : Nat) (q q' : Task2) (cands : List Sentence), task2SelByCreditRandom v r.sh.questionTasks = .ok i ∧
      r.sh.questionTasks[i]? = some q ∧ (∀ b, b ∈ cands ↔ Candidate r.look q.sentence.term b) ∧
      qaTryAll r.nGlobal q cands = .ok (q', calls) ∧ r'.sh.questionTasks = r.sh.questionTasks.set i q') := by
  unfold cycle at h
  obtain ⟨⟨sh, msg, calls⟩, h1, h⟩ := R.bind_ok.1 h
  have key : r' = { r with sh := { sh with procMem := r.sh.procMem }, currentTime := r.currentTime + 1, answers := r.answers ++ calls, queue := r.queue ++ msg.toList } := by
    cases msg with
    | none => cases h; simp
    | some m =>
      simp only [sendMsg] at h
      split at h
      · cases h; rfl
      · cases h
  have e1 : r.look.questionTasks = r.sh.questionTasks := by unfold Reasoner.look; split <;> rfl
  have e2 : r.look.mem = r.sh.mem := by unfold Reasoner.look; split <;> rfl
  obtain ⟨g1, g2⟩ := reasonCycle_asks h1
  rw [e1] at g2
  rw [e2] at g1
  rw [key]
  exact ⟨g1, calls, rfl, rfl, g2⟩

/-! ## which question is taken -/

theorem selByWeight_ones {v : Rat} {n i j : Nat} (hv : FallsOn v n i) (h : selByWeight v (List.replicate n 1) = .ok j) : j = i := by
  obtain ⟨hi, h1, h2⟩ := hv
  have hn : (0 : Rat) < n := by exact_mod_cast (by omega : 0 < n)
  have hsum : ∀ k : Nat, (List.replicate k (1 : Rat)).sum = k := by intro k; simp
  rw [div_lt_iff₀ hn] at h1
  rw [le_div_iff₀ hn] at h2
  unfold selByWeight at h
  rw [hsum] at h
  cases hs : selLoop (List.replicate n 1) (v * n) 0 0 with
  | none =>
    have := selLoop_none hs (by intro e; rw [List.replicate_eq_nil_iff] at e; omega)
    rw [hsum] at this
    have : (i + 1 : Rat) ≤ n := by exact_mod_cast hi
    linarith
  | some k =>
    rw [hs] at h
    obtain rfl : k = j := by simpa using h
    obtain ⟨_, a2, a3, a4⟩ := selLoop_some hs
    simp only [List.length_replicate, Nat.zero_add] at a2
    rcases Nat.lt_trichotomy k i with hlt | rfl | hlt
    · exfalso
      rw [List.take_replicate, hsum] at a3
      have e : min (k - 0 + 1) n = k + 1 := by omega
      rw [e] at a3
      have : ((k + 1 : Nat) : Rat) ≤ i := by exact_mod_cast hlt
      push_cast at a3 this
      linarith
    · rfl
    · exfalso
      have := a4 i (Nat.zero_le _) hlt
      rw [List.take_replicate, hsum] at this
      have e : min (i - 0 + 1) n = i + 1 := by omega
      rw [e] at this
      push_cast at this
      linarith

/-- all questions are equally important -/
def EqualShares (qs : List Task2) : Prop := ∀ q ∈ qs, q.prio = 1

theorem EqualShares.weights {qs : List Task2} (h : EqualShares qs) : qs.map (·.prio) = List.replicate qs.length 1 := by
  rw [List.eq_replicate_iff]
  refine ⟨by simp, ?_⟩
  intro b hb
  obtain ⟨q, hq, rfl⟩ := List.mem_map.1 hb
  exact h q hq

theorem QStep.shares {n : Nat} {qs qs' : List Task2} {calls : List AnswerCall} (h : QStep n qs qs' calls) (hs : EqualShares qs) :
    EqualShares qs' := by
  intro q' hq'
  obtain ⟨i, hi⟩ := List.getElem?_of_mem hq'
  by_cases hl : i < qs.length
  · obtain ⟨cands, cs, g, _⟩ := h.2.1 i qs[i] q' (List.getElem?_eq_getElem hl) hi
    obtain ⟨_, _, f3, _⟩ := qaTryAll_spec g
    rw [f3]; exact hs _ (List.getElem_mem hl)
  · exact (h.2.2.1 i q' (by omega) hi).2.2

theorem runNar_shares {env : Env} {ops : List NarOp} {r : Reasoner} (h : runNar env ops = .ok r) : EqualShares r.sh.questionTasks := by
  have hm := (runNar_WDecl h).hist.reach
  generalize r.sh = sh, r.answers = log at hm
  induction hm with
  | start => intro q hq; cases hq
  | act cfg op _ _ _ _ hr ih => exact (TaskOp.run_questions hr).shares ih

/-! ## what has just been told is filed -/

/-- everything known is filed under all its parts, and nothing else is -/
structure AllFiled (known : List Sentence) (m : Mem) : Prop where
  wf : m.WF
  only : MemP (fun b => b ∈ known) m
  once : ∀ c ∈ m, c.beliefsByExp.Nodup
  filed : ∀ s ∈ known, ∀ x, IsSubterm x s.term → ∃ c, m.get x = some c ∧ s ∈ c.beliefsByExp
  names : ∀ c ∈ m, ∃ s ∈ known, IsSubterm c.name s.term

theorem AllFiled.revise {known : List Sentence} {m m' : Mem} {s : Sentence} {r : Option Sentence} (hf : AllFiled known m)
    (hn : ∀ b ∈ known, b.term ≠ s.term) (h : memReviseBelief m s = .ok (m', r)) : m' = m ∧ r = none := by
  rcases memReviseBelief_cases h with ⟨_, e⟩ | ⟨_, h⟩
  · cases e; exact ⟨rfl, rfl⟩
  · have := foldlM_inv (fun st : Mem × Option Sentence => st = (m, none)) h rfl ?_
    · cases this; exact ⟨rfl, rfl⟩
    · rintro t _ a b rfl hb
      rcases reviseAt_cases hb with ⟨_, rfl⟩ | ⟨c, r1, r2, hg, h1, h2, rfl⟩
      · rfl
      · obtain ⟨c1, c2⟩ := hf.only c (Mem.get_some hg).1
        have key : ∀ {cell : List Int} {table : List Sentence} {r : List Sentence × Option Sentence},
            reviseTable cell table s = .ok r → (∀ b ∈ table, b ∈ known) → r = (table, none) := by
          intro cell table r h hp
          rcases reviseTable_cases h with ⟨_, rfl⟩ | ⟨pre, b, post, add, rfl, hb, _, _, _, rfl⟩
          · rfl
          · exact absurd hb (hn b (hp b (by simp)))
        have e1 := key h1 c1
        have e2 := key h2 c2
        subst e1 e2
        simp only [Option.none_or]
        rw [Mem.set_same hf.wf (Mem.get_some hg).1]

theorem storeTable_room {known : List Sentence} {s : Sentence} {n : Nat} {key : Sentence → R Rat} {e e' : List Sentence}
    (h : storeTable key e s n = .ok e') (hn : ∀ b ∈ known, b.term ≠ s.term) (hs : s.stamp.ids ≠ []) (hl : known.length < n)
    (he : ∀ b ∈ e, b ∈ known ++ [s]) (hd : e.Nodup) :
    (∀ b ∈ e', b ∈ known ++ [s]) ∧ e'.Nodup ∧ s ∈ e' ∧ ∀ b ∈ e, b ∈ e' := by
  rcases storeTable_cases h with ⟨hdep, rfl⟩ | ⟨hdep, sorted, hp, _, _, rfl⟩
  · obtain ⟨b, hb, h1, _⟩ := (dependentBelief_iff _ _).1 hdep
    refine ⟨he, hd, ?_, fun b hb => hb⟩
    rcases List.mem_append.1 (he b hb) with hk | hk
    · exact absurd h1 (hn b hk)
    · rw [List.mem_singleton.1 hk] at hb; exact hb
  · have hsn : s ∉ e := by
      intro hse
      have : dependentBelief e s = true := (dependentBelief_iff _ _).2 ⟨s, hse, rfl, by
        obtain ⟨a, l, hal⟩ := List.exists_cons_of_ne_nil hs
        exact ⟨a, by rw [hal]; simp, by rw [hal]; simp⟩⟩
      rw [hdep] at this; cases this
    have hnd : (e ++ [s]).Nodup := by
      rw [List.nodup_append]
      exact ⟨hd, by simp, by intro a ha b hb; rw [List.mem_singleton] at hb; subst hb; intro e1; subst e1; exact hsn ha⟩
    have hsub : ∀ b ∈ e ++ [s], b ∈ known ++ [s] := by
      intro b hb
      rcases List.mem_append.1 hb with hb | hb
      · exact he b hb
      · exact List.mem_append_right _ hb
    have hlen : (e ++ [s]).length ≤ (known ++ [s]).length := (List.subperm_of_subset hnd hsub).length_le
    have ht : (sorted.map (·.2)).take n = sorted.map (·.2) := by
      apply List.take_of_length_le
      rw [hp.length_eq]
      simp only [List.length_append, List.length_singleton] at hlen ⊢
      omega
    rw [ht]
    exact ⟨fun b hb => hsub b (hp.mem_iff.1 hb), hp.nodup_iff.2 hnd, hp.mem_iff.2 (by simp), fun b hb => hp.mem_iff.2 (by simp [hb])⟩

theorem storeTable_only {known : List Sentence} {s : Sentence} {n : Nat} {key : Sentence → R Rat} {e e' : List Sentence}
    (h : storeTable key e s n = .ok e') (he : ∀ b ∈ e, b ∈ known ++ [s]) : ∀ b ∈ e', b ∈ known ++ [s] := by
  intro b hb
  rcases storeTable_mem h b hb with h | rfl
  · exact he b h
  · simp

/-- filing something new, while there is room, keeps what is there -/
theorem storeAt_room {known : List Sentence} {s : Sentence} {n : Nat} {now : Int} {m m' : Mem} {t : Term}
    (h : storeAt s n now m t = .ok m') (hn : ∀ b ∈ known, b.term ≠ s.term) (hs : s.stamp.ids ≠ []) (hl : known.length < n)
    (hw : m.WF) (ho : MemP (fun b => b ∈ known ++ [s]) m) (hd : ∀ c ∈ m, c.beliefsByExp.Nodup) :
    m'.WF ∧ MemP (fun b => b ∈ known ++ [s]) m' ∧ (∀ c ∈ m', c.beliefsByExp.Nodup) ∧
    (∃ c, m'.get t = some c ∧ s ∈ c.beliefsByExp) ∧
    (∀ x b, (∃ c, m.get x = some c ∧ b ∈ c.beliefsByExp) → ∃ c, m'.get x = some c ∧ b ∈ c.beliefsByExp) ∧
    (∀ c ∈ m', c.name = t ∨ ∃ d ∈ m, d.name = c.name) := by
  have hwf := storeAt_wf h hw
  rcases storeAt_cases h with ⟨c, e, u, hg, he, hu, rfl⟩ | ⟨hnone, rfl⟩
  · obtain ⟨hcm, hct⟩ := Mem.get_some hg
    obtain ⟨a1, a2, a3, a4⟩ := storeTable_room he hn hs hl (ho c hcm).1 (hd c hcm)
    have b1 := storeTable_only hu (ho c hcm).2
    have hget : (m.set { c with beliefsByExp := e, beliefsByUsage := u }).get t =
        some { c with beliefsByExp := e, beliefsByUsage := u } := by
      have := Mem.get_set_self (m := m) (c := c) (d := { c with beliefsByExp := e, beliefsByUsage := u })
        (by show m.get c.name = _; rw [hct]; exact hg)
      simpa [hct] using this
    refine ⟨hwf, ?_, ?_, ⟨_, hget, a3⟩, ?_, ?_⟩
    · intro d hdm
      rcases Mem.mem_set hdm with rfl | ⟨hdm, _⟩
      · exact ⟨a1, b1⟩
      · exact ho d hdm
    · intro d hdm
      rcases Mem.mem_set hdm with rfl | ⟨hdm, _⟩
      · exact a2
      · exact hd d hdm
    · rintro x b ⟨d, hd1, hd2⟩
      by_cases hx : x = t
      · subst hx
        rw [hg] at hd1; cases hd1
        exact ⟨_, hget, a4 b hd2⟩
      · rw [Mem.get_set_ne (by show x ≠ c.name; rw [hct]; exact hx)]
        exact ⟨d, hd1, hd2⟩
    · intro d hdm
      rcases Mem.mem_set hdm with rfl | ⟨hdm, _⟩
      · exact .inl hct
      · exact .inr ⟨d, hdm, rfl⟩
  · have hget : ∀ x, Mem.get (m ++ [⟨t, [s], [s]⟩]) x = if x = t then some ⟨t, [s], [s]⟩ else m.get x := fun x =>
      Mem.get_append (d := ⟨t, [s], [s]⟩) hnone
    refine ⟨hwf, ?_, ?_, ⟨⟨t, [s], [s]⟩, by rw [hget, if_pos rfl], by simp⟩, ?_, ?_⟩
    · intro d hdm
      rcases List.mem_append.1 hdm with hdm | hdm
      · exact ho d hdm
      · rw [List.mem_singleton] at hdm; subst hdm; simp
    · intro d hdm
      rcases List.mem_append.1 hdm with hdm | hdm
      · exact hd d hdm
      · rw [List.mem_singleton] at hdm; subst hdm; simp
    · rintro x b ⟨d, hd1, hd2⟩
      refine ⟨d, ?_, hd2⟩
      rw [hget, if_neg (by rintro rfl; rw [hnone] at hd1; cases hd1)]
      exact hd1
    · intro d hdm
      rcases List.mem_append.1 hdm with hdm | hdm
      · exact .inr ⟨d, hdm, rfl⟩
      · rw [List.mem_singleton] at hdm; subst hdm; exact .inl rfl

theorem storeAll_room {known : List Sentence} {s : Sentence} {n : Nat} {now : Int} {ts : List Term} {m m' : Mem}
    (h : ts.foldlM (storeAt s n now) m = .ok m') (hn : ∀ b ∈ known, b.term ≠ s.term) (hs : s.stamp.ids ≠ []) (hl : known.length < n)
    (hw : m.WF) (ho : MemP (fun b => b ∈ known ++ [s]) m) (hd : ∀ c ∈ m, c.beliefsByExp.Nodup) :
    m'.WF ∧ MemP (fun b => b ∈ known ++ [s]) m' ∧ (∀ c ∈ m', c.beliefsByExp.Nodup) ∧
    (∀ t ∈ ts, ∃ c, m'.get t = some c ∧ s ∈ c.beliefsByExp) ∧
    (∀ x b, (∃ c, m.get x = some c ∧ b ∈ c.beliefsByExp) → ∃ c, m'.get x = some c ∧ b ∈ c.beliefsByExp) ∧
    (∀ c ∈ m', c.name ∈ ts ∨ ∃ d ∈ m, d.name = c.name) := by
  induction ts generalizing m with
  | nil => cases h; exact ⟨hw, ho, hd, by simp, fun _ _ h => h, fun c hc => .inr ⟨c, hc, rfl⟩⟩
  | cons t ts ih =>
    obtain ⟨m1, h1, h2⟩ := foldlM_cons_ok.1 h
    obtain ⟨a1, a2, a3, a4, a5, a6⟩ := storeAt_room h1 hn hs hl hw ho hd
    obtain ⟨b1, b2, b3, b4, b5, b6⟩ := ih h2 a1 a2 a3
    refine ⟨b1, b2, b3, ?_, fun x b hx => b5 x b (a5 x b hx), ?_⟩
    · intro t' ht'
      rcases List.mem_cons.1 ht' with rfl | ht'
      · exact b5 _ _ a4
      · exact b4 t' ht'
    · intro c hc
      rcases b6 c hc with hc | ⟨d, hdm, e⟩
      · exact .inl (List.mem_cons_of_mem _ hc)
      · rcases a6 d hdm with hx | ⟨d', hd', e'⟩
        · exact .inl (by rw [← e, hx]; simp)
        · exact .inr ⟨d', hd', by rw [e', e]⟩

theorem AllFiled.add {known : List Sentence} {m m' : Mem} {s : Sentence} {n : Nat} {now : Int} {r : Option Sentence}
    (hf : AllFiled known m) (h : addBelief m s n now = .ok (m', r)) (hj : s.punct = .JUGEMENT)
    (hn : ∀ b ∈ known, b.term ≠ s.term) (hs : s.stamp.ids ≠ []) (hl : known.length < n) : r = none ∧ AllFiled (known ++ [s]) m' := by
  rcases addBelief_cases h with ⟨x, rfl, h1⟩ | ⟨rfl, m1, h1, h2⟩
  · have := (hf.revise hn h1).2; cases this
  · obtain ⟨rfl, _⟩ := hf.revise hn h1
    unfold storeInConcepts at h2
    rcases storeInConcepts2_cases h2 with ⟨hx, _⟩ | ⟨_, h3⟩
    · exact absurd hj hx
    · have ho : MemP (fun b => b ∈ known ++ [s]) m1 := fun c hc =>
        ⟨fun b hb => List.mem_append_left _ ((hf.only c hc).1 b hb), fun b hb => List.mem_append_left _ ((hf.only c hc).2 b hb)⟩
      obtain ⟨b1, b2, b3, b4, b5, b6⟩ := storeAll_room h3 hn hs hl hf.wf ho hf.once
      refine ⟨rfl, b1, b2, b3, ?_, ?_⟩
      · intro s' hs' x hx
        rcases List.mem_append.1 hs' with hs' | hs'
        · exact b5 x s' (hf.filed s' hs' x hx)
        · rw [List.mem_singleton] at hs'
          subst hs'
          exact b4 x ((mem_retSubterms _ _).2 hx)
      · intro c hc
        rcases b6 c hc with hc | ⟨d, hd, e⟩
        · exact ⟨s, by simp, (mem_retSubterms _ _).1 hc⟩
        · obtain ⟨s', hs', hx⟩ := hf.names d hd
          exact ⟨s', by simp [hs'], e ▸ hx⟩

theorem Handful.prefix {a b : List (Term × Tv)} (h : Handful (a ++ b)) : Handful a where
  differ := by
    have := h.differ
    rw [List.map_append] at this
    exact (List.nodup_append.1 this).1
  safe := fun st hst => h.safe st (by simp [hst])
  small := by
    have := h.small
    rw [List.map_append, List.sum_append] at this
    omega

theorem told_filed {env : Env} {k : Nat} {sts : List (Term × Tv)} (hs : Handful sts) (hl : sts.length ≤ 20) :
    ∃ r, runNar env (afterTelling k sts) = .ok r ∧ JustTold k [] sts r ∧ Safe env r ∧ r.workerAlive = true ∧
      r.sh.questionTasks = [] ∧ AllFiled (sts.mapIdx (fun i st => toldAs i st)) r.sh.mem := by
  obtain ⟨r, h1, h2, h3, h4⟩ := asked_told (env := env) (k := k) (qs := []) (sts := sts) (by simp) hs
  refine ⟨r, h1, h2, h3, h4, ?_⟩
  have h1 : runNar env (afterTelling k sts) = .ok r := h1
  clear h2 h3 h4
  induction sts using List.reverseRecOn generalizing r with
  | nil =>
    cases h1
    exact ⟨rfl, by simp [Mem.WF, createNar, createShared], (fun c hc => by cases hc), (fun c hc => by cases hc),
      (fun s hs => by cases hs), (fun c hc => by cases hc)⟩
  | append_singleton sts st ih =>
    obtain ⟨r1, g1, g2, _, _⟩ := asked_told (env := env) (k := k) (qs := []) (sts := sts) (by simp) hs.prefix
    have g1 : runNar env (afterTelling k sts) = .ok r1 := g1
    obtain ⟨hq0, hf⟩ := ih hs.prefix (by simp at hl; omega) r1 g1 g1
    have e : afterTelling k (sts ++ [st]) = afterTelling k sts ++ [.tell st.1 .JUGEMENT st.2 false []] := by simp [afterTelling, tellAll]
    rw [e] at h1
    obtain ⟨r2, k1, k2⟩ := moreNar_append.1 h1
    have k1 : runNar env (afterTelling k sts) = .ok r2 := k1
    rw [g1] at k1; cases k1
    obtain ⟨r3, k2, k3⟩ := foldlM_cons_ok.1 k2
    cases k3
    have hsafe := hs.safe st (by simp)
    obtain ⟨sh', m1, rfl⟩ := inputT2_statement (hsafe.2.1 rfl rfl).1 k2
    have hw := runNar_WDecl g1
    have hsize : Term.size st.1 ≤ 51 := by
      have := hs.small
      rw [List.map_append, List.sum_append] at this
      simp at this; omega
    have hcomp := complexity_le_size st.1
    rcases memAddTask_cases m1 with ⟨hx, _⟩ | ⟨_, mem, rev, ha, h2⟩
    · have : r1.maxComplexity < calcComplexity st.1 := hx
      rw [g2.complexity] at this; omega
    · have hn : ∀ b ∈ sts.mapIdx (fun i st => toldAs i st), b.term ≠ st.1 := by
        intro b hb e
        obtain ⟨i, hi, rfl⟩ := List.mem_mapIdx.1 hb
        have hd := hs.differ
        rw [List.map_append, List.nodup_append] at hd
        exact hd.2.2 _ (List.mem_map.2 ⟨_, List.getElem_mem hi, rfl⟩) _ (by simp) e
      obtain ⟨rfl, hadd⟩ := hf.add ha rfl hn (by simp [newEternalSentenceByTv])
        (by show _ < r1.nConceptBeliefs; rw [hw.beliefs]; simp at hl ⊢; omega)
      have hmem : sh'.mem = mem := addTasks_mem h2
      refine ⟨?_, ?_⟩
      · obtain ⟨new, n1, n2⟩ := addTasks_questions h2
        show sh'.questionTasks = []
        rw [n1]
        have : new = [] := by
          rw [List.eq_nil_iff_forall_not_mem]
          intro t ht
          obtain ⟨_, _, _, x, hx, hx2, _⟩ := n2 t ht
          simp at hx
          subst hx
          cases hx2
        rw [this]
        simpa using hq0
      show AllFiled _ sh'.mem
      rw [hmem, List.mapIdx_append]
      have e2 : newEternalSentenceByTv st.1 .JUGEMENT st.2 ⟨[r1.sh.stampIdCounter]⟩ = toldAs sts.length st := by
        rw [g2.stamp]; simp [toldAs]
      rw [e2] at hadd
      simpa using hadd

/-- asking adds a question without an answer -/
theorem asked {env : Env} {ops : List NarOp} {r r' : Reasoner} {q : Term} (h : runNar env ops = .ok r) (hc : calcComplexity q ≤ 64)
    (hr : inputT2 env r q .QUESTION ⟨1, 1/2⟩ true [] = .ok r') :
    r'.sh.mem = r.sh.mem ∧ r'.answers = r.answers ∧ r'.nGlobal = r.nGlobal ∧ r'.linked = r.linked ∧
    ∃ t : Task2, r'.sh.questionTasks = r.sh.questionTasks ++ [t] ∧ t.sentence.term = q ∧ t.bestAnswerExp = 0 ∧ t.prio = 1 := by
  have hw := runNar_WDecl h
  obtain ⟨sh', h1, rfl⟩ := inputT2_question hr
  rcases memAddTask_cases h1 with ⟨hx, _⟩ | ⟨_, mem, rev, ha, h2⟩
  · have : r.maxComplexity < calcComplexity q := hx
    rw [hw.complexity] at this; omega
  · have hb : rev = none ∧ mem = r.sh.mem := by
      rcases addBelief_cases ha with ⟨x, rfl, g⟩ | ⟨rfl, m1, g, g2⟩
      · rcases memReviseBelief_cases g with ⟨_, e⟩ | ⟨e, _⟩
        · cases e
        · cases e
      · rcases memReviseBelief_cases g with ⟨_, e⟩ | ⟨e, _⟩
        · cases e
          unfold storeInConcepts storeInConcepts2 at g2
          rw [if_pos (by simp [newEternalSentenceByTv])] at g2
          exact ⟨rfl, (Except.ok.inj g2).symm⟩
        · cases e
    obtain ⟨rfl, rfl⟩ := hb
    rw [show ((newEternalSentenceByTv q .QUESTION ⟨1, 1/2⟩ ⟨[r.sh.stampIdCounter]⟩) :: (none : Option Sentence).toList) = [_] from rfl,
      addTasks_question rfl] at h2
    have e := Except.ok.inj h2
    subst e
    exact ⟨rfl, rfl, rfl, rfl, _, rfl, rfl, rfl, rfl⟩

end Nar
