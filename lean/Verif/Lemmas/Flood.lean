import Verif.Spec.Flood
import Verif.Lemmas.Asked
import Mathlib.Data.Finset.Card
/-! # Lemmas: how often questions can be answered better -/
namespace Nar
open Term

/-- the number of values in `E` which would be better -/
def betterVals (E : Finset Rat) (q : Task2) : Nat := (E.filter (q.bestAnswerExp < ·)).card

theorem better_le (E : Finset Rat) (q : Task2) : betterVals E q ≤ E.card := Finset.card_filter_le _ _

theorem qaTryAnswer_better {E : Finset Rat} {n : Nat} {q q' : Task2} {c : Sentence} {calls : List AnswerCall}
    (h : qaTryAnswer n q c = .ok (q', calls)) (hE : ∀ e, Expectation c e → e ∈ E) :
    calls.length + (n + 1) * betterVals E q' ≤ (n + 1) * betterVals E q := by
  rcases qaTryAnswer_cases h with ⟨rfl, rfl, _⟩ | ⟨e, he, hlt, _, rfl, rfl⟩
  · simp
  · have h1 : (if q.handler = true then [(⟨.ofTask, q.sentence.term, c⟩ : AnswerCall)] else []).length ≤ 1 := by split <;> simp
    have h2 : betterVals E { q with bestAnswerExp := e } < betterVals E q := by
      unfold betterVals
      apply Finset.card_lt_card
      rw [Finset.ssubset_iff_of_subset]
      · exact ⟨e, by simp [hE e he, hlt], by simp⟩
      · intro x hx
        rw [Finset.mem_filter] at hx ⊢
        exact ⟨hx.1, lt_trans hlt hx.2⟩
    rw [List.length_append, List.length_map, List.length_range]
    have h3 : (n + 1) * (betterVals E { q with bestAnswerExp := e } + 1) ≤ (n + 1) * betterVals E q := Nat.mul_le_mul_left _ h2
    rw [Nat.mul_add] at h3
    omega

theorem qaTryAll_better {E : Finset Rat} {n : Nat} {cands : List Sentence} {q q' : Task2} {calls : List AnswerCall}
    (h : qaTryAll n q cands = .ok (q', calls)) (hE : ∀ c ∈ cands, ∀ e, Expectation c e → e ∈ E) :
    calls.length + (n + 1) * betterVals E q' ≤ (n + 1) * betterVals E q := by
  induction cands generalizing q calls with
  | nil => cases h; simp
  | cons c cs ih =>
    unfold qaTryAll at h
    obtain ⟨⟨q1, c1⟩, h1, h⟩ := R.bind_ok.1 h
    obtain ⟨⟨q2, c2⟩, h2, h⟩ := R.bind_ok.1 h
    cases h
    have i1 := qaTryAnswer_better h1 (hE c (by simp))
    have i2 := ih h2 (fun x hx => hE x (by simp [hx]))
    rw [List.length_append]
    omega

/-- for all questions together -/
def betterAll (E : Finset Rat) (qs : List Task2) : Nat := (qs.map (betterVals E)).sum

theorem betterAll_le (E : Finset Rat) (qs : List Task2) : betterAll E qs ≤ qs.length * E.card := by
  unfold betterAll
  induction qs with
  | nil => simp
  | cons q qs ih =>
    rw [List.map_cons, List.sum_cons, List.length_cons, Nat.succ_mul]
    have := better_le E q
    omega

theorem betterAll_set {E : Finset Rat} {n k : Nat} {qs : List Task2} {i : Nat} {q q' : Task2} (hi : qs[i]? = some q)
    (h : k + (n + 1) * betterVals E q' ≤ (n + 1) * betterVals E q) :
    k + (n + 1) * betterAll E (qs.set i q') ≤ (n + 1) * betterAll E qs := by
  unfold betterAll
  induction qs generalizing i with
  | nil => cases hi
  | cons a qs ih =>
    cases i with
    | zero =>
      cases hi
      rw [List.set_cons_zero, List.map_cons, List.map_cons, List.sum_cons, List.sum_cons, Nat.mul_add, Nat.mul_add]
      omega
    | succ i =>
      have := ih hi
      rw [List.set_cons_succ, List.map_cons, List.map_cons, List.sum_cons, List.sum_cons, Nat.mul_add, Nat.mul_add]
      omega

/-- all beliefs listed have one of the values -/
def ValuesIn (E : Finset Rat) (m : Mem) : Prop := ∀ b ∈ allBeliefs m, ∀ e, Expectation b e → e ∈ E

theorem mem_allBeliefs {m : Mem} {b : Sentence} : b ∈ allBeliefs m ↔ ∃ c ∈ m, b ∈ c.beliefsByExp ∨ b ∈ c.beliefsByUsage := by
  unfold allBeliefs
  simp [List.mem_flatMap]

theorem UsageOnly.valuesIn {E : Finset Rat} {m m' : Mem} (h : UsageOnly m m') (hm : ValuesIn E m) : ValuesIn E m' := by
  obtain ⟨g, rfl⟩ := h
  intro b hb e he
  obtain ⟨c, hc, hb⟩ := mem_allBeliefs.1 hb
  obtain ⟨d, hd, rfl⟩ := List.mem_map.1 hc
  rcases hb with hb | hb
  · obtain ⟨i, hi, rfl⟩ := List.mem_mapIdx.1 hb
    exact hm _ (mem_allBeliefs.2 ⟨d, hd, .inl (List.getElem_mem hi)⟩) e he
  · obtain ⟨i, hi, rfl⟩ := List.mem_mapIdx.1 hb
    exact hm _ (mem_allBeliefs.2 ⟨d, hd, .inr (List.getElem_mem hi)⟩) e he

theorem reasonCycle_valuesIn {E : Finset Rat} {cfg : Cfg} {v : Rat} {now : Int} {sh sh' : Shared} {msg : Option Msg} {calls : List AnswerCall}
    (h : reasonCycle cfg v now sh = .ok (sh', msg, calls)) (hm : ValuesIn E sh.mem) : ValuesIn E sh'.mem := by
  unfold reasonCycle at h
  obtain ⟨sh1, h1, h⟩ := R.bind_ok.1 h
  obtain ⟨⟨sh2, c2⟩, h2, h⟩ := R.bind_ok.1 h
  obtain ⟨⟨sh3, m3⟩, h3, h⟩ := R.bind_ok.1 h
  obtain ⟨sh4, h4, h⟩ := R.bind_ok.1 h
  obtain ⟨sh5, h5, h⟩ := R.bind_ok.1 h
  cases h
  have hs := (creditQuestions_same { sh with cycleCounter := sh.cycleCounter + 1 }).trans (baseCredit_same h1)
  have hm1 : sh1.mem = sh.mem := hs.2.2.2.2.2
  obtain ⟨qs, e2⟩ := answerSampled_frame h2
  simp only at e2
  obtain ⟨_, b2⟩ := buildMsg_questions h3
  obtain ⟨_, k2⟩ := everyCleanup_questions h4
  obtain ⟨_, f2⟩ := everyForget_questions h5
  have hu : UsageOnly sh3.mem (useMsg sh3 now msg).mem := by
    cases msg with
    | none => exact .refl _
    | some m => exact (updateUsage_same sh3 m now).mem
  have h3' : ValuesIn E sh3.mem := by rw [b2, e2]; show ValuesIn E sh1.mem; rw [hm1]; exact hm
  have h4' := hu.valuesIn h3'
  intro b hb e he
  obtain ⟨c, hc, hb⟩ := mem_allBeliefs.1 hb
  have := f2 c hc
  rw [k2] at this
  exact h4' b (mem_allBeliefs.2 ⟨c, this, hb⟩) e he

/-- what a cycle leaves as it is -/
theorem cycle_leaves {env : Env} {r r' : Reasoner} {v : Rat} (h : cycle env r v = .ok r') :
    r'.look.procMem = r.look.procMem ∧ (∀ E, ValuesIn E r.look.mem → ValuesIn E r'.look.mem) := by
  unfold cycle at h
  obtain ⟨⟨sh, msg, calls⟩, h1, h⟩ := R.bind_ok.1 h
  have key : r' = { r with sh := { sh with procMem := r.sh.procMem }, currentTime := r.currentTime + 1, answers := r.answers ++ calls, queue := r.queue ++ msg.toList } := by
    cases msg with
    | none => cases h; simp
    | some m =>
      simp only [sendMsg] at h
      split at h
      · cases h; rfl
      · cases h
  have hm : r'.look.mem = sh.mem := by rw [key]; unfold Reasoner.look; split <;> rfl
  refine ⟨?_, fun E hE => by rw [hm]; exact reasonCycle_valuesIn h1 hE⟩
  rw [key]
  unfold Reasoner.look
  cases r.linked <;> rfl

theorem cycle_better {env : Env} {E : Finset Rat} {r r' : Reasoner} {v : Rat} (h : cycle env r v = .ok r')
    (h1 : ValuesIn E r.look.mem) (h2 : ValuesIn E r.look.procMem) :
    r.answers <+: r'.answers ∧ r'.nGlobal = r.nGlobal ∧ r'.answers.length + (r.nGlobal + 1) * betterAll E r'.sh.questionTasks ≤
      r.answers.length + (r.nGlobal + 1) * betterAll E r.sh.questionTasks := by
  obtain ⟨_, calls, ha, hg, hq⟩ := cycle_asks h
  refine ⟨by rw [ha]; exact List.prefix_append _ _, hg, ?_⟩
  rcases hq with ⟨e1, rfl, e2⟩ | ⟨i, q, q', cands, _, hi, hc, ht, hs⟩
  · rw [ha, e1, e2]; simp
  · rw [ha, hs, List.length_append]
    have := betterAll_set hi (qaTryAll_better ht (fun c hcc e he => by
      rcases (hc c).1 hcc with ⟨_, s, _, d, hd, hb⟩ | ⟨_, s, _, d, hd, hb⟩
      · exact h2 c (mem_allBeliefs.2 ⟨d, (Mem.get_some hd).1, hb⟩) e he
      · exact h1 c (mem_allBeliefs.2 ⟨d, (Mem.get_some hd).1, hb⟩) e he))
    omega

theorem cycles_better {env : Env} {E : Finset Rat} {vs : List Rat} {r r' : Reasoner} (h : moreNar env r (vs.map .cycle) = .ok r')
    (h1 : ValuesIn E r.look.mem) (h2 : ValuesIn E r.look.procMem) :
    r.answers <+: r'.answers ∧ r'.answers.length + (r.nGlobal + 1) * betterAll E r'.sh.questionTasks ≤
      r.answers.length + (r.nGlobal + 1) * betterAll E r.sh.questionTasks := by
  induction vs generalizing r with
  | nil => cases h; exact ⟨List.prefix_refl _, le_refl _⟩
  | cons v vs ih =>
    obtain ⟨r1, hc, hv⟩ := foldlM_cons_ok.1 h
    obtain ⟨p1, p2, p3⟩ := cycle_better hc h1 h2
    obtain ⟨l1, l2⟩ := cycle_leaves hc
    obtain ⟨q1, q2⟩ := ih hv (l2 E h1) (by rw [l1]; exact h2)
    rw [p2] at q2
    exact ⟨p1.trans q1, q2.trans p3⟩

/-- the values of the beliefs -/
def valuesOf (l : List Sentence) : Finset Rat := (l.filterMap fun b => (expOf b).toOption).toFinset

theorem valuesOf_card (l : List Sentence) : (valuesOf l).card ≤ l.length :=
  (List.toFinset_card_le _).trans (List.length_filterMap_le _ _)

theorem mem_valuesOf {l : List Sentence} {b : Sentence} (hb : b ∈ l) {e : Rat} (he : Expectation b e) : e ∈ valuesOf l := by
  unfold valuesOf
  rw [List.mem_toFinset, List.mem_filterMap]
  exact ⟨b, hb, by rw [(expOf_iff b e).2 he]; rfl⟩

end Nar
