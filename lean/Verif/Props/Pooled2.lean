import Verif.Props.Pooled
import Verif.Props.Lives
/-! # Property theorems: what is told is pooled, whatever is done meanwhile (C108) -/
namespace Nar.Props
open Nar Term

theorem pooledAt_input {env : Env} {pre : List NarOp} {sts : List (Term × Tv)} {st : Term × Tv} {r1 r : Reasoner} {rng : List Nat} {op : NarOp}
    {x : Term} (hs : ∀ s ∈ sts ++ [st], Sayable s) (h1 : runNar env pre = .ok r1) (h : runNar env (pre ++ [op]) = .ok r)
    (h2 : inputT2 env r1 st.1 .JUGEMENT st.2 false rng = .ok r) (hfew : FewAbout (sts ++ [st]) x) (hp : PooledAt sts x r1.sh.mem) :
    PooledAt (sts ++ [st]) x r.sh.mem := by
  obtain ⟨t, v⟩ := st
  have hst := hs (t, v) (by simp)
  have ht : ¬ IsTemporal t := (hst.1.2.1 rfl rfl).1
  have hm := inputT2_told ht h2
  have hw := runNar_WDecl h1
  have hok := memOk_of_run h1
  have hok' : MemOk r.sh.mem := memOk_of_run h
  have hstamp := runNar_stamps h1
  rcases memAddTask_cases hm with ⟨hx, _⟩ | ⟨_, mem, rev, ha, h3⟩
  · have : r1.maxComplexity < calcComplexity t := hx
    have h64 : calcComplexity t ≤ 64 := hst.2.1
    rw [hw.complexity] at this; omega
  · have hmem : r.sh.mem = mem := addTasks_mem h3
    have hn : (r1.cfg env).nBeliefs = 20 := hw.beliefs
    rw [hn] at ha
    rw [hmem] at hok' ⊢
    refine hp.add hok.wf hok'.wf hok.once ?_ ha hfew ?_
    · intro c hc k b hb hid
      have hsok : StampOk r1.sh.stampIdCounter b := by
        cases k
        · exact (hstamp.all.2.1 c hc).1 b hb
        · exact (hstamp.all.2.1 c hc).2 b hb
      have := (hsok.2.2.2 _ hid).2
      omega
    · intro st hst
      have := hs st hst
      exact ⟨this.2.2, (this.1.2.1 rfl rfl).2.2.2.2.2⟩

theorem fewAbout_left {a b : List (Term × Tv)} {x : Term} (h : FewAbout (a ++ b) x) : FewAbout a x := by
  obtain ⟨l, l1, l2⟩ := h
  exact ⟨l, l1, fun st hst hx => l2 st (by simp [hst]) hx⟩

theorem question_mem {env : Env} {r r' : Reasoner} {q : Term} {tv : Tv} {rng : List Nat}
    (h : inputT2 env r q .QUESTION tv true rng = .ok r') : r'.sh.mem = r.sh.mem := by
  rw [memAddTask_question rfl ((inputT2_frame h).2.2.2.2 (by simp [ForActing]))]
  split <;> rfl

theorem pooledAt_lives {env : Env} {ops : List NarOp} {as : List Lecture} (hl : Lives env ops as) {x : Term} : ∀ {pre : List NarOp}
    {sts : List (Term × Tv)} {r0 r : Reasoner}, runNar env pre = .ok r0 → moreNar env r0 ops = .ok r → NoReports r.proc.ops →
      (∀ st ∈ sts ++ statementsIn as, Sayable st) → NoThinking as → FewAbout (sts ++ statementsIn as) x → PooledAt sts x r0.sh.mem →
      PooledAt (sts ++ statementsIn as) x r.sh.mem := by
  induction hl with
  | nil =>
    intro pre sts r0 r _ h1 _ _ _ _ hp
    cases h1
    simpa [statementsIn] using hp
  | @learn a ops as _ ih =>
    intro pre sts r0 r hp h1 hn hs ht hfew h
    obtain ⟨r1, h2, h3⟩ := foldlM_cons_ok.1 h1
    have hp1 : runNar env (pre ++ [a.op]) = .ok r1 := moreNar_append.2 ⟨r0, hp, foldlM_cons_ok.2 ⟨r1, h2, rfl⟩⟩
    have ht' : NoThinking as := fun b hb => ht b (List.mem_cons_of_mem _ hb)
    cases a with
    | tell st =>
      have e : sts ++ statementsIn (.tell st :: as) = (sts ++ [st]) ++ statementsIn as := by simp [statementsIn]
      rw [e] at hs hfew ⊢
      exact ih hp1 h3 hn hs ht' hfew (pooledAt_input (fun s hs' => hs s (List.mem_append_left _ hs')) hp hp1 h2 (fewAbout_left hfew) h)
    | ask q => exact ih hp1 h3 hn hs ht' hfew (by rw [question_mem h2]; exact h)
    | cycle v => exact absurd rfl ((ht _ List.mem_cons_self).2 v)
    | work => exact absurd rfl (ht _ List.mem_cons_self).1
  | @statement l d st ops as hd _ ih =>
    intro pre sts r0 r hp h1 hn hs ht hfew h
    obtain ⟨r1, h2, h3⟩ := foldlM_cons_ok.1 h1
    have hp1 : runNar env (pre ++ [.line l d]) = .ok r1 := moreNar_append.2 ⟨r0, hp, foldlM_cons_ok.2 ⟨r1, h2, rfl⟩⟩
    have ht' : NoThinking as := fun b hb => ht b (List.mem_cons_of_mem _ hb)
    have e : sts ++ statementsIn (.tell st :: as) = (sts ++ [st]) ++ statementsIn as := by simp [statementsIn]
    rw [e] at hs hfew ⊢
    exact ih hp1 h3 hn hs ht' hfew (pooledAt_input (fun s hs' => hs s (List.mem_append_left _ hs')) hp hp1 (lineReads_run hd h2) (fewAbout_left hfew) h)
  | @question l d q tv ops as hd _ ih =>
    intro pre sts r0 r hp h1 hn hs ht hfew h
    obtain ⟨r1, h2, h3⟩ := foldlM_cons_ok.1 h1
    have hp1 : runNar env (pre ++ [.line l d]) = .ok r1 := moreNar_append.2 ⟨r0, hp, foldlM_cons_ok.2 ⟨r1, h2, rfl⟩⟩
    exact ih hp1 h3 hn hs (fun b hb => ht b (List.mem_cons_of_mem _ hb)) hfew (by rw [question_mem (lineReads_run hd h2)]; exact h)
  | @act op ops as ha _ ih =>
    intro pre sts r0 r hp h1 hn hs ht hfew h
    obtain ⟨r1, h2, h3⟩ := foldlM_cons_ok.1 h1
    have hp1 : runNar env (pre ++ [op]) = .ok r1 := moreNar_append.2 ⟨r0, hp, foldlM_cons_ok.2 ⟨r1, h2, rfl⟩⟩
    have hm : r1.sh.mem = r0.sh.mem := by
      rcases (ha.mind (hn.before h1) h2).2.2.2.2.2 with e | e <;> rw [e]
    exact ih hp1 h3 hn hs ht hfew (by rw [hm]; exact h)

/-- C108: statements are told or typed, questions are asked, and all the while things happen, goals are set, rules for acting are told,
operators are registered and steps are taken; no operator reports relations.  Under each term which at most twenty different statements
mention just these statements are believed, each with all the evidence told for and against it. -/
theorem C108_while_acting_partial (env : Env) (k : Nat) (ops : List NarOp) (as : List Lecture) (r : Reasoner) (hl : Lives env ops as)
    (hs : ∀ st ∈ statementsIn as, Sayable st) (ht : NoThinking as) (h : runNar env (.handlers k :: ops) = .ok r) (hn : NoReports r.proc.ops)
    (x : Term) (hx : FewAbout (statementsIn as) x) (rk : Ranking) (t : Term) (tv : Tv) :
    BelievedAs r.sh.mem x rk t tv ↔
      IsSubterm x t ∧ toldAbout (statementsIn as) t ≠ [] ∧ tv = pooled (toldAbout (statementsIn as) t) := by
  obtain ⟨r0, h1, h2⟩ := foldlM_cons_ok.1 h
  have e : r0 = { createNar with nGlobal := k } := (Except.ok.inj h1).symm
  have hp0 : PooledAt [] x r0.sh.mem := by
    rw [e]
    exact ⟨(fun c hc => by cases hc), (fun t ht => by cases ht), (fun c hc => by cases hc)⟩
  have hp : PooledAt (statementsIn as) x r.sh.mem :=
    pooledAt_lives hl (sts := []) (pre := [.handlers k]) (foldlM_cons_ok.2 ⟨r0, h1, rfl⟩) h2 hn hs ht hx hp0
  have hw := (memOk_of_run h).wf
  constructor
  · rintro ⟨c, hc, rfl, b, hb, rfl, htv⟩
    obtain ⟨h1, h2⟩ := hp.truth c (Mem.get_of_mem hw hc) rk b hb
    refine ⟨h1, toldAbout_ne.2 (hp.only c hc rk b hb), ?_⟩
    unfold HasTruth at htv h2
    rw [h2] at htv; cases htv; rfl
  · rintro ⟨h1, h2, rfl⟩
    obtain ⟨c, hg, hb⟩ := hp.here t (toldAbout_ne.1 h2) h1
    obtain ⟨b, hb1, rfl⟩ := hb rk
    exact ⟨c, (Mem.get_some hg).1, (Mem.get_some hg).2, b, hb1, rfl, (hp.truth c hg rk b hb1).2⟩

/-- C108: so in two lives in which the same was told, in whatever order, the same is believed, whatever was done. -/
theorem C108_not_by_deeds_partial (env env' : Env) (k k' : Nat) (ops ops' : List NarOp) (as as' : List Lecture) (r r' : Reasoner)
    (hl : Lives env ops as) (hl' : Lives env' ops' as') (hs : ∀ st ∈ statementsIn as, Sayable st) (ht : NoThinking as) (ht' : NoThinking as')
    (hp : (statementsIn as).Perm (statementsIn as')) (h : runNar env (.handlers k :: ops) = .ok r)
    (h' : runNar env' (.handlers k' :: ops') = .ok r') (hn : NoReports r.proc.ops) (hn' : NoReports r'.proc.ops)
    (x : Term) (hx : FewAbout (statementsIn as) x) (rk : Ranking) (t : Term) (tv : Tv) :
    BelievedAs r.sh.mem x rk t tv ↔ BelievedAs r'.sh.mem x rk t tv := by
  have hx' : FewAbout (statementsIn as') x := by
    obtain ⟨l, l1, l2⟩ := hx
    exact ⟨l, l1, fun st hst => l2 st (hp.mem_iff.2 hst)⟩
  have hperm : (toldAbout (statementsIn as) t).Perm (toldAbout (statementsIn as') t) := (hp.filter _).map _
  rw [C108_while_acting_partial env k ops as r hl hs ht h hn x hx,
    C108_while_acting_partial env' k' ops' as' r' hl' (fun st hst => hs st (hp.mem_iff.2 hst)) ht' h' hn' x hx', pooled_perm hperm]
  have : toldAbout (statementsIn as) t ≠ [] ↔ toldAbout (statementsIn as') t ≠ [] := by
    rw [not_iff_not]
    exact ⟨fun e => by rw [e] at hperm; exact hperm.nil_eq.symm, fun e => by rw [e] at hperm; exact hperm.eq_nil⟩
  rw [this]

/-! ### reports about swans while something is done -/

/-- Reports about swans come in while an operator is registered and babbled, something happens, and a goal is set. -/
def swanLife : List NarOp :=
  [ln "!por NOP ^l", say (isA "swan" "white") ⟨1, 1/2⟩, stepBabble, ln "<swan --> bird>.", ln "c. :|:", say (isA "swan" "white") ⟨0, 1/2⟩,
   ln "<swan --> ?x>? :|:", ln "d! :|:", stepIdle [], say (isA "swan" "white") ⟨1, 1/2⟩]

/-- what is told and asked in it -/
def swanLessons : List Lecture :=
  [.tell (isA "swan" "white", ⟨1, 1/2⟩), .tell (isA "swan" "bird", ⟨1, 9/10⟩), .tell (isA "swan" "white", ⟨0, 1/2⟩),
   .ask (.Stmt .INH (.Name "swan") (.QVar "x")), .tell (isA "swan" "white", ⟨1, 1/2⟩)]

theorem swan_lives : Lives env0 swanLife swanLessons := by
  refine .act (.inr (.inr (.inl ⟨"NOP ^l".toList, by decide +kernel⟩))) ?_
  refine .learn (.tell (isA "swan" "white", ⟨1, 1/2⟩)) ?_
  refine .act (step_acts _) ?_
  refine .statement _ ⟨by decide +kernel, by decide +kernel⟩ ?_
  refine .act (event_acts _ (.Name "c") .JUGEMENT (by decide) (by decide +kernel) (by decide +kernel)) ?_
  refine .learn (.tell (isA "swan" "white", ⟨0, 1/2⟩)) ?_
  refine .question (tv := ⟨1, 9/10⟩) _ ⟨by decide +kernel, by decide +kernel⟩ ?_
  refine .act (event_acts _ (.Name "d") .GOAL (by decide) (by decide +kernel) (by decide +kernel)) ?_
  refine .act (step_acts _) ?_
  exact .learn (.tell (isA "swan" "white", ⟨1, 1/2⟩)) .nil

/-- two reports for and one against white swans make 2/3 with the confidence of three, just as when nothing is done -/
example : ∃ r, runNar env0 (.handlers 1 :: swanLife) = .ok r ∧ r.proc.trace.length = 2 ∧
    BelievedAs r.sh.mem (.Name "swan") .expectation (isA "swan" "white") ⟨2/3, 3/4⟩ ∧
    ∃ r', runNar env0 (course 1 (swans.map .tell)) = .ok r' ∧ ∀ rk t tv,
      (BelievedAs r.sh.mem (.Name "swan") rk t tv ↔ BelievedAs r'.sh.mem (.Name "swan") rk t tv) := by
  have h : (runNar env0 (.handlers 1 :: swanLife)).map (fun r => (r.proc.ops.map (fun o => (o.name, o.babbleable)), r.proc.trace.length)) =
    .ok ([("^l", true)], 2) := by decide +kernel
  have h' : (runNar env0 (course 1 (swans.map .tell))).map (fun r => r.proc.ops.map (fun o => (o.name, o.babbleable))) = .ok [] := by decide +kernel
  obtain ⟨r, hr, v⟩ := R.map_ok.1 h
  obtain ⟨r', hr', v'⟩ := R.map_ok.1 h'
  obtain ⟨v1, v2⟩ := Prod.mk.inj v
  have hn : NoReports r.proc.ops := noReports_of_names (by rw [v1]; decide)
  have hn' : NoReports r'.proc.ops := noReports_of_names (by rw [v']; decide)
  have e : statementsIn (swans.map .tell) = swans := rfl
  have hperm : (statementsIn swanLessons).Perm (statementsIn (swans.map .tell)) := by
    rw [e]
    exact .trans (.swap _ _ _) (.cons _ (.refl _))
  have hs : ∀ st ∈ statementsIn swanLessons, Sayable st := fun st hst => swans_sayable st (by rw [← e]; exact hperm.mem_iff.1 hst)
  have hx : FewAbout (statementsIn swanLessons) (.Name "swan") := ⟨[isA "swan" "bird", isA "swan" "white"], by simp, by
    intro st hst _
    simp only [statementsIn, swanLessons, List.mem_cons, List.not_mem_nil, or_false] at hst
    rcases hst with rfl | rfl | rfl | rfl <;> simp⟩
  have ht : NoThinking swanLessons := by
    intro a ha
    simp only [swanLessons, List.mem_cons, List.not_mem_nil, or_false] at ha
    rcases ha with rfl | rfl | rfl | rfl | rfl <;> simp
  have ht' : NoThinking (swans.map .tell) := by
    intro a ha
    obtain ⟨st, _, rfl⟩ := List.mem_map.1 ha
    simp
  refine ⟨r, hr, v2, (C108_while_acting_partial env0 1 swanLife swanLessons r swan_lives hs ht hr hn _ hx _ _ _).2
    ⟨isA_mentions_self _ _, by decide +kernel, by decide +kernel⟩, r', hr', fun rk t tv => ?_⟩
  exact C108_not_by_deeds_partial env0 env0 1 1 swanLife ((swans.map Lecture.tell).map Lecture.op) swanLessons (swans.map .tell) r r' swan_lives
    (Lives.course _ _) hs ht ht' hperm hr hr' hn hn' _ hx rk t tv

end Nar.Props
