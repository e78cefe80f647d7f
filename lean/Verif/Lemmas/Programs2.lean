import Verif.Spec.Programs
import Verif.Lemmas.Whole
import Verif.Lemmas.Decl
import Verif.Lemmas.Programs
/-! # Without a question there is no answer -/
namespace Nar
open Term

/-! ## the event marker -/

theorem replaceStarSpace_nostar {s : List Char} (h : '*' ∉ replaceStarSpace s) : replaceStarSpace s = s := by
  induction s using replaceStarSpace.induct with
  | case1 cs ih => simp [replaceStarSpace] at h
  | case2 c cs hne ih =>
    rw [replaceStarSpace.eq_2 _ _ hne] at h ⊢
    rw [ih (fun hm => h (List.mem_cons_of_mem _ hm))]
  | case3 => rfl

theorem replaceSpaceStar_nostar {s : List Char} (h : '*' ∉ replaceSpaceStar s) : replaceSpaceStar s = s := by
  induction s using replaceSpaceStar.induct with
  | case1 cs ih => simp [replaceSpaceStar] at h
  | case2 c cs hne ih =>
    rw [replaceSpaceStar.eq_2 _ _ hne] at h ⊢
    rw [ih (fun hm => h (List.mem_cons_of_mem _ hm))]
  | case3 => rfl

theorem replaceStarSpace_suffix {s w : List Char} (hw : '*' ∉ w) (h : w <:+ replaceStarSpace s) : w <:+ s := by
  induction s using replaceStarSpace.induct with
  | case1 cs ih =>
    rw [replaceStarSpace] at h
    rcases List.suffix_cons_iff.1 h with rfl | h
    · simp at hw
    · exact (ih h).trans ((List.suffix_cons _ _).trans (List.suffix_cons _ _))
  | case2 c cs hne ih =>
    rw [replaceStarSpace.eq_2 _ _ hne] at h
    rcases List.suffix_cons_iff.1 h with rfl | h
    · rw [replaceStarSpace_nostar (fun hm => hw (List.mem_cons_of_mem _ hm))]
    · exact (ih h).trans (List.suffix_cons _ _)
  | case3 => exact h

theorem replaceSpaceStar_suffix {s w : List Char} (hw : '*' ∉ w) (h : w <:+ replaceSpaceStar s) : w <:+ s := by
  induction s using replaceSpaceStar.induct with
  | case1 cs ih =>
    rw [replaceSpaceStar] at h
    rcases List.suffix_cons_iff.1 h with rfl | h
    · simp at hw
    · exact (ih h).trans ((List.suffix_cons _ _).trans (List.suffix_cons _ _))
  | case2 c cs hne ih =>
    rw [replaceSpaceStar.eq_2 _ _ hne] at h
    rcases List.suffix_cons_iff.1 h with rfl | h
    · rw [replaceSpaceStar_nostar (fun hm => hw (List.mem_cons_of_mem _ hm))]
    · exact (ih h).trans (List.suffix_cons _ _)
  | case3 => exact h

theorem whileContains_suffix {a b : Char} {f : List Char → List Char} {w : List Char} (hf : ∀ s, w <:+ f s → w <:+ s)
    {n : Nat} {s : List Char} (h : w <:+ whileContains a b f n s) : w <:+ s := by
  induction n generalizing s with
  | zero => exact h
  | succ n ih =>
    unfold whileContains at h
    split at h
    · exact hf s (ih h)
    · exact h

theorem tightenStars_suffix {s w : List Char} (hw : '*' ∉ w) (h : w <:+ tightenStars s) : w <:+ s := by
  unfold tightenStars at h
  exact whileContains_suffix (fun _ => replaceStarSpace_suffix hw) (whileContains_suffix (fun _ => replaceSpaceStar_suffix hw) h)

theorem parseNarsese_event {pf : List Char → Option Rat} {s : List Char} {t : Term} {tv : Tv} {p : Punct}
    (h : parseNarsese pf s = .ok (some (t, tv, p, true))) : " :|:".toList <:+ s := by
  unfold parseNarsese at h
  obtain ⟨r, hr, h⟩ := R.bind_ok.1 h
  have key : (cutEvent (tightenStars s)).2 = true := by
    simp only at h
    split at h
    · cases h
    · obtain ⟨c, _, h⟩ := R.bind_ok.1 h
      split at h
      · cases h
      · split at h
        · have := Except.ok.inj h
          simp only [Option.some.injEq, Prod.mk.injEq] at this
          exact this.2.2.2
        · cases h
  unfold cutEvent at key
  split at key
  · rename_i hs
    exact tightenStars_suffix (by decide) (List.isSuffixOf_iff_suffix.1 hs)
  · cases key

/-! ## judgements -/

/-- a judgement with a truth value -/
def Judg (s : Sentence) : Prop := s.punct = .JUGEMENT ∧ ∃ tv, s.evi = some (.TV tv)

theorem Judg.retTv {s : Sentence} (h : Judg s) {o : Option Tv} (he : Nar.retTv s = .ok o) : ∃ tv, o = some tv := by
  obtain ⟨_, tv, h1⟩ := h
  unfold Nar.retTv at he
  rw [h1] at he; cases he
  exact ⟨tv, rfl⟩

theorem judg_closed : SentClosed Judg where
  pool _ b s r hb hs hsame hno h := by
    obtain ⟨ta, tb, tv, h1, h2, h3, rfl⟩ := revisedBelief_ok h
    exact ⟨hb.1, tv, rfl⟩
  used s u h := h
  two p s c w hp hs h := by
    obtain ⟨cs, w', h, hc⟩ := h
    obtain ⟨ta, tb, rs, h1, h2, hbin, rfl⟩ := inference_ok h
    obtain ⟨ta, rfl⟩ := hp.retTv h1
    obtain ⟨tb, rfl⟩ := hs.retTv h2
    split at hc
    · simp at hc
    · obtain ⟨⟨t, tv, q⟩, hr, e⟩ := List.mem_map.1 hc
      cases e
      rw [hp.1, hs.1] at hbin
      have : q = .JUGEMENT := by
        rcases ((infBinary_ok hbin).1 _).1 hr with hm | hm
        · exact ((binaryRules_iff t tv q).1 hm).1
        · exact ((binaryRules_iff t tv q).1 hm).1
      exact ⟨this, tv, rfl⟩
  alone p c w hp h := by
    obtain ⟨cs, h, hc⟩ := h
    obtain ⟨ta, rs, h1, hs, rfl⟩ := infSinglePremise2_ok h
    obtain ⟨⟨t, tv, q, v⟩, hr, e⟩ := List.mem_map.1 hc
    cases e
    obtain ⟨ta', rfl, _, rfl, hrule⟩ := infSinglePremise_rule hs hr
    exact ⟨rfl, tv, rfl⟩

/-! ## no question, no answer -/

/-- no question, only judgements -/
def QuietSh (sh : Shared) : Prop := sh.questionTasks = [] ∧ AllP Judg (fun _ => True) sh

/-- the action brings no question -/
def TaskOp.Plain : TaskOp → Prop
  | .add s _ _ _ => Judg s
  | .offer c => Judg c
  | _ => True

theorem memP_true (m : Mem) : MemP (fun _ => True) m := fun _ _ => ⟨fun _ _ => trivial, fun _ _ => trivial⟩

theorem memAddTask_quiet {cfg : Cfg} {sh sh' : Shared} {s : Sentence} {cc : Bool} {mc : Rat} {now : Int} (hs : Judg s)
    (h0 : QuietSh sh) (h : memAddTask cfg sh s cc mc now = .ok sh') : QuietSh sh' := by
  refine ⟨?_, memAddTask_P judg_closed h h0.2 (fun _ => hs)⟩
  rcases memAddTask_cases h with ⟨_, rfl⟩ | ⟨_, mem, rev, h1, h2⟩
  · exact h0.1
  · obtain ⟨new, h3, h4⟩ := addTasks_questions h2
    rw [h3]
    have : new = [] := by
      rcases List.eq_nil_or_concat new with rfl | ⟨l, q, rfl⟩
      · rfl
      · obtain ⟨_, _, _, x, hx, hq, _⟩ := h4 q (by simp)
        have hj : Judg x := by
          rcases List.mem_cons.1 hx with rfl | hx
          · exact hs
          · rw [Option.mem_toList] at hx
            exact (addBelief_P judg_closed h1 h0.2.2.1 (fun _ => hs)).2 x hx
        rw [hj.1] at hq; cases hq
    rw [this]; simp [h0.1]

theorem TaskOp.run_quiet {cfg : Cfg} {sh sh' : Shared} {op : TaskOp} {calls : List AnswerCall}
    (h : op.run cfg sh = .ok (sh', calls)) (h0 : QuietSh sh) (hp : op.Plain) : QuietSh sh' ∧ calls = [] := by
  have hP : AllP Judg (fun _ => True) sh' := by
    refine (TaskOp.run_P judg_closed h h0.2 ?_).1
    cases op <;> first | exact fun _ => hp | exact hp | trivial | exact memP_true _
  have hc : calls = [] := by
    obtain ⟨_, _, _, h4⟩ := TaskOp.run_questions h
    cases calls with
    | nil => rfl
    | cons a l =>
      obtain ⟨q, hq, _⟩ := h4 a (by simp)
      rw [h0.1] at hq; cases hq
  refine ⟨⟨?_, hP⟩, hc⟩
  have hrefl := h0.1
  cases op with
  | add s cc mc now =>
    obtain ⟨x, h1, h2⟩ := R.map_ok.1 h
    cases h2
    exact (memAddTask_quiet hp h0 h1).1
  | tick => cases h; exact hrefl
  | creditQuestions => cases h; rw [(creditQuestions_same sh).2.2.2.2.1]; exact hrefl
  | baseCredit =>
    obtain ⟨x, h1, h2⟩ := R.map_ok.1 h
    cases h2; rw [(baseCredit_same h1).2.2.2.2.1]; exact hrefl
  | answer v =>
    simp only [TaskOp.run] at h
    unfold answerSampled at h
    split at h
    · simp only [R.bind_ok] at h
      obtain ⟨i, _, q, hq, ⟨q', cs⟩, hall, h⟩ := h
      cases h
      simp [hrefl]
    · cases h; exact hrefl
  | offer c =>
    simp only [TaskOp.run] at h
    unfold offerConclusion at h
    split at h
    · rw [R.bind_ok] at h
      obtain ⟨⟨qs, cs⟩, h1, h⟩ := h
      cases h
      obtain ⟨k1, k2, k3⟩ := qaOffer_spec h1
      rw [hrefl] at k1
      exact List.length_eq_zero_iff.1 (by simpa using k1)
    · cases h; exact hrefl
  | select =>
    obtain ⟨r', h1, h2⟩ := R.map_ok.1 h
    cases h2
    rcases selectPrimary_cases h1 with ⟨_, rfl⟩ | ⟨_, _, _, _, rfl⟩ <;> exact hrefl
  | usage msg now => cases h; rw [(updateUsage_same sh msg now).questions]; exact hrefl
  | cleanup =>
    obtain ⟨x, h1, h2⟩ := R.map_ok.1 h
    cases h2
    obtain ⟨_, _, _, _, rfl⟩ := cleanupTasks_spec h1
    exact hrefl
  | rebuild =>
    obtain ⟨x, h1, h2⟩ := R.map_ok.1 h
    cases h2
    unfold rebuildLookup at h1
    rw [R.bind_ok] at h1
    obtain ⟨_, _, h1⟩ := h1
    cases h1; exact hrefl
  | forget n => obtain ⟨m, h1, h2⟩ := R.map_ok.1 h; cases h2; exact hrefl
  | flush => cases h; exact hrefl
  | newStampId => cases h; exact hrefl
  | procMem m => cases h; exact hrefl

theorem moreTasks_quiet {cfg : Cfg} {sh : Shared} {log : List AnswerCall} {ops : List TaskOp} {st : Shared × List AnswerCall}
    (h : moreTasks cfg (sh, log) ops = .ok st) (h0 : QuietSh sh) (hp : ∀ op ∈ ops, op.Plain) :
    QuietSh st.1 ∧ st.2 = log := by
  refine foldlM_inv (fun st : Shared × List AnswerCall => QuietSh st.1 ∧ st.2 = log) h ⟨h0, rfl⟩ ?_
  rintro op hop ⟨sh, l⟩ b ⟨h1, h2⟩ hs
  obtain ⟨⟨sh', calls⟩, h3, h4⟩ := R.bind_ok.1 hs
  cases h4
  obtain ⟨k1, rfl⟩ := TaskOp.run_quiet h3 h1 (hp op hop)
  exact ⟨k1, by simpa using h2⟩

/-- no question was taken up, and the answers are these -/
def Quiet (log : List AnswerCall) (r : Reasoner) : Prop := QuietSh r.sh ∧ r.answers = log

variable {env : Env} {log : List AnswerCall}

theorem Quiet.same {r r' : Reasoner} (h : Quiet log r) (h1 : r'.sh = r.sh) (h2 : r'.answers = r.answers) : Quiet log r' :=
  ⟨by rw [h1]; exact h.1, by rw [h2]; exact h.2⟩

theorem quiet_procMem {sh : Shared} (h : QuietSh sh) (m : Mem) : QuietSh { sh with procMem := m } :=
  ⟨h.1, h.2.1, h.2.2.1, memP_true m⟩

theorem cycle_quiet {r r' : Reasoner} {v : Rat} (h : cycle env r v = .ok r') (hi : Quiet log r) : Quiet log r' := by
  unfold cycle at h
  obtain ⟨⟨sh, msg, calls⟩, h1, h⟩ := R.bind_ok.1 h
  have key : r'.sh = { sh with procMem := r.sh.procMem } ∧ r'.answers = r.answers ++ calls := by
    cases msg with
    | none => cases h; exact ⟨rfl, rfl⟩
    | some m =>
      simp only [sendMsg] at h
      split at h
      · cases h; exact ⟨rfl, rfl⟩
      · cases h
  have hlook : QuietSh r.look := by
    unfold Reasoner.look
    split
    · exact quiet_procMem hi.1 _
    · exact hi.1
  have hd := moreTasks_quiet (reasonCycle_more r.answers h1) hlook (by
    intro o ho
    simp only [cycleOps, maintenance] at ho
    split at ho <;> split at ho <;> cases msg <;> simp at ho <;>
      (try rcases ho with rfl | rfl | rfl | rfl | rfl | rfl | rfl | rfl | rfl) <;> simp_all [TaskOp.Plain])
  refine ⟨by rw [key.1]; exact quiet_procMem hd.1 _, ?_⟩
  rw [key.2]; exact hd.2.trans hi.2

theorem declWork_quiet {r : Reasoner} (hi : Quiet log r) : Quiet log (declWork env r) := by
  unfold declWork
  split
  · split
    · exact hi
    · split
      · rename_i m rest hq sh calls hw
        obtain ⟨concl, p, hc, hp, hm⟩ := work_more r.answers hw
        have key : ∀ c ∈ concl, Judg c.1 := fun c hcm =>
          workConclusions_P judg_closed hc hcm hi.1.2
        have := moreTasks_quiet hm hi.1 (by
          intro o ho
          simp only [workOps, List.mem_append, List.mem_map] at ho
          rcases ho with ⟨c, hcm, rfl⟩ | ⟨c, hcm, rfl⟩
          · exact key c hcm
          · exact key c hcm)
        exact ⟨this.1, this.2.trans hi.2⟩
      · exact hi.same rfl rfl
  · exact hi

theorem declWorkN_quiet {r : Reasoner} (n : Nat) (hi : Quiet log r) : Quiet log (declWorkN env r n) := by
  induction n generalizing r with
  | zero => exact hi
  | succ n ih => exact ih (declWork_quiet hi)

theorem cyclesLoop_quiet {draws : Nat → Rat × Nat} {n i : Nat} {r r' : Reasoner}
    (h : cyclesLoop env draws n i r = .ok r') (hi : Quiet log r) : Quiet log r' := by
  induction n generalizing r i with
  | zero => cases h; exact hi
  | succ n ih =>
    unfold cyclesLoop at h
    obtain ⟨r1, h1, h⟩ := R.bind_ok.1 h
    exact ih h (cycle_quiet h1 (declWorkN_quiet _ hi))

theorem inputT2_quiet {r r' : Reasoner} {term : Term} {punct : Punct} {tv : Tv} {isEvent : Bool} {rng : List Nat}
    (h : inputT2 env r term punct tv isEvent rng = .ok r') (hn : ¬ (punct = .QUESTION ∧ isEvent = true)) (hi : Quiet log r) :
    Quiet log r' := by
  obtain ⟨_, _, ha, _, _, _, _, hsh | ⟨hadd, _, hor⟩⟩ := inputT2_cases h
  · exact ⟨by rw [hsh]; exact ⟨hi.1.1, hi.1.2⟩, ha.trans hi.2⟩
  · refine ⟨memAddTask_quiet (sh := { r.sh with stampIdCounter := r.sh.stampIdCounter + 1 }) ?_ ⟨hi.1.1, hi.1.2⟩ hadd, ha.trans hi.2⟩
    rcases hor with h1 | ⟨rfl, _⟩
    · exact absurd h1 hn
    · exact ⟨rfl, tv, rfl⟩

theorem inputN_quiet {r r' : Reasoner} {txt : List Char} {ok : Bool} {rng : List Nat}
    (h : inputN env r txt rng = .ok (r', ok)) (hn : ∀ t tv, parseNarsese env.pf txt ≠ .ok (some (t, tv, .QUESTION, true)))
    (hi : Quiet log r) : Quiet log r' := by
  unfold inputN at h
  obtain ⟨p, hp, h⟩ := R.bind_ok.1 h
  split at h
  · obtain ⟨r1, h1, h⟩ := R.bind_ok.1 h
    cases h
    refine inputT2_quiet h1 ?_ hi
    rintro ⟨rfl, rfl⟩
    exact hn _ _ hp
  · cases h; exact hi

theorem nlpProcess_quiet {r r' : Reasoner} {rels : List Relation} {rng : List Nat}
    (h : nlpProcess env r rels rng = .ok r') (hi : Quiet log r) : Quiet log r' := by
  unfold nlpProcess at h
  refine foldlM_inv (Quiet log) h hi ?_
  rintro rel hrel a b ha hstep
  obtain ⟨txt, ht, hstep⟩ := R.bind_ok.1 hstep
  obtain ⟨⟨r1, ok⟩, h1, hstep⟩ := R.bind_ok.1 hstep
  cases hstep
  refine inputN_quiet h1 ?_ ha
  intro t tv hpar
  have hs := parseNarsese_event hpar
  unfold convRelToNarsese at ht
  split at ht
  · rename_i x y _
    have := Except.ok.inj ht
    subst this
    obtain ⟨pre, hpre⟩ := hs
    have h2 := congrArg List.getLast? hpre
    have h3 : (pre ++ " :|:".toList).getLast? = some ':' := by
      rw [List.getLast?_append]; rfl
    rw [h3, List.getLast?_append] at h2
    have h4 : ':' = '}' := Option.some.inj h2
    revert h4; decide
  · cases ht

theorem declEffects_quiet {r r' : Reasoner} {ops : List Op} {t : Int} {executed : Option Term}
    (h : declEffects env r ops t executed = .ok r') (hi : Quiet log r) : Quiet log r' := by
  unfold declEffects at h
  split at h
  · cases h; exact hi
  · split at h
    · cases h; exact hi
    · obtain ⟨effs, he, h⟩ := R.bind_ok.1 h
      obtain ⟨sh, h1, h⟩ := R.bind_ok.1 h
      cases h
      refine ⟨?_, hi.2⟩
      refine foldlM_inv (fun x : Shared => QuietSh x) h1 hi.1 ?_
      rintro eff hmem a b ha hstep
      cases eff with
      | inject e => cases hstep; exact ha
      | relate rel => exact memAddTask_quiet (sh := { a with stampIdCounter := a.stampIdCounter + 1 }) ⟨rfl, _, rfl⟩ ⟨ha.1, ha.2⟩ hstep

theorem procStep1_quiet {r r' : Reasoner} {d : LineDraws} (h : procStep1 env r d = .ok r') (hi : Quiet log r) : Quiet log r' := by
  unfold procStep1 at h
  obtain ⟨⟨p, executed⟩, hn, h⟩ := R.bind_ok.1 h
  exact declEffects_quiet h (hi.same rfl rfl)

theorem procStep_quiet {r r' : Reasoner} {d : LineDraws} (h : procStep env r d = .ok r') (hi : Quiet log r) : Quiet log r' := by
  unfold procStep at h
  obtain ⟨p, h0, h⟩ := R.bind_ok.1 h
  rw [procWork_fold] at h
  exact procStep1_quiet h (hi.same rfl rfl)

theorem runCommand_quiet {r r' : Reasoner} {d : LineDraws} {s : List Char} {c : Command} {out : List (List Char)}
    (h : runCommand env r d s c = .ok (r', out))
    (hn : ∀ t tv, parseNarsese env.pf s ≠ .ok (some (t, tv, .QUESTION, true))) (hi : Quiet log r) : Quiet log r' := by
  cases c with
  | comment => cases h; exact hi
  | step =>
    obtain ⟨r1, h1, h⟩ := R.bind_ok.1 h
    cases h; exact procStep_quiet h1 hi
  | stepA =>
    obtain ⟨p, _, h⟩ := R.bind_ok.1 h
    cases h; exact hi.same rfl rfl
  | stepB =>
    obtain ⟨r1, h1, h⟩ := R.bind_ok.1 h
    cases h; exact procStep1_quiet h1 hi
  | cycles arg =>
    obtain ⟨n, _, h⟩ := R.bind_ok.1 h
    obtain ⟨r1, h1, h⟩ := R.bind_ok.1 h
    cases h; exact cyclesLoop_quiet h1 hi
  | flush => cases h; exact ⟨(TaskOp.run_quiet (op := .flush) (cfg := r.cfg env) rfl hi.1 trivial).1, hi.2⟩
  | register arg =>
    simp only [runCommand] at h
    split at h
    · cases h; exact hi.same rfl rfl
    · cases h; exact hi
  | showEvidence =>
    obtain ⟨_, _, h⟩ := R.bind_ok.1 h
    cases h; exact hi
  | babbleOff => cases h; exact hi.same rfl rfl
  | babbleOn => cases h; exact hi.same rfl rfl
  | nlp a =>
    obtain ⟨r1, h1, h⟩ := R.bind_ok.1 h
    cases h; exact nlpProcess_quiet h1 hi
  | debugTasks =>
    obtain ⟨_, _, h⟩ := R.bind_ok.1 h
    cases h; exact hi
  | debugMemory => cases h; exact hi
  | quit => cases h; exact hi
  | empty => cases h; exact hi
  | narsese =>
    obtain ⟨⟨r1, ok⟩, h1, h⟩ := R.bind_ok.1 h
    cases h; exact inputN_quiet h1 hn hi

theorem input_quiet {r r' : Reasoner} {line : List Char} {d : LineDraws} {q : Bool} {out : List (List Char)}
    (h : input env r line d = .ok (r', q, out)) (hn : ¬ AsksQuestion env line) (hi : Quiet log r) : Quiet log r' := by
  obtain ⟨_, h, _⟩ := input_ok h
  exact runCommand_quiet h (fun t tv hp => hn ⟨t, tv, hp⟩) hi

theorem work_quiet {r : Reasoner} (w : Work) (hi : Quiet log r) : Quiet log (w.run env r) := by
  cases w with
  | decl => exact declWork_quiet hi
  | proc rng => exact hi.same rfl rfl

theorem works_quiet {r : Reasoner} (ws : List Work) (hi : Quiet log r) : Quiet log (ws.foldl (Work.run env) r) := by
  induction ws generalizing r with
  | nil => exact hi
  | cons w ws ih => exact ih (work_quiet w hi)

theorem readLines_quiet {lines : List Read} {r r' : Reasoner} {q : Bool} (h : readLines env r lines = .ok (r', q))
    (hn : ∀ l ∈ lines, ¬ AsksQuestion env l.line) (hi : Quiet log r) : Quiet log r' := by
  induction lines generalizing r with
  | nil => cases h; exact hi
  | cons l lines ih =>
    rw [readLines_cons] at h
    obtain ⟨⟨r1, q1, out⟩, h1, h⟩ := R.bind_ok.1 h
    have hr := input_quiet h1 (hn l (by simp)) (works_quiet l.work hi)
    simp only at h
    split at h
    · cases h; exact hr
    · exact ih h (fun x hx => hn x (by simp [hx])) hr

theorem createNar_quiet : Quiet [] createNar :=
  ⟨⟨rfl, by simp [createNar, createShared], by simp [createNar, createShared, MemP], memP_true _⟩, rfl⟩

theorem evalWork_quiet {r : Reasoner} (w : Work) (hi : Quiet log r) : Quiet log (evalWork env r w) := by
  cases w with
  | decl =>
    unfold evalWork
    simp only
    split
    · exact declWork_quiet hi
    · exact hi.same rfl rfl
  | proc rng => exact hi.same rfl rfl

theorem evalWorks_quiet {r : Reasoner} (ws : List Work) (hi : Quiet log r) : Quiet log (ws.foldl (evalWork env) r) := by
  induction ws generalizing r with
  | nil => exact hi
  | cons w ws ih => exact ih (evalWork_quiet w hi)

theorem evalCycle_quiet {r r' : Reasoner} {d : EvalDraws} (h : evalCycle env r d = .ok r') (hi : Quiet log r) : Quiet log r' := by
  unfold evalCycle at h
  obtain ⟨r1, h1, h⟩ := R.bind_ok.1 h
  obtain ⟨_, _, h⟩ := R.bind_ok.1 h
  rw [← Except.ok.inj h]
  exact evalWorks_quiet _ (cycle_quiet h1 (evalWorks_quiet _ hi))

theorem evalLoop_quiet {draws : Nat → EvalDraws} {k i : Nat} {r r' : Reasoner} {res : Option Nat}
    (h : evalLoop env draws log.length k i r = .ok (r', res)) (hi : Quiet log r) : res = none := by
  induction k generalizing r i with
  | zero => cases h; rfl
  | succ k ih =>
    unfold evalLoop at h
    obtain ⟨r1, h1, h⟩ := R.bind_ok.1 h
    have hq := evalCycle_quiet h1 hi
    rw [if_neg (by rw [hq.2]; omega)] at h
    exact ih h hq

theorem evalFile_quiet {file : Option (List Read)} {draws : Nat → EvalDraws} {res : Option Nat}
    (h : evalFile env file draws = .ok res) (hn : ∀ ls, file = some ls → ∀ l ∈ ls, ¬ AsksQuestion env l.line) : res = none := by
  unfold evalFile at h
  obtain ⟨⟨r, q⟩, h1, h⟩ := R.bind_ok.1 h
  obtain ⟨⟨r', res'⟩, h2, h⟩ := R.bind_ok.1 h
  cases h
  have hq : Quiet [] r := by
    cases file with
    | none => cases h1; exact createNar_quiet
    | some ls => exact readLines_quiet h1 (hn ls rfl) createNar_quiet
  unfold evalRun at h2
  have e : r.answers.length = ([] : List AnswerCall).length := by rw [hq.2]
  rw [e] at h2
  exact evalLoop_quiet (log := []) h2 (hq.same rfl rfl)

end Nar
