import Verif.Spec.Effort
import Verif.Lemmas.Bounded3
import Verif.Lemmas.Decl4
import Verif.Lemmas.Whole2
import Verif.Lemmas.Whole3
import Verif.Lemmas.Chance2
import Verif.Lemmas.Proc4
import Verif.Lemmas.Programs3
/-! # Helper lemmas: the counters of the reasoner -/
namespace Nar
open Term

/-! ## clocks -/

theorem narStep0_t {p p' : Proc} {draws : Nat → SampleDraws} (h : narStep0 p draws = .ok p') : p'.t = p.t := by
  obtain ⟨heap, new, e, _⟩ := narStep0_spec h
  rw [e]

theorem workers_t (l : List (List Nat)) (p : Proc) : (l.foldl workerStep p).t = p.t := by
  induction l generalizing p with
  | nil => rfl
  | cons a l ih => exact (ih _).trans (workerStep_rest p a).2.1

theorem applyRelate_clock {cfg : Cfg} {t : Int} {sh sh' : Shared} {e : OpEffect} (h : applyRelate cfg t sh e = .ok sh') :
    sh'.cycleCounter = sh.cycleCounter := by
  cases e with
  | inject e => cases h; rfl
  | relate rel => exact (memAddTask_clock h).trans rfl

theorem declEffects_clock {env : Env} {r r' : Reasoner} {ops : List Op} {t : Int} {executed : Option Term}
    (h : declEffects env r ops t executed = .ok r') :
    r'.currentTime = r.currentTime ∧ r'.sh.cycleCounter = r.sh.cycleCounter ∧ r'.proc = r.proc ∧ r'.queue = r.queue := by
  unfold declEffects at h
  split at h
  · cases h; exact ⟨rfl, rfl, rfl, rfl⟩
  · split at h
    · cases h; exact ⟨rfl, rfl, rfl, rfl⟩
    · obtain ⟨effs, _, h⟩ := R.bind_ok.1 h
      obtain ⟨sh, h1, h⟩ := R.bind_ok.1 h
      cases h
      exact ⟨rfl, foldlM_inv (fun x : Shared => x.cycleCounter = r.sh.cycleCounter) h1 rfl
        (fun e _ a b ha hb => (applyRelate_clock hb).trans ha), rfl, rfl⟩

theorem procStep_clock {env : Env} {r r' : Reasoner} {d : LineDraws} (h : procStep env r d = .ok r') :
    r'.currentTime = r.currentTime ∧ r'.sh.cycleCounter = r.sh.cycleCounter ∧ r'.proc.t = r.proc.t + 1 ∧ r'.queue = r.queue := by
  unfold procStep at h
  obtain ⟨p, h0, h⟩ := R.bind_ok.1 h
  rw [procWork_fold] at h
  unfold procStep1 at h
  obtain ⟨⟨p1, executed⟩, hn, h⟩ := R.bind_ok.1 h
  obtain ⟨k1, k2, k3, k4⟩ := declEffects_clock h
  obtain ⟨_, _, _, _, _, _, _, _, _, e, _⟩ := narStep1_spec libCall_reports hn
  refine ⟨k1, k2, ?_, k4⟩
  rw [k3]
  show p1.t = _
  rw [e]
  show (d.between.foldl workerStep p).t + 1 = _
  rw [workers_t, narStep0_t h0]

theorem inputT2_clock {env : Env} {r r' : Reasoner} {term : Term} {punct : Punct} {tv : Tv} {isEvent : Bool} {rng : List Nat}
    (h : inputT2 env r term punct tv isEvent rng = .ok r') :
    r'.currentTime = r.currentTime ∧ r'.sh.cycleCounter = r.sh.cycleCounter ∧ r'.proc.t = r.proc.t := by
  obtain ⟨k1, k2, _⟩ := inputT2_frame h
  refine ⟨k1, ?_, k2⟩
  obtain ⟨_, _, _, _, _, _, _, hsh | ⟨hadd, _, _⟩⟩ := inputT2_cases h
  · rw [hsh]
  · exact (memAddTask_clock hadd).trans rfl

theorem inputN_clock {env : Env} {r r' : Reasoner} {txt : List Char} {ok : Bool} {rng : List Nat}
    (h : inputN env r txt rng = .ok (r', ok)) :
    r'.currentTime = r.currentTime ∧ r'.sh.cycleCounter = r.sh.cycleCounter ∧ r'.proc.t = r.proc.t := by
  unfold inputN at h
  obtain ⟨p, hp, h⟩ := R.bind_ok.1 h
  split at h
  · obtain ⟨r1, h1, h⟩ := R.bind_ok.1 h
    cases h
    exact inputT2_clock h1
  · cases h; exact ⟨rfl, rfl, rfl⟩

theorem nlpProcess_clock {env : Env} {r r' : Reasoner} {rels : List Relation} {rng : List Nat}
    (h : nlpProcess env r rels rng = .ok r') :
    r'.currentTime = r.currentTime ∧ r'.sh.cycleCounter = r.sh.cycleCounter ∧ r'.proc.t = r.proc.t := by
  unfold nlpProcess at h
  refine foldlM_inv (fun x : Reasoner => x.currentTime = r.currentTime ∧ x.sh.cycleCounter = r.sh.cycleCounter ∧ x.proc.t = r.proc.t)
    h ⟨rfl, rfl, rfl⟩ ?_
  rintro rel hrel a b ⟨a1, a2, a3⟩ hstep
  obtain ⟨txt, ht, hstep⟩ := R.bind_ok.1 hstep
  obtain ⟨⟨r1, ok⟩, h1, hstep⟩ := R.bind_ok.1 hstep
  cases hstep
  obtain ⟨b1, b2, b3⟩ := inputN_clock h1
  exact ⟨b1.trans a1, b2.trans a2, b3.trans a3⟩

theorem nCycles_asked {arg : List Char} {n : Int} (h : nCycles arg = .ok n) :
    (if arg = [] then 1 else ((parseI64 arg).getD 0).toNat) = n.toNat := by
  unfold nCycles at h
  split at h
  · rename_i hb
    have : arg ≠ [] := by rintro rfl; simp [byteLen] at hb
    rw [if_neg this]
    split at h
    · rename_i m e; rw [e]; cases h; rfl
    · cases h
  · rename_i hb
    have : arg = [] := by
      cases arg with
      | nil => rfl
      | cons c cs =>
        exfalso; apply hb
        have := Char.utf8Size_pos c
        simp only [byteLen, List.map_cons, List.sum_cons]; omega
    rw [if_pos this]; cases h; rfl

theorem runCommand_clock {env : Env} {r r' : Reasoner} {d : LineDraws} {l : List Char} {out : List (List Char)}
    (hb : commandOf (trimNewline l) ≠ .stepB) (h : runCommand env r d (trimNewline l) (commandOf (trimNewline l)) = .ok (r', out)) :
    r'.currentTime = r.currentTime + cyclesAsked (.line l d) ∧ r'.sh.cycleCounter = r.sh.cycleCounter + cyclesAsked (.line l d) ∧
      r'.proc.t = r.proc.t + stepsAsked (.line l d) := by
  have same : r'.currentTime = r.currentTime ∧ r'.sh.cycleCounter = r.sh.cycleCounter ∧ r'.proc.t = r.proc.t →
      r'.currentTime = r.currentTime + (0 : Nat) ∧ r'.sh.cycleCounter = r.sh.cycleCounter + (0 : Nat) ∧ r'.proc.t = r.proc.t + (0 : Nat) := by
    simp
  simp only [cyclesAsked, stepsAsked]
  generalize commandOf (trimNewline l) = c at h hb
  cases c with
  | comment => cases h; exact same ⟨rfl, rfl, rfl⟩
  | step =>
    obtain ⟨r1, h1, h⟩ := R.bind_ok.1 h
    cases h
    obtain ⟨k1, k2, k3, _⟩ := procStep_clock h1
    exact ⟨by simp [k1], by simp [k2], by simp [k3]⟩
  | stepA =>
    obtain ⟨p, h0, h⟩ := R.bind_ok.1 h
    cases h; exact same ⟨rfl, rfl, narStep0_t h0⟩
  | stepB => exact absurd rfl hb
  | cycles arg =>
    obtain ⟨n, hn, h⟩ := R.bind_ok.1 h
    obtain ⟨r1, h1, h⟩ := R.bind_ok.1 h
    cases h
    obtain ⟨k1, k2, k3⟩ := cyclesLoop_time h1
    simp only [nCycles_asked hn]
    exact ⟨k1, k2, by rw [k3]; simp⟩
  | flush => cases h; exact same ⟨rfl, rfl, rfl⟩
  | register arg =>
    simp only [runCommand] at h
    split at h
    · cases h; exact same ⟨rfl, rfl, rfl⟩
    · cases h; exact same ⟨rfl, rfl, rfl⟩
  | showEvidence =>
    obtain ⟨_, _, h⟩ := R.bind_ok.1 h
    cases h; exact same ⟨rfl, rfl, rfl⟩
  | babbleOff => cases h; exact same ⟨rfl, rfl, rfl⟩
  | babbleOn => cases h; exact same ⟨rfl, rfl, rfl⟩
  | nlp a =>
    obtain ⟨r1, h1, h⟩ := R.bind_ok.1 h
    cases h; exact same (nlpProcess_clock h1)
  | debugTasks =>
    obtain ⟨_, _, h⟩ := R.bind_ok.1 h
    cases h; exact same ⟨rfl, rfl, rfl⟩
  | debugMemory => cases h; exact same ⟨rfl, rfl, rfl⟩
  | quit => cases h; exact same ⟨rfl, rfl, rfl⟩
  | empty => cases h; exact same ⟨rfl, rfl, rfl⟩
  | narsese =>
    obtain ⟨⟨r1, ok⟩, h1, h⟩ := R.bind_ok.1 h
    cases h; exact same (inputN_clock h1)

theorem commandOf_ne_stepB {s : List Char} (h : dispatch s = .ok (commandOf s)) : commandOf s ≠ .stepB :=
  fun e => dispatch_ne_stepB s (by rw [h, e])

theorem NarOp.run_clock {env : Env} {r r' : Reasoner} {op : NarOp} (h : op.run env r = .ok r') :
    r'.currentTime = r.currentTime + cyclesAsked op ∧ r'.sh.cycleCounter = r.sh.cycleCounter + cyclesAsked op ∧
      r'.proc.t = r.proc.t + stepsAsked op := by
  have same : r'.currentTime = r.currentTime ∧ r'.sh.cycleCounter = r.sh.cycleCounter ∧ r'.proc.t = r.proc.t →
      r'.currentTime = r.currentTime + (0 : Nat) ∧ r'.sh.cycleCounter = r.sh.cycleCounter + (0 : Nat) ∧ r'.proc.t = r.proc.t + (0 : Nat) := by
    simp
  cases op with
  | line l d =>
    obtain ⟨⟨r1, q, out⟩, h1, rfl⟩ := R.map_ok.1 h
    obtain ⟨hd, hr, _⟩ := input_ok h1
    exact runCommand_clock (commandOf_ne_stepB hd) hr
  | tell term punct tv e rng => exact same (inputT2_clock h)
  | cycle v =>
    obtain ⟨k1, k2, k3⟩ := cycle_time h
    exact ⟨k1, k2, by rw [k3]; simp [stepsAsked]⟩
  | declWork =>
    cases h
    obtain ⟨k1, k2, k3⟩ := declWork_time env r
    exact same ⟨k1, k2, by rw [k3]⟩
  | procWork rng => cases h; exact same ⟨rfl, rfl, (workerStep_rest r.proc rng).2.1⟩
  | handlers n => cases h; exact same ⟨rfl, rfl, rfl⟩
  | verbosity v => cases h; exact same ⟨rfl, rfl, rfl⟩
  | workerLost => cases h; exact same ⟨rfl, rfl, rfl⟩
  | link => cases h; exact same ⟨rfl, rfl, rfl⟩

theorem moreNar_clock {env : Env} {ops : List NarOp} {r r' : Reasoner} (h : moreNar env r ops = .ok r') :
    r'.currentTime = r.currentTime + altogether cyclesAsked ops ∧
      r'.sh.cycleCounter = r.sh.cycleCounter + altogether cyclesAsked ops ∧
      r'.proc.t = r.proc.t + altogether stepsAsked ops := by
  induction ops generalizing r with
  | nil => cases h; simp [altogether]
  | cons op ops ih =>
    obtain ⟨r1, h1, h⟩ := foldlM_cons_ok.1 h
    obtain ⟨a1, a2, a3⟩ := NarOp.run_clock h1
    obtain ⟨b1, b2, b3⟩ := ih h
    simp only [altogether, List.map_cons, List.sum_cons] at b1 b2 b3 ⊢
    refine ⟨?_, ?_, ?_⟩
    · rw [b1, a1]; push_cast; ring
    · rw [b2, a2]; push_cast; ring
    · rw [b3, a3]; push_cast; ring

/-! ## identifiers of tasks and of evidence -/

theorem addTasks_ids {cc : Bool} {mc : Rat} {ss : List Sentence} {sh sh' : Shared} (h : addTasks sh cc mc ss = .ok sh') :
    sh.taskIdCounter ≤ sh'.taskIdCounter ∧ sh'.taskIdCounter ≤ sh.taskIdCounter + ss.length := by
  induction ss generalizing sh with
  | nil => cases h; exact ⟨le_refl _, by simp⟩
  | cons s ss ih =>
    unfold addTasks at h
    have hc : ((s :: ss).length : Int) = ss.length + 1 := by simp
    rw [hc]
    have h0 : (0 : Int) ≤ ss.length := by omega
    cases hp : s.punct with
    | JUGEMENT =>
      rw [hp] at h
      simp only [R.bind_ok] at h
      obtain ⟨tasks, _, h⟩ := h
      split at h
      · cases h; exact ⟨le_refl _, by omega⟩
      · rw [R.bind_ok] at h
        obtain ⟨task, _, h⟩ := h
        obtain ⟨k1, k2⟩ := ih h
        simp only at k1 k2
        exact ⟨by omega, by omega⟩
    | QUESTION =>
      rw [hp] at h
      obtain ⟨k1, k2⟩ := ih h
      simp only at k1 k2
      exact ⟨by omega, by omega⟩
    | GOAL =>
      rw [hp] at h
      obtain ⟨k1, k2⟩ := ih h
      exact ⟨by omega, by omega⟩

theorem memAddTask_ids {cfg : Cfg} {sh sh' : Shared} {s : Sentence} {cc : Bool} {mc : Rat} {now : Int}
    (h : memAddTask cfg sh s cc mc now = .ok sh') :
    sh.taskIdCounter ≤ sh'.taskIdCounter ∧ sh'.taskIdCounter ≤ sh.taskIdCounter + 2 := by
  rcases memAddTask_cases h with ⟨_, rfl⟩ | ⟨_, mem, rev, _, h2⟩
  · exact ⟨le_refl _, by omega⟩
  · obtain ⟨k1, k2⟩ := addTasks_ids h2
    simp only at k1 k2
    refine ⟨k1, le_trans k2 ?_⟩
    cases rev <;> simp

theorem addAll_ids {cfg : Cfg} {f : Sentence × Rat → Rat} {now : Int} {cs : List (Sentence × Rat)} {sh sh' : Shared}
    (h : cs.foldlM (fun sh c => memAddTask cfg sh c.1 true (f c) now) sh = .ok sh') :
    sh.taskIdCounter ≤ sh'.taskIdCounter ∧ sh'.taskIdCounter ≤ sh.taskIdCounter + 2 * cs.length := by
  induction cs generalizing sh with
  | nil => cases h; exact ⟨le_refl _, by simp⟩
  | cons c cs ih =>
    rw [List.foldlM_cons] at h
    obtain ⟨sh1, h1, h⟩ := R.bind_ok.1 h
    obtain ⟨a1, a2⟩ := memAddTask_ids h1
    obtain ⟨b1, b2⟩ := ih h
    have hc : ((c :: cs).length : Int) = cs.length + 1 := by simp
    rw [hc]
    exact ⟨by omega, by omega⟩

theorem offerAll_ids {cfg : Cfg} {cs : List Sentence} {sh sh' : Shared} {calls : List AnswerCall}
    (h : offerAll cfg sh cs = .ok (sh', calls)) : sh'.taskIdCounter = sh.taskIdCounter := by
  induction cs generalizing sh calls with
  | nil => cases h; rfl
  | cons c cs ih =>
    unfold offerAll at h
    obtain ⟨⟨sh1, c1⟩, h1, h⟩ := R.bind_ok.1 h
    obtain ⟨⟨sh2, c2⟩, h2, h⟩ := R.bind_ok.1 h
    obtain ⟨rfl, _⟩ := Prod.mk.inj (Except.ok.inj h)
    obtain ⟨qs, hq⟩ := offerConclusion_frame h1
    simp only at hq
    rw [ih h2, hq]

theorem everyCleanup_ids {cfg : Cfg} {sh sh' : Shared} (h : everyCleanup cfg sh = .ok sh') : sh'.taskIdCounter = sh.taskIdCounter := by
  unfold everyCleanup at h
  split at h
  · obtain ⟨sh1, h1, h2⟩ := R.bind_ok.1 h
    obtain ⟨_, _, _, _, rfl⟩ := cleanupTasks_spec h1
    unfold rebuildLookup at h2
    obtain ⟨_, _, h2⟩ := R.bind_ok.1 h2
    rw [← Except.ok.inj h2]
  · rw [← Except.ok.inj h]

theorem everyForget_ids {sh sh' : Shared} (h : everyForget sh = .ok sh') : sh'.taskIdCounter = sh.taskIdCounter := by
  unfold everyForget at h
  split at h
  · obtain ⟨m, _, h2⟩ := R.bind_ok.1 h
    rw [← Except.ok.inj h2]
  · rw [← Except.ok.inj h]

theorem buildMsg_ids {cfg : Cfg} {sh sh' : Shared} {msg : Option Msg} (h : buildMsg cfg sh = .ok (sh', msg)) :
    sh'.taskIdCounter = sh.taskIdCounter := by
  unfold buildMsg at h
  obtain ⟨⟨sh1, prim⟩, h1, h⟩ := R.bind_ok.1 h
  have hk : sh1.taskIdCounter = sh.taskIdCounter := by
    rcases selectPrimary_cases h1 with ⟨_, e⟩ | ⟨tasks, p, _, hp, e⟩
    · obtain ⟨rfl, rfl⟩ := Prod.mk.inj e; rfl
    · obtain ⟨rfl, rfl⟩ := Prod.mk.inj e; rfl
  cases prim with
  | none => rw [← (Prod.mk.inj (Except.ok.inj h)).1]; exact hk
  | some p =>
    obtain ⟨sec, _, h⟩ := R.bind_ok.1 h
    rw [← (Prod.mk.inj (Except.ok.inj h)).1]; exact hk

theorem reasonCycle_ids {cfg : Cfg} {v : Rat} {now : Int} {sh sh' : Shared} {msg : Option Msg} {calls : List AnswerCall}
    (h : reasonCycle cfg v now sh = .ok (sh', msg, calls)) : sh'.taskIdCounter = sh.taskIdCounter := by
  unfold reasonCycle at h
  obtain ⟨sh1, h1, h⟩ := R.bind_ok.1 h
  obtain ⟨⟨sh2, c2⟩, h2, h⟩ := R.bind_ok.1 h
  obtain ⟨⟨sh3, m3⟩, h3, h⟩ := R.bind_ok.1 h
  obtain ⟨sh4, h4, h⟩ := R.bind_ok.1 h
  obtain ⟨sh5, h5, h⟩ := R.bind_ok.1 h
  obtain ⟨e, _⟩ := Prod.mk.inj (Except.ok.inj h)
  subst e
  have s1 := (creditQuestions_same { sh with cycleCounter := sh.cycleCounter + 1 }).trans (baseCredit_same h1)
  obtain ⟨qs, hq⟩ := answerSampled_frame h2
  simp only at hq
  have e3 : (useMsg sh3 now m3).taskIdCounter = sh3.taskIdCounter := by
    cases m3 with
    | none => rfl
    | some m => exact (updateUsage_same sh3 m now).counter
  rw [everyForget_ids h5, everyCleanup_ids h4, e3, buildMsg_ids h3, hq]
  exact s1.2.2.2.1

/-- twice the number of conclusions the worker can draw from one message, for lists of up to 60 beliefs -/
def perCycle : Nat := 2 * roundLimit ⟨64, 60, 0, fun _ => 1⟩

theorem work_ids {cfg : Cfg} {sh sh' : Shared} {m : Msg} {calls : List AnswerCall} (hd : DInv cfg sh) (hc : cfg.maxComplexity = 64)
    (hm : m.secondary.length ≤ 300) (ht : MemOk sh.mem) (h : work cfg sh m = .ok (sh', calls)) :
    sh.taskIdCounter ≤ sh'.taskIdCounter ∧ sh'.taskIdCounter ≤ sh.taskIdCounter + perCycle := by
  unfold Nar.work at h
  obtain ⟨concl, a1, h⟩ := R.bind_ok.1 h
  obtain ⟨p, a2, h⟩ := R.bind_ok.1 h
  obtain ⟨⟨sh2, c2⟩, a3, h⟩ := R.bind_ok.1 h
  obtain ⟨sh3, a4, h⟩ := R.bind_ok.1 h
  obtain ⟨rfl, _⟩ := Prod.mk.inj (Except.ok.inj h)
  have hd' : DInv ⟨64, 60, 0, fun _ => 1⟩ sh := ⟨⟨hd.inv.valid, hd.inv.ids, hd.inv.fresh, hd.inv.nodup,
    (fun t ht => by have := hd.inv.complexity t ht; rw [hc] at this; exact this), hd.inv.diff, hd.inv.sound, hd.inv.complete, hd.inv.keys⟩, hd.good⟩
  have b1 := workConclusions_length hd' hm (by intro c hc; exact ht.bounded c hc) a1
  have b2 := offerAll_ids a3
  obtain ⟨b3, b4⟩ := addAll_ids (f := fun c => 1 * p.mulCredit * c.2) a4
  unfold perCycle
  rw [b2] at b3 b4
  exact ⟨b3, by omega⟩

/-- the identifiers given out, if `c` cycles were run and `p` sentences put in -/
structure Ids (r : Reasoner) (c p : Nat) : Prop where
  partners : ∀ m ∈ r.queue, m.secondary.length ≤ 300
  some : 0 ≤ r.sh.stampIdCounter
  stamp : r.sh.stampIdCounter ≤ p
  start : 1000 ≤ r.sh.taskIdCounter
  tasks : r.sh.taskIdCounter + perCycle * (r.queue.length : Int) ≤ 1000 + 2 * (p : Int) + perCycle * (c : Int)

theorem Ids.same {r r' : Reasoner} {c p : Nat} (h : Ids r c p) (h1 : r'.queue = r.queue)
    (h2 : r'.sh.stampIdCounter = r.sh.stampIdCounter) (h3 : r'.sh.taskIdCounter = r.sh.taskIdCounter) : Ids r' c p :=
  ⟨by rw [h1]; exact h.partners, by rw [h2]; exact h.some, by rw [h2]; exact h.stamp, by rw [h3]; exact h.start,
    by rw [h3, h1]; exact h.tasks⟩

theorem Ids.mono {r : Reasoner} {c p p' : Nat} (h : Ids r c p) (hp : p ≤ p') : Ids r c p' :=
  ⟨h.partners, h.some, by have := h.stamp; omega, h.start, by have := h.tasks; omega⟩

theorem look_ids (r : Reasoner) : r.look.taskIdCounter = r.sh.taskIdCounter ∧ r.look.stampIdCounter = r.sh.stampIdCounter := by
  unfold Reasoner.look; split <;> exact ⟨rfl, rfl⟩

theorem cycle_Ids {env : Env} {r r' : Reasoner} {v : Rat} {c p : Nat} (h : cycle env r v = .ok r') (hi : Ids r c p) : Ids r' (c + 1) p := by
  unfold cycle at h
  obtain ⟨⟨sh, msg, calls⟩, h1, h⟩ := R.bind_ok.1 h
  have key : r'.sh = { sh with procMem := r.sh.procMem } ∧ r'.queue = r.queue ++ msg.toList := by
    cases msg with
    | none => cases h; exact ⟨rfl, by simp⟩
    | some m =>
      simp only [sendMsg] at h
      split at h
      · cases h; exact ⟨rfl, rfl⟩
      · cases h
  obtain ⟨e1, e2⟩ := key
  have k1 : r'.sh.taskIdCounter = r.sh.taskIdCounter := by
    rw [e1]; exact (reasonCycle_ids h1).trans (look_ids r).1
  have k2 : r'.sh.stampIdCounter = r.sh.stampIdCounter := by
    rw [e1]
    have := congrArg Prod.fst (reasonCycle_more3 h1)
    exact this.trans (look_ids r).2
  refine ⟨?_, by rw [k2]; exact hi.some, by rw [k2]; exact hi.stamp, by rw [k1]; exact hi.start, ?_⟩
  · rw [e2]
    intro m hm
    rcases List.mem_append.1 hm with hm | hm
    · exact hi.partners m hm
    · exact reasonCycle_secondary h1 m hm
  · rw [k1, e2, List.length_append]
    have hl : msg.toList.length ≤ 1 := by cases msg <;> simp
    have ht := hi.tasks
    have hp : (0 : Int) ≤ perCycle := by omega
    push_cast
    have : (perCycle : Int) * (msg.toList.length : Int) ≤ perCycle * 1 := by
      apply mul_le_mul_of_nonneg_left _ hp; exact_mod_cast hl
    rw [mul_add, mul_add]
    linarith

theorem memOk_of_WDecl {env : Env} {r : Reasoner} (h : WDecl env createShared [] r) : MemOk r.sh.mem :=
  h.hist.reach.memOk ⟨by simp [createShared, Mem.WF], by simp [createShared], by simp [createShared]⟩

theorem declWork_Ids {env : Env} {r : Reasoner} {c p : Nat} (hs : Safe env r) (hw : WDecl env createShared [] r) (hi : Ids r c p) :
    Ids (declWork env r) c p := by
  unfold declWork
  split
  · split
    · exact hi
    · rename_i m rest hq
      have hl : r.queue.length = rest.length + 1 := by rw [hq]; rfl
      have ht := hi.tasks
      rw [hl] at ht
      push_cast at ht
      rw [mul_add] at ht
      have hp : (0 : Int) ≤ perCycle := by omega
      have hrest : ∀ m ∈ rest, m.secondary.length ≤ 300 := fun m hm => hi.partners m (by rw [hq]; simp [hm])
      split
      · rename_i sh calls h1
        obtain ⟨k1, k2⟩ := work_ids hs.decl hw.complexity (hi.partners m (by rw [hq]; simp)) (memOk_of_WDecl hw) h1
        have k3 : sh.stampIdCounter = r.sh.stampIdCounter := congrArg Prod.fst (work_outer3 h1)
        have := hi.start
        refine ⟨hrest, ?_, ?_, ?_, ?_⟩
        · show 0 ≤ sh.stampIdCounter; rw [k3]; exact hi.some
        · show sh.stampIdCounter ≤ _; rw [k3]; exact hi.stamp
        · show 1000 ≤ sh.taskIdCounter; omega
        · show sh.taskIdCounter + _ * (rest.length : Int) ≤ _; linarith
      · refine ⟨hrest, hi.some, hi.stamp, hi.start, ?_⟩
        show r.sh.taskIdCounter + _ * (rest.length : Int) ≤ _; linarith
  · exact hi

theorem declWorkN_Ids {env : Env} (n : Nat) {r : Reasoner} {c p : Nat} (hs : Safe env r) (hw : WDecl env createShared [] r) (hi : Ids r c p) :
    Ids (declWorkN env r n) c p := by
  induction n generalizing r with
  | zero => exact hi
  | succ n ih => exact ih (declWork_safe hs).1 (declWork_WDecl env hw) (declWork_Ids hs hw hi)

theorem cyclesLoop_Ids {env : Env} {draws : Nat → Rat × Nat} {n i : Nat} {r r' : Reasoner} {c p : Nat} (hs : Safe env r)
    (hw : WDecl env createShared [] r) (hi : Ids r c p) (h : cyclesLoop env draws n i r = .ok r') : Ids r' (c + n) p := by
  induction n generalizing r i c with
  | zero => cases h; exact hi
  | succ n ih =>
    unfold cyclesLoop at h
    obtain ⟨r1, h1, h⟩ := R.bind_ok.1 h
    have k1 := (declWorkN_safe (draws i).2 hs).1
    have k2 := declWorkN_WDecl env (draws i).2 hw
    have := ih (cycle_safe k1 h1).1 (cycle_WDecl h1 k2) (cycle_Ids h1 (declWorkN_Ids _ hs hw hi)) h
    rw [show c + (n + 1) = c + 1 + n by omega]; exact this

theorem inputT2_Ids {env : Env} {r r' : Reasoner} {term : Term} {punct : Punct} {tv : Tv} {isEvent : Bool} {rng : List Nat} {c p : Nat}
    (h : inputT2 env r term punct tv isEvent rng = .ok r') (hi : Ids r c p) : Ids r' c (p + 1) := by
  obtain ⟨hq, _, _, _, _, _, _, hsh | ⟨hadd, _, _⟩⟩ := inputT2_cases h
  · have h1 := hi.some
    have h2 := hi.stamp
    have h3 := hi.tasks
    refine ⟨by rw [hq]; exact hi.partners, ?_, ?_, ?_, ?_⟩
    · rw [hsh]; show 0 ≤ r.sh.stampIdCounter + 1; omega
    · rw [hsh]; show r.sh.stampIdCounter + 1 ≤ _; omega
    · rw [hsh]; exact hi.start
    · rw [hsh, hq]; show r.sh.taskIdCounter + _ ≤ _; omega
  · have h1 := hi.some
    have h2 := hi.stamp
    have h3 := hi.tasks
    have h4 := hi.start
    obtain ⟨k1, k2⟩ := memAddTask_ids hadd
    have k3 : r'.sh.stampIdCounter = r.sh.stampIdCounter + 1 := congrArg Prod.fst (memAddTask_outer3 hadd)
    simp only at k1 k2
    exact ⟨by rw [hq]; exact hi.partners, by omega, by omega, by omega, by rw [hq]; omega⟩

theorem inputN_Ids {env : Env} {r r' : Reasoner} {txt : List Char} {ok : Bool} {rng : List Nat} {c p : Nat}
    (h : inputN env r txt rng = .ok (r', ok)) (hi : Ids r c p) : Ids r' c (p + 1) := by
  unfold inputN at h
  obtain ⟨x, hp, h⟩ := R.bind_ok.1 h
  split at h
  · obtain ⟨r1, h1, h⟩ := R.bind_ok.1 h
    cases h
    exact inputT2_Ids h1 hi
  · cases h; exact hi.mono (by omega)

theorem nlpProcess_Ids {env : Env} {rels : List Relation} {rng : List Nat} {r r' : Reasoner} {c p : Nat}
    (h : nlpProcess env r rels rng = .ok r') (hi : Ids r c p) : Ids r' c (p + rels.length) := by
  unfold nlpProcess at h
  induction rels generalizing r p with
  | nil => cases h; exact hi
  | cons rel rels ih =>
    obtain ⟨r1, hstep, h⟩ := foldlM_cons_ok.1 h
    obtain ⟨txt, ht, hstep⟩ := R.bind_ok.1 hstep
    obtain ⟨⟨r2, ok⟩, h1, hstep⟩ := R.bind_ok.1 hstep
    cases hstep
    have := ih h (inputN_Ids h1 hi)
    rw [List.length_cons, show p + (rels.length + 1) = p + 1 + rels.length by omega]; exact this

/-- the relation an effect reports -/
def OpEffect.rel? : OpEffect → Option Term
  | .relate rel => some rel
  | .inject _ => none

theorem applyRelates_ids {cfg : Cfg} {t : Int} {effs : List OpEffect} {sh sh' : Shared}
    (h : effs.foldlM (applyRelate cfg t) sh = .ok sh') :
    sh'.stampIdCounter = sh.stampIdCounter + (effs.filterMap OpEffect.rel?).length ∧ sh.taskIdCounter ≤ sh'.taskIdCounter ∧
      sh'.taskIdCounter ≤ sh.taskIdCounter + 2 * (effs.filterMap OpEffect.rel?).length := by
  induction effs generalizing sh with
  | nil => cases h; simp
  | cons e effs ih =>
    obtain ⟨sh1, h1, h⟩ := foldlM_cons_ok.1 h
    obtain ⟨k1, k2, k3⟩ := ih h
    cases e with
    | inject x =>
      cases h1
      have : (OpEffect.inject x :: effs).filterMap OpEffect.rel? = effs.filterMap OpEffect.rel? := rfl
      rw [this]; exact ⟨k1, k2, k3⟩
    | relate rel =>
      have : ((OpEffect.relate rel :: effs).filterMap OpEffect.rel?).length = (effs.filterMap OpEffect.rel?).length + 1 := rfl
      rw [this]
      obtain ⟨m1, m2⟩ := memAddTask_ids h1
      have m3 : sh1.stampIdCounter = sh.stampIdCounter + 1 := congrArg Prod.fst (memAddTask_outer3 h1)
      simp only at m1 m2
      push_cast
      exact ⟨by omega, by omega, by omega⟩

theorem Ids.more {r r' : Reasoner} {c p n : Nat} (h : Ids r c p) (h1 : r'.queue = r.queue)
    (h2 : r'.sh.stampIdCounter = r.sh.stampIdCounter + n) (h3 : r.sh.taskIdCounter ≤ r'.sh.taskIdCounter)
    (h4 : r'.sh.taskIdCounter ≤ r.sh.taskIdCounter + 2 * n) : Ids r' c (p + n) := by
  have k1 := h.some
  have k2 := h.stamp
  have k3 := h.start
  have k4 := h.tasks
  exact ⟨by rw [h1]; exact h.partners, by omega, by omega, by omega, by rw [h1]; push_cast; omega⟩

theorem procStep_Ids {env : Env} {r r' : Reasoner} {d : LineDraws} {c p : Nat} (h : procStep env r d = .ok r')
    (hi : Ids r c p) : Ids r' c (p + (relationsReported env r d).length) := by
  have hq := (procStep_clock h).2.2.2
  have none : r'.sh = r.sh → Ids r' c (p + (relationsReported env r d).length) := fun e =>
    (hi.same hq (by rw [e]) (by rw [e])).mono (by omega)
  unfold procStep at h
  obtain ⟨p0, h0, h⟩ := R.bind_ok.1 h
  rw [procWork_fold] at h
  unfold procStep1 at h
  obtain ⟨⟨p2, executed⟩, h1, h⟩ := R.bind_ok.1 h
  simp only at h1 h
  unfold declEffects at h
  cases executed with
  | none => cases h; exact none rfl
  | some act =>
    simp only at h
    cases hd : decodeOp act with
    | none => rw [hd] at h; cases h; exact none rfl
    | some x =>
      obtain ⟨args, name⟩ := x
      rw [hd] at h
      simp only at h
      obtain ⟨effs, he, h⟩ := R.bind_ok.1 h
      obtain ⟨sh, h2, h⟩ := R.bind_ok.1 h
      obtain ⟨k1, k2, k3⟩ := applyRelates_ids h2
      have hr : relationsReported env r d = effs.filterMap OpEffect.rel? := by
        unfold relationsReported
        rw [h0]
        simp only [h1, hd, he]
        rfl
      rw [hr]
      cases h
      exact hi.more hq k1 k2 k3

theorem runCommand_Ids {env : Env} {r r' : Reasoner} {d : LineDraws} {l : List Char} {out : List (List Char)} {c p : Nat}
    (hb : commandOf (trimNewline l) ≠ .stepB)
    (h : runCommand env r d (trimNewline l) (commandOf (trimNewline l)) = .ok (r', out)) (hs : Safe env r)
    (hw : WDecl env createShared [] r) (hi : Ids r c p) :
    Ids r' (c + cyclesAsked (.line l d)) (p + putIn env r (.line l d)) := by
  simp only [cyclesAsked, putIn, sentencesPut]
  generalize commandOf (trimNewline l) = cmd at h hb
  cases cmd with
  | comment => cases h; exact hi
  | step =>
    obtain ⟨r1, h1, h⟩ := R.bind_ok.1 h
    cases h
    simpa using procStep_Ids h1 hi
  | stepA =>
    obtain ⟨p, h0, h⟩ := R.bind_ok.1 h
    cases h; exact hi.same rfl rfl rfl
  | stepB => exact absurd rfl hb
  | cycles arg =>
    obtain ⟨n, hn, h⟩ := R.bind_ok.1 h
    obtain ⟨r1, h1, h⟩ := R.bind_ok.1 h
    cases h
    simp only [nCycles_asked hn]
    exact cyclesLoop_Ids hs hw hi h1
  | flush => cases h; exact hi.same rfl rfl rfl
  | register arg =>
    simp only [runCommand] at h
    split at h
    · cases h; exact hi.same rfl rfl rfl
    · cases h; exact hi
  | showEvidence =>
    obtain ⟨_, _, h⟩ := R.bind_ok.1 h
    cases h; exact hi
  | babbleOff => cases h; exact hi.same rfl rfl rfl
  | babbleOn => cases h; exact hi.same rfl rfl rfl
  | nlp a =>
    obtain ⟨r1, h1, h⟩ := R.bind_ok.1 h
    cases h; exact nlpProcess_Ids h1 hi
  | debugTasks =>
    obtain ⟨_, _, h⟩ := R.bind_ok.1 h
    cases h; exact hi
  | debugMemory => cases h; exact hi
  | quit => cases h; exact hi
  | empty => cases h; exact hi
  | narsese =>
    obtain ⟨⟨r1, ok⟩, h1, h⟩ := R.bind_ok.1 h
    cases h; exact inputN_Ids h1 hi

theorem NarOp.run_Ids {env : Env} {r r' : Reasoner} {op : NarOp} {c p : Nat} (h : op.run env r = .ok r') (hs : Safe env r)
    (hw : WDecl env createShared [] r) (hi : Ids r c p) :
    Ids r' (c + cyclesAsked op) (p + putIn env r op) := by
  cases op with
  | line l d =>
    obtain ⟨⟨r1, q, out⟩, h1, rfl⟩ := R.map_ok.1 h
    obtain ⟨hd, hr, _⟩ := input_ok h1
    exact runCommand_Ids (commandOf_ne_stepB hd) hr hs hw hi
  | tell term punct tv e rng => exact inputT2_Ids h hi
  | cycle v => exact cycle_Ids h hi
  | declWork => cases h; exact declWork_Ids hs hw hi
  | procWork rng => cases h; exact hi.same rfl rfl rfl
  | handlers n => cases h; exact hi.same rfl rfl rfl
  | verbosity v => cases h; exact hi.same rfl rfl rfl
  | workerLost => cases h; exact hi.same rfl rfl rfl
  | link => cases h; exact hi.same rfl rfl rfl

theorem putInAlong_snoc {env : Env} {ops : List NarOp} {op : NarOp} {r r' : Reasoner} (h : moreNar env r ops = .ok r') :
    putInAlong env r (ops ++ [op]) = putInAlong env r ops + putIn env r' op := by
  induction ops generalizing r with
  | nil =>
    cases h
    simp only [List.nil_append, putInAlong]
    split <;> omega
  | cons o ops ih =>
    obtain ⟨r1, h1, h⟩ := foldlM_cons_ok.1 h
    simp only [List.cons_append, putInAlong, h1]
    rw [ih h]; omega

theorem runNar_Ids {env : Env} {ops : List NarOp} {r : Reasoner} (h : runNar env ops = .ok r) (hs : SaneTelling env ops) :
    Ids r (altogether cyclesAsked ops) (putInAlong env createNar ops) := by
  induction ops using List.reverseRecOn generalizing r with
  | nil =>
    cases h
    exact ⟨(fun m hm => by cases hm), by simp [createNar, createShared], by simp [createNar, createShared, putInAlong],
      by simp [createNar, createShared], by simp [createNar, createShared, altogether, putInAlong]⟩
  | append_singleton ops op ih =>
    obtain ⟨r0, h0, h1⟩ := moreNar_append.1 h
    obtain ⟨r1, h1, h2⟩ := foldlM_cons_ok.1 h1
    cases h2
    have hs0 := hs.prefix
    have := NarOp.run_Ids h1 (runNar_safe h0 hs0).1 (runNar_WDecl h0) (ih h0 hs0)
    rw [putInAlong_snoc h0]
    simpa [altogether] using this

theorem putInAlong_noSteps {env : Env} {ops : List NarOp} (h : ∀ op ∈ ops, stepsAsked op = 0) (r : Reasoner) :
    putInAlong env r ops ≤ altogether sentencesPut ops := by
  induction ops generalizing r with
  | nil => simp [putInAlong]
  | cons op ops ih =>
    have h1 : putIn env r op = sentencesPut op := by
      have := h op (by simp)
      unfold putIn
      cases op <;> try rfl
      rename_i l d
      simp only [stepsAsked] at this
      have hc : commandOf (trimNewline l) ≠ .step := by intro e; rw [e] at this; simp at this
      simp [hc]
    have h2 := ih (fun o ho => h o (by simp [ho]))
    simp only [putInAlong, altogether, List.map_cons, List.sum_cons] at h2 ⊢
    rw [h1]
    split
    · have := h2 (by assumption); omega
    · omega

end Nar
