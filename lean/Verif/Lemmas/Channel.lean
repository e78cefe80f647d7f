import Verif.Lemmas.Nar2
/-! # Lemmas about the queue of the declarative worker -/
namespace Nar
open Term

theorem buildMsg_msg {cfg : Cfg} {sh sh' : Shared} {msg : Option Msg} (h : buildMsg cfg sh = .ok (sh', msg)) :
    (sh.judgementTasks = [] ∧ msg = none) ∨
    (sh.judgementTasks ≠ [] ∧ ∃ m, msg = some m ∧ m.primary ∈ sh.judgementTasks ∧ m.cycleCounter = sh.cycleCounter) := by
  unfold buildMsg at h
  obtain ⟨⟨sh1, prim⟩, h1, h⟩ := R.bind_ok.1 h
  unfold selectPrimary at h1
  split at h1
  · rename_i hl
    refine .inr ⟨List.length_pos_iff.1 hl, ?_⟩
    obtain ⟨ts, _, h1⟩ := R.bind_ok.1 h1
    obtain ⟨p, hp, h1⟩ := R.bind_ok.1 h1
    cases h1
    obtain ⟨sec, _, h⟩ := R.bind_ok.1 h
    cases h
    exact ⟨_, rfl, List.mem_of_getElem? (indexAt_ok.1 hp), rfl⟩
  · rename_i hl
    cases h1
    cases h
    exact .inl ⟨List.length_eq_zero_iff.1 (by omega), rfl⟩

theorem reasonCycle_msg {cfg : Cfg} {selVal : Rat} {now : Int} {sh sh' : Shared} {msg : Option Msg}
    {calls : List AnswerCall} (h : reasonCycle cfg selVal now sh = .ok (sh', msg, calls)) :
    (sh.judgementTasks = [] ∧ msg = none) ∨
    (sh.judgementTasks ≠ [] ∧ ∃ m, msg = some m ∧ m.primary ∈ sh.judgementTasks ∧ m.cycleCounter = sh.cycleCounter + 1) := by
  unfold reasonCycle at h
  obtain ⟨sh1, h1, h⟩ := R.bind_ok.1 h
  obtain ⟨⟨sh2, c2⟩, h2, h⟩ := R.bind_ok.1 h
  obtain ⟨⟨sh3, m3⟩, h3, h⟩ := R.bind_ok.1 h
  obtain ⟨sh4, h4, h⟩ := R.bind_ok.1 h
  obtain ⟨sh5, h5, h⟩ := R.bind_ok.1 h
  cases h
  obtain ⟨qs, hq⟩ := answerSampled_frame h2
  simp only at hq
  have hj : sh2.judgementTasks = sh.judgementTasks := by
    rw [hq]
    exact (baseCredit_same h1).2.1.trans (creditQuestions_same _).2.1
  have hc : sh2.cycleCounter = sh.cycleCounter + 1 := by
    rw [hq]
    exact (baseCredit_counter h1).trans (creditQuestions_counter _)
  have := buildMsg_msg h3
  rwa [hj, hc] at this

theorem cycle_queue {env : Env} {r r' : Reasoner} {v : Rat} (h : cycle env r v = .ok r') :
    r'.workerAlive = r.workerAlive ∧
    ((r.sh.judgementTasks = [] ∧ r'.queue = r.queue) ∨
     (r.sh.judgementTasks ≠ [] ∧ r.workerAlive = true ∧ ∃ m, r'.queue = r.queue ++ [m] ∧
        m.primary ∈ r.sh.judgementTasks ∧ m.cycleCounter = r'.sh.cycleCounter)) := by
  have ht := cycle_time h
  unfold cycle at h
  obtain ⟨⟨sh, msg, calls⟩, h1, h⟩ := R.bind_ok.1 h
  have hl : r.look.judgementTasks = r.sh.judgementTasks ∧ r.look.cycleCounter = r.sh.cycleCounter := by
    unfold Reasoner.look; split <;> exact ⟨rfl, rfl⟩
  rcases reasonCycle_msg h1 with ⟨k1, k2⟩ | ⟨k1, m, k2, k3, k4⟩
  · subst k2
    cases h
    exact ⟨rfl, .inl ⟨hl.1 ▸ k1, rfl⟩⟩
  · subst k2
    simp only [sendMsg] at h
    split at h
    · rename_i ha
      cases h
      refine ⟨rfl, .inr ⟨hl.1 ▸ k1, ha, m, rfl, hl.1 ▸ k3, ?_⟩⟩
      rw [ht.2.1, k4, hl.2]
    · cases h

theorem declWork_dead {env : Env} {r : Reasoner} (h : r.workerAlive = false) : declWork env r = r := by
  unfold declWork; rw [h]; rfl

theorem declWorkN_dead {env : Env} {r : Reasoner} (h : r.workerAlive = false) (n : Nat) : declWorkN env r n = r := by
  induction n with
  | zero => rfl
  | succ n ih => unfold declWorkN; rw [declWork_dead h]; exact ih

theorem cyclesLoop_dead {env : Env} {draws : Nat → Rat × Nat} {n i : Nat} {r r' : Reasoner}
    (h : cyclesLoop env draws n i r = .ok r') (ha : r.workerAlive = false) :
    r'.workerAlive = false ∧ r'.queue = r.queue := by
  induction n generalizing i r with
  | zero => cases h; exact ⟨ha, rfl⟩
  | succ n ih =>
    unfold cyclesLoop at h
    obtain ⟨r1, h1, h⟩ := R.bind_ok.1 h
    rw [declWorkN_dead ha] at h1
    obtain ⟨k1, k2⟩ := cycle_queue h1
    obtain ⟨g1, g2⟩ := ih h (k1.trans ha)
    refine ⟨g1, g2.trans ?_⟩
    rcases k2 with ⟨_, k2⟩ | ⟨_, k2, _⟩
    · exact k2
    · rw [ha] at k2; cases k2

theorem inputN_queue {env : Env} {r r' : Reasoner} {l : List Char} {rng : List Nat} {b : Bool}
    (h : inputN env r l rng = .ok (r', b)) : r'.queue = r.queue ∧ r'.workerAlive = r.workerAlive := by
  unfold inputN at h
  obtain ⟨p, _, h⟩ := R.bind_ok.1 h
  cases p with
  | none => cases h; exact ⟨rfl, rfl⟩
  | some x =>
    obtain ⟨r1, h1, h⟩ := R.bind_ok.1 h
    cases h
    obtain ⟨k1, k2, _⟩ := inputT2_cases h1
    exact ⟨k1, k2⟩

theorem nlpProcess_queue {env : Env} {rels : List Relation} {rng : List Nat} {r r' : Reasoner}
    (h : nlpProcess env r rels rng = .ok r') : r'.queue = r.queue ∧ r'.workerAlive = r.workerAlive := by
  unfold nlpProcess at h
  refine foldlM_inv (fun x : Reasoner => x.queue = r.queue ∧ x.workerAlive = r.workerAlive) h ⟨rfl, rfl⟩ ?_
  intro rel _ a b ⟨h1, h2⟩ hs
  obtain ⟨line, _, hs⟩ := R.bind_ok.1 hs
  obtain ⟨⟨a1, _⟩, hn, hs⟩ := R.bind_ok.1 hs
  cases hs
  obtain ⟨k1, k2⟩ := inputN_queue hn
  exact ⟨k1.trans h1, k2.trans h2⟩

theorem declEffects_queue {env : Env} {r r' : Reasoner} {ops : List Op} {t : Int} {ex : Option Term}
    (h : declEffects env r ops t ex = .ok r') : r'.queue = r.queue ∧ r'.workerAlive = r.workerAlive := by
  unfold declEffects at h
  split at h
  · cases h; exact ⟨rfl, rfl⟩
  · split at h
    · cases h; exact ⟨rfl, rfl⟩
    · obtain ⟨effs, _, h⟩ := R.bind_ok.1 h
      obtain ⟨sh, _, h⟩ := R.bind_ok.1 h
      cases h; exact ⟨rfl, rfl⟩

theorem procStep1_queue {env : Env} {r r' : Reasoner} {d : LineDraws} (h : procStep1 env r d = .ok r') :
    r'.queue = r.queue ∧ r'.workerAlive = r.workerAlive := by
  unfold procStep1 at h
  obtain ⟨⟨p, ex⟩, _, h⟩ := R.bind_ok.1 h
  exact declEffects_queue (r := { r with proc := p }) h

theorem runCommand_queue {env : Env} {r r' : Reasoner} {d : LineDraws} {s : List Char} {c : Command}
    {out : List (List Char)} (h : runCommand env r d s c = .ok (r', out)) (hc : ∀ arg, c ≠ .cycles arg) :
    r'.queue = r.queue ∧ r'.workerAlive = r.workerAlive := by
  cases c with
  | comment | quit | empty => cases h; exact ⟨rfl, rfl⟩
  | showEvidence => obtain ⟨_, _, h⟩ := R.bind_ok.1 h; cases h; exact ⟨rfl, rfl⟩
  | step =>
    obtain ⟨r1, h1, h⟩ := R.bind_ok.1 h
    cases h
    unfold procStep at h1
    obtain ⟨p, _, h1⟩ := R.bind_ok.1 h1
    rw [procWork_fold] at h1
    exact procStep1_queue (r := { r with proc := d.between.foldl workerStep p }) h1
  | stepA => obtain ⟨_, _, h⟩ := R.bind_ok.1 h; cases h; exact ⟨rfl, rfl⟩
  | stepB => obtain ⟨r1, h1, h⟩ := R.bind_ok.1 h; cases h; exact procStep1_queue h1
  | cycles arg => exact absurd rfl (hc arg)
  | flush => cases h; exact ⟨rfl, rfl⟩
  | register arg =>
    simp only [runCommand] at h
    split at h <;> cases h <;> exact ⟨rfl, rfl⟩
  | babbleOff | babbleOn => cases h; exact ⟨rfl, rfl⟩
  | nlp t => obtain ⟨r1, h1, h⟩ := R.bind_ok.1 h; cases h; exact nlpProcess_queue h1
  | debugTasks => obtain ⟨_, _, h⟩ := R.bind_ok.1 h; cases h; exact ⟨rfl, rfl⟩
  | debugMemory => cases h; exact ⟨rfl, rfl⟩
  | narsese => obtain ⟨⟨r1, b⟩, h1, h⟩ := R.bind_ok.1 h; cases h; exact inputN_queue h1

theorem input_dead {env : Env} {r r' : Reasoner} {l : List Char} {d : LineDraws} {q : Bool} {out : List (List Char)}
    (h : input env r l d = .ok (r', q, out)) (ha : r.workerAlive = false) :
    r'.workerAlive = false ∧ r'.queue = r.queue := by
  obtain ⟨_, hr, _⟩ := input_ok h
  generalize commandOf (trimNewline l) = c at hr
  by_cases hc : ∃ arg, c = .cycles arg
  · obtain ⟨arg, rfl⟩ := hc
    obtain ⟨n, _, hr⟩ := R.bind_ok.1 hr
    obtain ⟨r1, h1, hr⟩ := R.bind_ok.1 hr
    cases hr
    exact cyclesLoop_dead h1 ha
  · obtain ⟨k1, k2⟩ := runCommand_queue hr (fun arg he => hc ⟨arg, he⟩)
    exact ⟨k2.trans ha, k1⟩

theorem run_dead {env : Env} {r r' : Reasoner} {op : NarOp} (h : op.run env r = .ok r') (ha : r.workerAlive = false) :
    r'.workerAlive = false ∧ r'.queue = r.queue := by
  cases op with
  | line l d =>
    obtain ⟨⟨r1, q, out⟩, h1, rfl⟩ := R.map_ok.1 h
    exact input_dead h1 ha
  | tell term punct tv e rng =>
    obtain ⟨k1, k2, _⟩ := inputT2_cases h
    exact ⟨k2.trans ha, k1⟩
  | cycle v =>
    obtain ⟨k1, k2⟩ := cycle_queue h
    refine ⟨k1.trans ha, ?_⟩
    rcases k2 with ⟨_, k2⟩ | ⟨_, k2, _⟩
    · exact k2
    · rw [ha] at k2; cases k2
  | declWork => cases h; rw [declWork_dead ha]; exact ⟨ha, rfl⟩
  | procWork rng => cases h; exact ⟨ha, rfl⟩
  | handlers n => cases h; exact ⟨ha, rfl⟩
  | verbosity v => cases h; exact ⟨ha, rfl⟩
  | workerLost => cases h; exact ⟨rfl, rfl⟩
  | link => cases h; exact ⟨ha, rfl⟩

theorem more_dead {env : Env} {r r' : Reasoner} {ops : List NarOp} (h : moreNar env r ops = .ok r')
    (ha : r.workerAlive = false) : r'.workerAlive = false ∧ r'.queue = r.queue := by
  refine foldlM_inv (fun x : Reasoner => x.workerAlive = false ∧ x.queue = r.queue) h ⟨ha, rfl⟩ ?_
  intro op _ a b ⟨h1, h2⟩ hs
  obtain ⟨k1, k2⟩ := run_dead hs h1
  exact ⟨k1, k2.trans h2⟩

end Nar
