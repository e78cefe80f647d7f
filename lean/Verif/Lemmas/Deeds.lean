import Verif.Spec.Deeds
import Verif.Lemmas.Chance2
import Verif.Lemmas.Counters
/-! # What is done does not depend on what is believed -/
namespace Nar
open Term

/-- two reasoners which act alike -/
structure ActsAlike (r r' : Reasoner) : Prop where
  proc : r.proc = r'.proc
  ids : r.sh.stampIdCounter = r'.sh.stampIdCounter
  beliefs : r.nConceptBeliefs = r'.nConceptBeliefs

theorem ActsAlike.symm {r r' : Reasoner} (h : ActsAlike r r') : ActsAlike r' r := ⟨h.proc.symm, h.ids.symm, h.beliefs.symm⟩

theorem ActsAlike.trans {a b c : Reasoner} (h : ActsAlike a b) (h' : ActsAlike b c) : ActsAlike a c :=
  ⟨h.proc.trans h'.proc, h.ids.trans h'.ids, h.beliefs.trans h'.beliefs⟩

theorem ActsAlike.refl (r : Reasoner) : ActsAlike r r := ⟨rfl, rfl, rfl⟩

theorem cycle_alike {env : Env} {r s : Reasoner} {v : Rat} (h : Nar.cycle env r v = .ok s) : ActsAlike r s := by
  obtain ⟨a1, a2, a3, a4, a5, m, a6, a7⟩ := cycle_frame h
  refine ⟨a1.symm, ?_, a4.symm⟩
  unfold cycle at h
  obtain ⟨⟨sh, msg, calls⟩, h1, h⟩ := R.bind_ok.1 h
  have hs : s.sh = { sh with procMem := r.sh.procMem } := by
    cases msg with
    | none => cases h; rfl
    | some m =>
      simp only [sendMsg] at h
      split at h
      · cases h; rfl
      · cases h
  rw [hs]
  show _ = sh.stampIdCounter
  rw [(Prod.mk.inj (reasonCycle_outer h1)).1]; unfold Reasoner.look; split <;> rfl

theorem work_idCounter {cfg : Cfg} {sh sh' : Shared} {m : Msg} {calls : List AnswerCall} (h : work cfg sh m = .ok (sh', calls)) :
    sh'.stampIdCounter = sh.stampIdCounter := by
  unfold work at h
  obtain ⟨concl, hc, h⟩ := R.bind_ok.1 h
  obtain ⟨p, hp, h⟩ := R.bind_ok.1 h
  obtain ⟨⟨sh1, c1⟩, h1, h⟩ := R.bind_ok.1 h
  obtain ⟨sh2, h2, h⟩ := R.bind_ok.1 h
  cases h
  obtain ⟨qs, rfl⟩ := offerAll_frame h1
  refine foldlM_inv (fun x : Shared => x.stampIdCounter = sh.stampIdCounter) h2 rfl ?_
  intro c _ x x' hx hxx
  rw [(memAddTask_frame hxx).2]
  exact hx

theorem declWork_alike (env : Env) (r : Reasoner) : ActsAlike r (declWork env r) := by
  unfold declWork
  split
  · split
    · exact .refl r
    · split
      · rename_i hw
        exact ⟨rfl, (work_idCounter hw).symm, rfl⟩
      · exact ⟨rfl, rfl, rfl⟩
  · exact .refl r

theorem declWorkN_alike (env : Env) (n : Nat) : ∀ r : Reasoner, ActsAlike r (declWorkN env r n) := by
  induction n with
  | zero => exact fun r => .refl r
  | succ n ih => exact fun r => (declWork_alike env r).trans (ih _)

theorem cyclesLoop_alike (env : Env) {c : Nat → Rat × Nat} (n : Nat) : ∀ (i : Nat) {r s : Reasoner},
    cyclesLoop env c n i r = .ok s → ActsAlike r s := by
  induction n with
  | zero => intro i r s h; cases h; exact .refl r
  | succ n ih =>
    intro i r s h
    obtain ⟨x, k, h⟩ := R.bind_ok.1 h
    exact ((declWorkN_alike env _ r).trans (cycle_alike k)).trans (ih _ h)

theorem OnlyThinks.alike {env : Env} {r s : Reasoner} {op : NarOp} (ho : OnlyThinks env op) (h : op.run env r = .ok s) :
    ActsAlike r s := by
  cases op with
  | cycle v => exact cycle_alike h
  | declWork => cases h; exact declWork_alike env r
  | handlers n => cases h; exact ⟨rfl, rfl, rfl⟩
  | verbosity n => cases h; exact ⟨rfl, rfl, rfl⟩
  | workerLost => cases h; exact ⟨rfl, rfl, rfl⟩
  | link => cases h; exact ⟨rfl, rfl, rfl⟩
  | tell t punct tv ev rng => cases ho
  | procWork rng => cases ho
  | line l d =>
    obtain ⟨x, hx, rfl⟩ := R.map_ok.1 h
    clear h
    have h := hx
    clear hx
    unfold Nar.input at h
    obtain ⟨c, hc, h⟩ := R.bind_ok.1 h
    obtain ⟨⟨s, out⟩, h1, h⟩ := R.bind_ok.1 h
    cases h
    show ActsAlike r s
    rcases ho with ⟨arg, he⟩ | ⟨he, hp⟩ | ⟨c', hm, he⟩
    · cases Except.ok.inj (hc.symm.trans he)
      obtain ⟨n, _, h1⟩ := R.bind_ok.1 h1
      obtain ⟨s', k, h1⟩ := R.bind_ok.1 h1
      cases h1
      exact cyclesLoop_alike env _ _ k
    · cases Except.ok.inj (hc.symm.trans he)
      obtain ⟨y, k, h1⟩ := R.bind_ok.1 h1
      cases h1
      unfold Nar.inputN at k
      rw [hp] at k
      cases k
      exact .refl r
    · cases Except.ok.inj (hc.symm.trans he)
      simp only [List.mem_cons, List.not_mem_nil, or_false] at hm
      rcases hm with rfl | rfl | rfl | rfl | rfl | rfl | rfl
      · cases h1; exact .refl r
      · cases h1; exact .refl r
      · cases h1; exact ⟨rfl, rfl, rfl⟩
      · obtain ⟨_, _, h1⟩ := R.bind_ok.1 h1; cases h1; exact .refl r
      · obtain ⟨_, _, h1⟩ := R.bind_ok.1 h1; cases h1; exact .refl r
      · cases h1; exact .refl r
      · cases h1; exact .refl r

theorem inputT2_ids {env : Env} {r s : Reasoner} {term : Term} {punct : Punct} {tv : Tv} {isEvent : Bool} {rng : List Nat}
    (h : inputT2 env r term punct tv isEvent rng = .ok s) :
    s.sh.stampIdCounter = r.sh.stampIdCounter + 1 ∧ s.nConceptBeliefs = r.nConceptBeliefs := by
  obtain ⟨_, _, _, _, c5, _, _, c8⟩ := inputT2_cases h
  refine ⟨?_, c5⟩
  rcases c8 with e | ⟨e, _⟩
  · rw [e]
  · exact (memAddTask_frame e).2

theorem ForThinking.proc {env : Env} {r s : Reasoner} {term : Term} {punct : Punct} {tv : Tv} {isEvent : Bool} {rng : List Nat}
    (hf : ForThinking term punct isEvent) (h : inputT2 env r term punct tv isEvent rng = .ok s) : s.proc = r.proc := by
  unfold inputT2 at h
  obtain ⟨_, _, h⟩ := R.bind_ok.1 h
  unfold ForThinking at hf
  cases isEvent with
  | true =>
    simp only [if_true] at h hf
    subst hf
    unfold inputEventT at h
    simp only [newEternalSentenceByTv] at h
    unfold addInputTask at h
    obtain ⟨sh, hs, h⟩ := R.bind_ok.1 h
    cases h; rfl
  | false =>
    simp only [Bool.false_eq_true, if_false] at h hf
    unfold inputEternalT at h
    split at h
    · rename_i ht
      replace ht : isTemporalQuestion term = true := ht
      rcases hf with hf | hf
      · rw [ht] at hf; cases hf
      · cases punct with
        | GOAL => cases h; rfl
        | QUESTION => cases h; rfl
        | JUGEMENT => exact absurd rfl hf
    · cases punct with
      | GOAL => cases h; rfl
      | QUESTION => cases h; rfl
      | JUGEMENT =>
        simp only [newEternalSentenceByTv] at h
        unfold addInputTask at h
        obtain ⟨sh, hs, h⟩ := R.bind_ok.1 h
        cases h; rfl

/-- the procedural part after a sentence depends on the procedural part, the counter and the sentence -/
theorem inputT2_alike {env : Env} {r r' s s' : Reasoner} (h : ActsAlike r r') {term : Term} {punct : Punct} {tv : Tv}
    {isEvent : Bool} {rng : List Nat} (h1 : inputT2 env r term punct tv isEvent rng = .ok s)
    (h2 : inputT2 env r' term punct tv isEvent rng = .ok s') : ActsAlike s s' := by
  obtain ⟨a1, a2⟩ := inputT2_ids h1
  obtain ⟨b1, b2⟩ := inputT2_ids h2
  refine ⟨?_, by rw [a1, b1, h.ids], by rw [a2, b2, h.beliefs]⟩
  by_cases hf : ForThinking term punct isEvent
  · rw [hf.proc h1, hf.proc h2, h.proc]
  · clear a1 a2 b1 b2
    unfold inputT2 at h1 h2
    obtain ⟨_, _, h1⟩ := R.bind_ok.1 h1
    obtain ⟨_, _, h2⟩ := R.bind_ok.1 h2
    unfold ForThinking at hf
    cases isEvent with
    | true =>
      simp only [if_true] at h1 h2 hf
      unfold inputEventT at h1 h2
      cases punct with
      | GOAL =>
        obtain ⟨g, hg, h1⟩ := R.bind_ok.1 h1
        obtain ⟨g', hg', h2⟩ := R.bind_ok.1 h2
        simp only at hg hg'
        rw [← h.proc, ← h.ids] at hg'
        cases Except.ok.inj (hg.symm.trans hg')
        cases h1; cases h2
        show { r.proc with goals := g } = { r'.proc with goals := g }
        rw [h.proc]
      | QUESTION => exact absurd rfl hf
      | JUGEMENT =>
        cases h1; cases h2
        show eventHappened r.proc _ = eventHappened r'.proc _
        rw [h.proc]
        rfl
    | false =>
      simp only [Bool.false_eq_true, if_false, not_or] at h1 h2 hf
      obtain ⟨ht, hp⟩ := hf
      have ht : isTemporalQuestion term = true := by simpa using ht
      cases punct with
      | GOAL => exact absurd (by decide) hp
      | QUESTION => exact absurd (by decide) hp
      | JUGEMENT =>
        unfold inputEternalT at h1 h2
        have e : ∀ id : Int, isTemporalQuestion (newEternalSentenceByTv term .JUGEMENT tv ⟨[id]⟩).term = true := fun _ => ht
        rw [if_pos (e _)] at h1 h2
        obtain ⟨g, hg, h1⟩ := R.bind_ok.1 h1
        obtain ⟨g', hg', h2⟩ := R.bind_ok.1 h2
        simp only at hg hg'
        rw [← h.proc, ← h.ids, ← h.beliefs] at hg'
        cases Except.ok.inj (hg.symm.trans hg')
        cases h1; cases h2
        show { r.proc with mem := g } = { r'.proc with mem := g }
        rw [h.proc]

theorem inputN_alike {env : Env} {r r' : Reasoner} (h : ActsAlike r r') {l : List Char} {rng : List Nat} {s s' : Reasoner × Bool}
    (h1 : inputN env r l rng = .ok s) (h2 : inputN env r' l rng = .ok s') : ActsAlike s.1 s'.1 := by
  unfold Nar.inputN at h1 h2
  obtain ⟨p, hp, h1⟩ := R.bind_ok.1 h1
  obtain ⟨p', hp', h2⟩ := R.bind_ok.1 h2
  cases Except.ok.inj (hp.symm.trans hp')
  cases p with
  | none => cases h1; cases h2; exact h
  | some p =>
    obtain ⟨t, tv, punct, ev⟩ := p
    obtain ⟨x, k1, h1⟩ := R.bind_ok.1 h1
    obtain ⟨y, k2, h2⟩ := R.bind_ok.1 h2
    cases h1; cases h2
    exact inputT2_alike h k1 k2

theorem nlp_alike {env : Env} {rng : List Nat} (rels : List Relation) : ∀ {r r' s s' : Reasoner}, ActsAlike r r' →
    nlpProcess env r rels rng = .ok s → nlpProcess env r' rels rng = .ok s' → ActsAlike s s' := by
  unfold nlpProcess
  induction rels with
  | nil => intro r r' s s' h h1 h2; cases h1; cases h2; exact h
  | cons rel rels ih =>
    intro r r' s s' h h1 h2
    obtain ⟨x, k1, h1⟩ := foldlM_cons_ok.1 h1
    obtain ⟨y, k2, h2⟩ := foldlM_cons_ok.1 h2
    obtain ⟨l, hl, k1⟩ := R.bind_ok.1 k1
    obtain ⟨l', hl', k2⟩ := R.bind_ok.1 k2
    cases Except.ok.inj (hl.symm.trans hl')
    obtain ⟨x', e1, hx⟩ := R.bind_ok.1 k1
    obtain ⟨y', e2, hy⟩ := R.bind_ok.1 k2
    cases hx; cases hy
    exact ih (inputN_alike h e1 e2) h1 h2

theorem relates_ids {cfg cfg' : Cfg} {t : Int} (effs : List OpEffect) : ∀ {sh sh' x x' : Shared},
    sh.stampIdCounter = sh'.stampIdCounter → effs.foldlM (applyRelate cfg t) sh = .ok x →
    effs.foldlM (applyRelate cfg' t) sh' = .ok x' → x.stampIdCounter = x'.stampIdCounter := by
  induction effs with
  | nil => intro sh sh' x x' h h1 h2; cases h1; cases h2; exact h
  | cons e effs ih =>
    intro sh sh' x x' h h1 h2
    obtain ⟨y, k1, h1⟩ := foldlM_cons_ok.1 h1
    obtain ⟨y', k2, h2⟩ := foldlM_cons_ok.1 h2
    refine ih ?_ h1 h2
    cases e with
    | inject t => cases k1; cases k2; exact h
    | relate rel =>
      have a := (memAddTask_frame k1).2
      have b := (memAddTask_frame k2).2
      simp only at a b
      rw [a, b, h]

theorem declEffects_alike {env : Env} {r r' s s' : Reasoner} (h : ActsAlike r r') {ops : List Op} {t : Int} {act : Option Term}
    (h1 : declEffects env r ops t act = .ok s) (h2 : declEffects env r' ops t act = .ok s') : ActsAlike s s' := by
  unfold declEffects at h1 h2
  cases act with
  | none => cases h1; cases h2; exact h
  | some term =>
    simp only at h1 h2
    cases hd : decodeOp term with
    | none => rw [hd] at h1 h2; cases h1; cases h2; exact h
    | some a =>
      obtain ⟨args, name⟩ := a
      rw [hd] at h1 h2
      simp only at h1 h2
      obtain ⟨effs, e1, h1⟩ := R.bind_ok.1 h1
      obtain ⟨effs', e2, h2⟩ := R.bind_ok.1 h2
      cases Except.ok.inj (e1.symm.trans e2)
      obtain ⟨sh, k1, h1⟩ := R.bind_ok.1 h1
      obtain ⟨sh', k2, h2⟩ := R.bind_ok.1 h2
      cases h1; cases h2
      exact ⟨h.proc, relates_ids effs h.ids k1 k2, h.beliefs⟩

theorem procStep1_alike {env : Env} {r r' s s' : Reasoner} (h : ActsAlike r r') {d : LineDraws}
    (h1 : procStep1 env r d = .ok s) (h2 : procStep1 env r' d = .ok s') : ActsAlike s s' := by
  unfold procStep1 at h1 h2
  obtain ⟨⟨p, act⟩, k1, h1⟩ := R.bind_ok.1 h1
  obtain ⟨⟨p', act'⟩, k2, h2⟩ := R.bind_ok.1 h2
  rw [← h.proc] at k2 h2
  cases Except.ok.inj (k1.symm.trans k2)
  exact declEffects_alike (r := { r with proc := p }) (r' := { r' with proc := p }) ⟨rfl, h.ids, h.beliefs⟩ h1 h2

theorem between_alike (l : List (List Nat)) : ∀ {r r' : Reasoner}, ActsAlike r r' →
    ActsAlike (l.foldl procWork r) (l.foldl procWork r') := by
  induction l with
  | nil => intro r r' h; exact h
  | cons a l ih =>
    intro r r' h
    exact ih ⟨by show workerStep r.proc a = workerStep r'.proc a; rw [h.proc], h.ids, h.beliefs⟩

theorem procStep_alike {env : Env} {r r' s s' : Reasoner} (h : ActsAlike r r') {d : LineDraws}
    (h1 : procStep env r d = .ok s) (h2 : procStep env r' d = .ok s') : ActsAlike s s' := by
  unfold procStep at h1 h2
  obtain ⟨p, k1, h1⟩ := R.bind_ok.1 h1
  obtain ⟨p', k2, h2⟩ := R.bind_ok.1 h2
  rw [← h.proc] at k2
  cases Except.ok.inj (k1.symm.trans k2)
  exact procStep1_alike (between_alike d.between (r := { r with proc := p }) (r' := { r' with proc := p })
    ⟨rfl, h.ids, h.beliefs⟩) h1 h2

theorem line_alike {env : Env} {r r' : Reasoner} (h : ActsAlike r r') {l : List Char} {d : LineDraws}
    {x x' : Reasoner × Bool × List (List Char)} (h1 : Nar.input env r l d = .ok x) (h2 : Nar.input env r' l d = .ok x') :
    ActsAlike x.1 x'.1 := by
  unfold Nar.input at h1 h2
  obtain ⟨c, hc1, h1⟩ := R.bind_ok.1 h1
  obtain ⟨c', hc2, h2⟩ := R.bind_ok.1 h2
  cases Except.ok.inj (hc1.symm.trans hc2)
  obtain ⟨⟨s, out⟩, g1, k⟩ := R.bind_ok.1 h1
  obtain ⟨⟨s', out'⟩, g2, k'⟩ := R.bind_ok.1 h2
  cases k; cases k'
  clear h1 h2
  show ActsAlike s s'
  cases c with
  | comment => cases g1; cases g2; exact h
  | quit => cases g1; cases g2; exact h
  | empty => cases g1; cases g2; exact h
  | showEvidence =>
    obtain ⟨_, _, g1⟩ := R.bind_ok.1 g1; cases g1
    obtain ⟨_, _, g2⟩ := R.bind_ok.1 g2; cases g2
    exact h
  | step =>
    obtain ⟨_, k1, g1⟩ := R.bind_ok.1 g1; cases g1
    obtain ⟨_, k2, g2⟩ := R.bind_ok.1 g2; cases g2
    exact procStep_alike h k1 k2
  | stepA =>
    obtain ⟨_, k1, g1⟩ := R.bind_ok.1 g1; cases g1
    obtain ⟨_, k2, g2⟩ := R.bind_ok.1 g2; cases g2
    rw [← h.proc] at k2
    exact ⟨Except.ok.inj (k1.symm.trans k2), h.ids, h.beliefs⟩
  | stepB =>
    obtain ⟨_, k1, g1⟩ := R.bind_ok.1 g1; cases g1
    obtain ⟨_, k2, g2⟩ := R.bind_ok.1 g2; cases g2
    exact procStep1_alike h k1 k2
  | cycles arg =>
    obtain ⟨n, e1, g1⟩ := R.bind_ok.1 g1
    obtain ⟨n', e2, g2⟩ := R.bind_ok.1 g2
    obtain ⟨_, k1, g1⟩ := R.bind_ok.1 g1; cases g1
    obtain ⟨_, k2, g2⟩ := R.bind_ok.1 g2; cases g2
    exact ((cyclesLoop_alike env _ _ k1).symm.trans h).trans (cyclesLoop_alike env _ _ k2)
  | flush => cases g1; cases g2; exact ⟨h.proc, h.ids, h.beliefs⟩
  | register arg =>
    simp only [runCommand] at g1 g2
    split at g1
    · rename_i op hop
      rw [hop] at g2
      cases g1; cases g2
      exact ⟨congrArg (fun p : Proc => { p with ops := p.ops ++ [op] }) h.proc, h.ids, h.beliefs⟩
    · rename_i hop
      rw [hop] at g2
      cases g1; cases g2
      exact h
  | babbleOff =>
    cases g1; cases g2
    exact ⟨congrArg (fun p : Proc => { p with enBabbling := false }) h.proc, h.ids, h.beliefs⟩
  | babbleOn =>
    cases g1; cases g2
    exact ⟨congrArg (fun p : Proc => { p with enBabbling := true }) h.proc, h.ids, h.beliefs⟩
  | nlp text =>
    obtain ⟨_, k1, g1⟩ := R.bind_ok.1 g1; cases g1
    obtain ⟨_, k2, g2⟩ := R.bind_ok.1 g2; cases g2
    exact nlp_alike _ h k1 k2
  | debugTasks =>
    obtain ⟨_, _, g1⟩ := R.bind_ok.1 g1; cases g1
    obtain ⟨_, _, g2⟩ := R.bind_ok.1 g2; cases g2
    exact h
  | debugMemory => cases g1; cases g2; exact h
  | narsese =>
    obtain ⟨x, k1, g1⟩ := R.bind_ok.1 g1; cases g1
    obtain ⟨y, k2, g2⟩ := R.bind_ok.1 g2; cases g2
    exact inputN_alike h k1 k2

theorem TellsBelief.told {env : Env} {r s : Reasoner} {op : NarOp} (ho : TellsBelief env op) (h : op.run env r = .ok s) :
    s.proc = r.proc ∧ s.sh.stampIdCounter = r.sh.stampIdCounter + 1 ∧ s.nConceptBeliefs = r.nConceptBeliefs := by
  cases op with
  | tell t punct tv ev rng => exact ⟨ForThinking.proc ho h, inputT2_ids h⟩
  | line l d =>
    obtain ⟨hd, t, tv, punct, ev, hp, hf⟩ := ho
    obtain ⟨x, hx, rfl⟩ := R.map_ok.1 h
    clear h
    have h := hx
    clear hx
    unfold Nar.input at h
    obtain ⟨c, hc, h⟩ := R.bind_ok.1 h
    cases Except.ok.inj (hd.symm.trans hc)
    obtain ⟨⟨s, out⟩, g, k⟩ := R.bind_ok.1 h
    cases k
    clear h
    obtain ⟨y, k, g⟩ := R.bind_ok.1 g
    cases g
    unfold Nar.inputN at k
    rw [hp] at k
    obtain ⟨z, e, hz⟩ := R.bind_ok.1 k
    cases Except.ok.inj e
    obtain ⟨w, e, hz⟩ := R.bind_ok.1 hz
    cases hz
    exact ⟨ForThinking.proc hf e, inputT2_ids e⟩
  | cycle v => cases ho
  | declWork => cases ho
  | procWork rng => cases ho
  | handlers n => cases ho
  | verbosity n => cases ho
  | workerLost => cases ho
  | link => cases ho

theorem NarOp.run_alike {env : Env} {r r' s s' : Reasoner} (h : ActsAlike r r') {op : NarOp} (h1 : op.run env r = .ok s)
    (h2 : op.run env r' = .ok s') : ActsAlike s s' := by
  have think : OnlyThinks env op → ActsAlike s s' := fun ho => ((ho.alike h1).symm.trans h).trans (ho.alike h2)
  cases op with
  | line l d =>
    obtain ⟨x, hx, rfl⟩ := R.map_ok.1 h1
    obtain ⟨y, hy, rfl⟩ := R.map_ok.1 h2
    exact line_alike h hx hy
  | tell t punct tv ev rng => exact inputT2_alike h h1 h2
  | procWork rng =>
    cases h1; cases h2
    exact ⟨by show workerStep r.proc rng = workerStep r'.proc rng; rw [h.proc], h.ids, h.beliefs⟩
  | cycle v => exact think trivial
  | declWork => exact think trivial
  | handlers n => exact think trivial
  | verbosity n => exact think trivial
  | workerLost => exact think trivial
  | link => exact think trivial

theorem SameDeeds.more {env : Env} {ops ops' : List NarOp} (ho : SameDeeds env ops ops') : ∀ {r r' s s' : Reasoner},
    ActsAlike r r' → moreNar env r ops = .ok s → moreNar env r' ops' = .ok s' → ActsAlike s s' := by
  induction ho with
  | nil => intro r r' s s' h h1 h2; cases h1; cases h2; exact h
  | same op _ ih =>
    intro r r' s s' h h1 h2
    obtain ⟨x, k1, h1⟩ := foldlM_cons_ok.1 h1
    obtain ⟨y, k2, h2⟩ := foldlM_cons_ok.1 h2
    exact ih (NarOp.run_alike h k1 k2) h1 h2
  | instead ha hb _ ih =>
    intro r r' s s' h h1 h2
    obtain ⟨x, k1, h1⟩ := foldlM_cons_ok.1 h1
    obtain ⟨y, k2, h2⟩ := foldlM_cons_ok.1 h2
    obtain ⟨a1, a2, a3⟩ := ha.told k1
    obtain ⟨b1, b2, b3⟩ := hb.told k2
    exact ih ⟨by rw [a1, b1, h.proc], by rw [a2, b2, h.ids], by rw [a3, b3, h.beliefs]⟩ h1 h2
  | left ha _ ih =>
    intro r r' s s' h h1 h2
    obtain ⟨x, k1, h1⟩ := foldlM_cons_ok.1 h1
    exact ih ((ha.alike k1).symm.trans h) h1 h2
  | right hb _ ih =>
    intro r r' s s' h h1 h2
    obtain ⟨y, k2, h2⟩ := foldlM_cons_ok.1 h2
    exact ih (h.trans (hb.alike k2)) h1 h2

end Nar
