import Verif.Lemmas.Sent
import Verif.Lemmas.Stamp
import Verif.Lemmas.Dispatch
import Verif.Spec.Nar
/-! # Lemmas about the reasoner as a whole -/
namespace Nar
open Term

/-! ## stamps -/

/-- the sentence rests on evidence ids below `n` -/
def StampOk (n : Int) (s : Sentence) : Prop :=
  s.stamp.ids ≠ [] ∧ s.stamp.ids.length ≤ 120 ∧ s.stamp.ids.Nodup ∧ ∀ id ∈ s.stamp.ids, 0 ≤ id ∧ id < n

theorem StampOk.mono {n n' : Int} (h : n ≤ n') {s : Sentence} (hs : StampOk n s) : StampOk n' s :=
  ⟨hs.1, hs.2.1, hs.2.2.1, fun i hi => ⟨(hs.2.2.2 i hi).1, by have := (hs.2.2.2 i hi).2; omega⟩⟩

theorem stampOk_merge {n : Int} {a b c : Sentence} (ha : StampOk n a) (hb : StampOk n b)
    (hs : ¬ SharesEvidence a b) (hc : c.stamp = Stamp.merge a.stamp b.stamp) : StampOk n c := by
  have hp := Stamp.interleave_perm a.stamp.ids b.stamp.ids
  have he : c.stamp.ids = (Stamp.interleave a.stamp.ids b.stamp.ids).take 120 := by rw [hc, Stamp.merge_ids]
  unfold StampOk
  rw [he]
  refine ⟨?_, by simp, ?_, ?_⟩
  · intro h
    have h1 := congrArg List.length h
    rw [List.length_take, Stamp.interleave_length] at h1
    have := List.length_pos_iff.2 ha.1
    rw [List.length_nil] at h1; omega
  · refine List.Nodup.sublist (List.take_sublist _ _) ?_
    rw [hp.nodup_iff, List.nodup_append]
    refine ⟨ha.2.2.1, hb.2.2.1, ?_⟩
    intro x hx y hy hxy
    subst hxy
    exact hs ⟨x, hx, hy⟩
  · intro i hi
    have := hp.mem_iff.1 (List.mem_of_mem_take hi)
    rcases List.mem_append.1 this with h | h
    · exact ha.2.2.2 i h
    · exact hb.2.2.2 i h

theorem follows_stamp {p s c : Sentence} {w : Rat} (h : Follows p s c w) :
    ¬ SharesEvidence p s ∧ c.stamp = Stamp.merge p.stamp s.stamp := by
  obtain ⟨cs, b, h, hm⟩ := h
  unfold inference at h
  obtain ⟨_, _, h⟩ := R.bind_ok.1 h
  obtain ⟨_, _, h⟩ := R.bind_ok.1 h
  unfold inference2 at h
  obtain ⟨⟨l, were⟩, _, h⟩ := R.bind_ok.1 h
  simp only at h
  split at h
  · cases h; cases hm
  · rename_i hn
    cases h
    obtain ⟨x, hx, hxe⟩ := List.mem_map.1 hm
    have hc := (Prod.mk.inj hxe).1
    refine ⟨?_, by rw [← hc]; rfl⟩
    intro hsh
    apply hn
    have h1 : Stamp.checkOverlap p.stamp s.stamp = true := (Stamp.checkOverlap_iff _ _).2 hsh
    rw [h1, List.length_map, Bool.and_true, decide_eq_true_eq]
    exact List.length_pos_of_mem hx

theorem followsAlone_stamp {p c : Sentence} {w : Rat} (h : FollowsAlone p c w) : c.stamp = p.stamp := by
  obtain ⟨cs, h, hm⟩ := h
  unfold infSinglePremise2 at h
  obtain ⟨tv, _, h⟩ := R.bind_ok.1 h
  obtain ⟨l, hl, h⟩ := R.bind_ok.1 h
  cases h
  obtain ⟨x, hx, hxe⟩ := List.mem_map.1 hm
  rw [← (Prod.mk.inj hxe).1]; rfl

theorem stampOk_closed (n : Int) : SentClosed (StampOk n) where
  pool := by
    intro _ b s r hb hs _ hn hr
    obtain ⟨_, _, _, _, _, _, rfl⟩ := revisedBelief_ok hr
    exact stampOk_merge hb hs hn rfl
  used := fun s u h => h
  two := fun p s c w hp hs h => stampOk_merge hp hs (follows_stamp h).1 (follows_stamp h).2
  alone := by
    intro p c w hp h
    unfold StampOk
    rw [followsAlone_stamp h]; exact hp

/-! ## what the parts of an action leave alone -/

/-- what a sentence told adds to declarative knowledge -/
theorem inputT2_cases {env : Env} {r r' : Reasoner} {term : Term} {punct : Punct} {tv : Tv} {isEvent : Bool}
    {rng : List Nat} (h : inputT2 env r term punct tv isEvent rng = .ok r') :
    r'.queue = r.queue ∧ r'.workerAlive = r.workerAlive ∧ r'.answers = r.answers ∧ r'.nGlobal = r.nGlobal ∧
    r'.nConceptBeliefs = r.nConceptBeliefs ∧ r'.maxComplexity = r.maxComplexity ∧
    r'.linked = r.linked ∧
    (r'.sh = { r.sh with stampIdCounter := r.sh.stampIdCounter + 1 } ∨
     (memAddTask (r.cfg env) { r.sh with stampIdCounter := r.sh.stampIdCounter + 1 }
        (newEternalSentenceByTv term punct tv ⟨[r.sh.stampIdCounter]⟩) true 1 r.proc.t = .ok r'.sh ∧
      r'.proc = r.proc ∧ ((punct = .QUESTION ∧ isEvent = true) ∨
        (punct = .JUGEMENT ∧ isEvent = false ∧ ¬ IsTemporal term)))) := by
  unfold inputT2 at h
  obtain ⟨_, _, h⟩ := R.bind_ok.1 h
  cases isEvent with
  | true =>
    simp only [if_true] at h
    unfold inputEventT at h
    cases punct with
    | GOAL =>
      obtain ⟨g, hg, h⟩ := R.bind_ok.1 h
      cases h; simp
    | QUESTION =>
      simp only [newEternalSentenceByTv] at h
      unfold addInputTask at h
      obtain ⟨sh, hs, h⟩ := R.bind_ok.1 h
      cases h
      exact ⟨rfl, rfl, rfl, rfl, rfl, rfl, rfl, .inr ⟨hs, rfl, .inl ⟨rfl, rfl⟩⟩⟩
    | JUGEMENT => cases h; simp
  | false =>
    simp only [Bool.false_eq_true, if_false] at h
    unfold inputEternalT at h
    split at h
    · cases punct with
      | GOAL => cases h; simp
      | QUESTION => cases h; simp
      | JUGEMENT =>
        obtain ⟨g, hg, h⟩ := R.bind_ok.1 h
        cases h; simp
    · rename_i hn
      cases punct with
      | GOAL => cases h; simp
      | QUESTION => cases h; simp
      | JUGEMENT =>
        simp only [newEternalSentenceByTv] at h
        unfold addInputTask at h
        obtain ⟨sh, hs, h⟩ := R.bind_ok.1 h
        cases h
        refine ⟨rfl, rfl, rfl, rfl, rfl, rfl, rfl, .inr ⟨hs, rfl, .inr ⟨rfl, rfl, ?_⟩⟩⟩
        rw [← isTemporal_iff]
        exact hn

/-- an answer has the property `P`, or procedural memory is linked, the question is temporal and the answer has `Q` -/
def AnsL (P Q : Sentence → Prop) (l : Bool) (c : AnswerCall) : Prop :=
  P c.answer ∨ (l = true ∧ IsTemporal c.question ∧ Q c.answer)

theorem AnsL.mono {P P' Q : Sentence → Prop} {l : Bool} {c : AnswerCall} (h : ∀ s, P s → P' s) (hc : AnsL P Q l c) :
    AnsL P' Q l c := hc.imp (h _) id

/-- everything known has the property `P`, and all answers given had it, or they answered a temporal question from the
linked procedural memory and had the property `Q` -/
structure RInv (P : Int → Sentence → Prop) (Q : Sentence → Prop) (r : Reasoner) : Prop where
  all : AllP (P r.sh.stampIdCounter) (fun _ => False) r.sh
  answers : ∀ c ∈ r.answers, AnsL (P r.sh.stampIdCounter) Q r.linked c
  link : r.sh.procMem = []
  pos : 0 ≤ r.sh.stampIdCounter

/-- the property is about evidence ids below a bound -/
structure IdClosed (P : Int → Sentence → Prop) : Prop where
  closed : ∀ n, SentClosed (P n)
  mono : ∀ n n' s, n ≤ n' → P n s → P n' s

theorem RInv.of_outer {P : Int → Sentence → Prop} {Q : Sentence → Prop} {r : Reasoner} (h : RInv P Q r) {sh : Shared} {calls : List AnswerCall}
    (ho : sh.outer = r.sh.outer) (ha : AllP (P r.sh.stampIdCounter) (fun _ => False) sh)
    (hc : ∀ c ∈ calls, AnsL (P r.sh.stampIdCounter) Q r.linked c) (r' : Reasoner) (hr : r'.sh = sh)
    (hl : r'.linked = r.linked) (hans : r'.answers = r.answers ++ calls) : RInv P Q r' := by
  have h1 : sh.stampIdCounter = r.sh.stampIdCounter := (Prod.mk.inj ho).1
  have h2 : sh.procMem = r.sh.procMem := (Prod.mk.inj ho).2
  refine ⟨by rw [hr, h1]; exact ha, ?_, by rw [hr, h2]; exact h.link, by rw [hr, h1]; exact h.pos⟩
  rw [hr, h1, hans, hl]
  intro c hc'
  rcases List.mem_append.1 hc' with hc' | hc'
  · exact h.answers c hc'
  · exact hc c hc'

theorem view_MemP {Q : Sentence → Prop} {r : Reasoner} (hQ : ∀ s, KnowsRule r s → Q s) : MemP Q r.proc.mem.view := by
  intro c hc
  obtain ⟨pc, hpc, rfl⟩ := List.mem_map.1 hc
  constructor
  · intro b hb
    obtain ⟨ref, hr, hb⟩ := List.mem_filterMap.1 hb
    exact hQ b ⟨pc, hpc, ref, .inl hr, hb⟩
  · intro b hb
    obtain ⟨ref, hr, hb⟩ := List.mem_filterMap.1 hb
    exact hQ b ⟨pc, hpc, ref, .inr hr, hb⟩

theorem cycle_same {env : Env} {r r' : Reasoner} {v : Rat} (h : cycle env r v = .ok r') :
    r'.proc = r.proc ∧ r'.linked = r.linked := by
  unfold cycle at h
  obtain ⟨⟨sh, msg, calls⟩, h1, h⟩ := R.bind_ok.1 h
  cases msg with
  | none => cases h; exact ⟨rfl, rfl⟩
  | some m =>
    simp only [sendMsg] at h
    split at h
    · cases h; exact ⟨rfl, rfl⟩
    · cases h

theorem declWork_same (env : Env) (r : Reasoner) :
    (declWork env r).proc = r.proc ∧ (declWork env r).linked = r.linked := by
  unfold declWork
  split
  · split
    · exact ⟨rfl, rfl⟩
    · split <;> exact ⟨rfl, rfl⟩
  · exact ⟨rfl, rfl⟩

theorem declWorkN_same (env : Env) (n : Nat) : ∀ r : Reasoner,
    (declWorkN env r n).proc = r.proc ∧ (declWorkN env r n).linked = r.linked := by
  induction n with
  | zero => exact fun r => ⟨rfl, rfl⟩
  | succ n ih =>
    intro r
    obtain ⟨h1, h2⟩ := ih (declWork env r)
    obtain ⟨h3, h4⟩ := declWork_same env r
    exact ⟨h1.trans h3, h2.trans h4⟩

theorem knowsRule_proc {r r' : Reasoner} (h : r'.proc = r.proc) {s : Sentence} (hs : KnowsRule r' s) : KnowsRule r s := by
  unfold KnowsRule at hs ⊢
  rwa [h] at hs

theorem cycle_RInv {P : Int → Sentence → Prop} {Q : Sentence → Prop} (hP : IdClosed P) {env : Env} {r r' : Reasoner} {v : Rat}
    (h : cycle env r v = .ok r') (hQ : ∀ s, KnowsRule r s → Q s) (hi : RInv P Q r) :
    RInv P Q r' ∧ r'.sh.stampIdCounter = r.sh.stampIdCounter := by
  have hsame := cycle_same h
  unfold cycle at h
  obtain ⟨⟨sh, msg, calls⟩, h1, h⟩ := R.bind_ok.1 h
  have ho := reasonCycle_outer h1
  have hc : sh.stampIdCounter = r.sh.stampIdCounter := by
    rw [(Prod.mk.inj ho).1]; unfold Reasoner.look; split <;> rfl
  have key : r'.sh = { sh with procMem := r.sh.procMem } ∧ r'.answers = r.answers ++ calls := by
    cases msg with
    | none => cases h; exact ⟨rfl, rfl⟩
    | some m =>
      simp only [sendMsg] at h
      split at h
      · cases h; exact ⟨rfl, rfl⟩
      · cases h
  have hk : AllP (P r.sh.stampIdCounter) (fun _ => False) { sh with procMem := r.sh.procMem } ∧
      ∀ c ∈ calls, AnsL (P r.sh.stampIdCounter) Q r.linked c := by
    cases hl : r.linked with
    | false =>
      rw [show r.look = r.sh by unfold Reasoner.look; rw [hl]; rfl] at h1
      obtain ⟨k1, k2⟩ := reasonCycle_P (hP.closed _) h1 hi.all
      refine ⟨⟨k1.1, k1.2.1, hi.all.2.2⟩, fun c hcm => ?_⟩
      rcases k2 c hcm with h | h
      · exact .inl h
      · exact h.2.elim
    | true =>
      rw [show r.look = { r.sh with procMem := r.proc.mem.view } by unfold Reasoner.look; rw [hl]; rfl] at h1
      obtain ⟨k1, k2⟩ := reasonCycle_P (Q := Q) (hP.closed _) h1 ⟨hi.all.1, hi.all.2.1, view_MemP hQ⟩
      refine ⟨⟨k1.1, k1.2.1, hi.all.2.2⟩, fun c hcm => ?_⟩
      rcases k2 c hcm with h | h
      · exact .inl h
      · exact .inr ⟨rfl, h⟩
  refine ⟨hi.of_outer (by unfold Shared.outer; rw [← hc]) hk.1 hk.2 r' key.1 hsame.2 key.2, by rw [key.1]; exact hc⟩

theorem declWork_RInv {P : Int → Sentence → Prop} {Q : Sentence → Prop} (hP : IdClosed P) (env : Env) {r : Reasoner}
    (hi : RInv P Q r) :
    RInv P Q (declWork env r) ∧ (declWork env r).sh.stampIdCounter = r.sh.stampIdCounter := by
  unfold declWork
  split
  · split
    · exact ⟨hi, rfl⟩
    · split
      · rename_i m rest hq sh calls hw
        obtain ⟨k1, k2⟩ := work_P (hP.closed _) hw hi.all
        have ho := work_outer hw
        refine ⟨hi.of_outer ho k1 (fun c hc => ?_) _ rfl rfl rfl, (Prod.mk.inj ho).1⟩
        rcases k2 c hc with h | h
        · exact .inl h
        · exact h.2.elim
      · exact ⟨⟨hi.all, hi.answers, hi.link, hi.pos⟩, rfl⟩
  · exact ⟨hi, rfl⟩

theorem declWorkN_RInv {P : Int → Sentence → Prop} {Q : Sentence → Prop} (hP : IdClosed P) (env : Env) {r : Reasoner} (n : Nat)
    (hi : RInv P Q r) : RInv P Q (declWorkN env r n) ∧ (declWorkN env r n).sh.stampIdCounter = r.sh.stampIdCounter := by
  induction n generalizing r with
  | zero => exact ⟨hi, rfl⟩
  | succ n ih =>
    obtain ⟨h1, h2⟩ := declWork_RInv hP env hi
    obtain ⟨h3, h4⟩ := ih h1
    exact ⟨h3, h4.trans h2⟩

theorem cyclesLoop_RInv {P : Int → Sentence → Prop} {Q : Sentence → Prop} (hP : IdClosed P) {env : Env} {draws : Nat → Rat × Nat}
    {n i : Nat} {r r' : Reasoner} (h : cyclesLoop env draws n i r = .ok r') (hQ : ∀ s, KnowsRule r s → Q s) (hi : RInv P Q r) :
    RInv P Q r' ∧ r'.sh.stampIdCounter = r.sh.stampIdCounter := by
  induction n generalizing r i with
  | zero => cases h; exact ⟨hi, rfl⟩
  | succ n ih =>
    unfold cyclesLoop at h
    obtain ⟨r1, h1, h⟩ := R.bind_ok.1 h
    obtain ⟨k1, k2⟩ := declWorkN_RInv hP env (draws i).2 hi
    have hp := (declWorkN_same env (draws i).2 r).1
    obtain ⟨k3, k4⟩ := cycle_RInv hP h1 (fun s hs => hQ s (knowsRule_proc hp hs)) k1
    obtain ⟨k5, k6⟩ := ih h (fun s hs => hQ s (knowsRule_proc ((cycle_same h1).1.trans hp) hs)) k3
    exact ⟨k5, by rw [k6, k4, k2]⟩

theorem AllP.counter {P Q : Sentence → Prop} {sh : Shared} (h : AllP P Q sh) (n : Int) :
    AllP P Q { sh with stampIdCounter := n } := h

/-- adding one new sentence with a new evidence id -/
theorem tellTask_RInv {P : Int → Sentence → Prop} {Q : Sentence → Prop} (hP : IdClosed P) {cfg : Cfg} {r r' : Reasoner} {sh' : Shared}
    {s : Sentence} {now : Int}
    (h : memAddTask cfg { r.sh with stampIdCounter := r.sh.stampIdCounter + 1 } s true 1 now = .ok sh')
    (hs : s.punct = .JUGEMENT → P (r.sh.stampIdCounter + 1) s) (hi : RInv P Q r) (hr : r'.sh = sh') (hl : r'.linked = r.linked)
    (ha : r'.answers = r.answers) : RInv P Q r' ∧ r'.sh.stampIdCounter = r.sh.stampIdCounter + 1 := by
  have ho := memAddTask_outer h
  have h1 : sh'.stampIdCounter = r.sh.stampIdCounter + 1 := (Prod.mk.inj ho).1
  have h2 : sh'.procMem = r.sh.procMem := (Prod.mk.inj ho).2
  have hm : ∀ s, P r.sh.stampIdCounter s → P (r.sh.stampIdCounter + 1) s := fun s => hP.mono _ _ s (by omega)
  refine ⟨⟨?_, ?_, by rw [hr, h2]; exact hi.link, by rw [hr, h1]; have := hi.pos; omega⟩, by rw [hr, h1]⟩
  · rw [hr, h1]
    exact memAddTask_P (hP.closed _) h ((hi.all.mono hm).counter _) hs
  · rw [hr, h1, ha, hl]
    exact fun c hc => (hi.answers c hc).mono hm

theorem inputT2_RInv {P : Int → Sentence → Prop} {Q : Sentence → Prop} (hP : IdClosed P) {env : Env} {r r' : Reasoner} {term : Term}
    {punct : Punct} {tv : Tv} {isEvent : Bool} {rng : List Nat}
    (h : inputT2 env r term punct tv isEvent rng = .ok r')
    (hs : punct = .JUGEMENT → isEvent = false → ¬ IsTemporal term →
      P (r.sh.stampIdCounter + 1) (newEternalSentenceByTv term .JUGEMENT tv ⟨[r.sh.stampIdCounter]⟩))
    (hi : RInv P Q r) : RInv P Q r' ∧ r'.sh.stampIdCounter = r.sh.stampIdCounter + 1 := by
  obtain ⟨_, _, ha, _, _, _, hl, hsh | ⟨hadd, _, hk⟩⟩ := inputT2_cases h
  · have hm : ∀ s, P r.sh.stampIdCounter s → P (r.sh.stampIdCounter + 1) s := fun s => hP.mono _ _ s (by omega)
    refine ⟨⟨?_, ?_, by rw [hsh]; exact hi.link, by rw [hsh]; have := hi.pos; simp only; omega⟩, by rw [hsh]⟩
    · rw [hsh]; exact (hi.all.mono hm).counter _
    · rw [hsh, ha, hl]; exact fun c hc => (hi.answers c hc).mono hm
  · refine tellTask_RInv hP hadd ?_ hi rfl hl ha
    intro hj
    rcases hk with ⟨rfl, _⟩ | ⟨rfl, he, ht⟩
    · cases hj
    · exact hs rfl he ht

theorem inputN_RInv {P : Int → Sentence → Prop} {Q : Sentence → Prop} (hP : IdClosed P) {env : Env} {r r' : Reasoner} {txt : List Char}
    {ok : Bool} {rng : List Nat} (h : inputN env r txt rng = .ok (r', ok))
    (hs : ∀ term tv, parseNarsese env.pf txt = .ok (some (term, tv, .JUGEMENT, false)) → ¬ IsTemporal term →
      ∀ n, r.sh.stampIdCounter ≤ n → P (n + 1) (newEternalSentenceByTv term .JUGEMENT tv ⟨[n]⟩))
    (hi : RInv P Q r) : RInv P Q r' ∧ r.sh.stampIdCounter ≤ r'.sh.stampIdCounter := by
  unfold inputN at h
  obtain ⟨p, hp, h⟩ := R.bind_ok.1 h
  split at h
  · rename_i term tv punct isEvent
    obtain ⟨r1, h1, h⟩ := R.bind_ok.1 h
    cases h
    have := inputT2_RInv hP h1 (by rintro rfl rfl ht; exact hs term tv hp ht _ (le_refl _)) hi
    exact ⟨this.1, by rw [this.2]; omega⟩
  · cases h; exact ⟨hi, le_refl _⟩

theorem nlpProcess_RInv {P : Int → Sentence → Prop} {Q : Sentence → Prop} (hP : IdClosed P) {env : Env} {r r' : Reasoner}
    {rels : List Relation} {rng : List Nat} (h : nlpProcess env r rels rng = .ok r')
    (hs : ∀ rel ∈ rels, ∀ txt, convRelToNarsese env.sf rel = .ok txt → ∀ term tv,
      parseNarsese env.pf txt = .ok (some (term, tv, .JUGEMENT, false)) → ¬ IsTemporal term →
      ∀ n, r.sh.stampIdCounter ≤ n → P (n + 1) (newEternalSentenceByTv term .JUGEMENT tv ⟨[n]⟩))
    (hi : RInv P Q r) : RInv P Q r' ∧ r.sh.stampIdCounter ≤ r'.sh.stampIdCounter := by
  unfold nlpProcess at h
  refine foldlM_inv (fun x : Reasoner => RInv P Q x ∧ r.sh.stampIdCounter ≤ x.sh.stampIdCounter) h ⟨hi, le_refl _⟩ ?_
  rintro rel hrel a b ⟨ha, hle⟩ hstep
  obtain ⟨txt, ht, hstep⟩ := R.bind_ok.1 hstep
  obtain ⟨⟨r1, ok⟩, h1, hstep⟩ := R.bind_ok.1 hstep
  cases hstep
  obtain ⟨k1, k2⟩ := inputN_RInv hP h1 (fun term tv hp hnt n hn => hs rel hrel txt ht term tv hp hnt n (by omega)) ha
  exact ⟨k1, by omega⟩

theorem applyRelate_RInv {P : Int → Sentence → Prop} {Q : Sentence → Prop} (hP : IdClosed P) {cfg : Cfg} {t : Int} {r : Reasoner}
    {sh' : Shared} {eff : OpEffect} (h : applyRelate cfg t r.sh eff = .ok sh')
    (hs : ∀ rel, eff = .relate rel → ∀ n, r.sh.stampIdCounter ≤ n → P (n + 1) (newEternalSentenceByTv rel .JUGEMENT ⟨1, 9/10⟩ ⟨[n]⟩))
    (hi : RInv P Q r) : RInv P Q { r with sh := sh' } ∧ r.sh.stampIdCounter ≤ sh'.stampIdCounter := by
  cases eff with
  | inject e => cases h; exact ⟨hi, le_refl _⟩
  | relate rel =>
    have := tellTask_RInv (r' := { r with sh := sh' }) hP h (fun _ => hs rel rfl _ (le_refl _)) hi rfl rfl rfl
    exact ⟨this.1, by have := this.2; simp only at this; omega⟩

theorem declEffects_RInv {P : Int → Sentence → Prop} {Q : Sentence → Prop} (hP : IdClosed P) {env : Env} {r r' : Reasoner} {ops : List Op}
    {t : Int} {executed : Option Term} (h : declEffects env r ops t executed = .ok r')
    (hs : ∀ act args name effs, executed = some act → decodeOp act = some (args, name) → opEffects ops name args = .ok effs →
      ∀ rel, OpEffect.relate rel ∈ effs → ∀ n, r.sh.stampIdCounter ≤ n → P (n + 1) (newEternalSentenceByTv rel .JUGEMENT ⟨1, 9/10⟩ ⟨[n]⟩))
    (hi : RInv P Q r) : RInv P Q r' ∧ r.sh.stampIdCounter ≤ r'.sh.stampIdCounter := by
  unfold declEffects at h
  split at h
  · cases h; exact ⟨hi, le_refl _⟩
  · rename_i act
    split at h
    · cases h; exact ⟨hi, le_refl _⟩
    · rename_i args name hd
      obtain ⟨effs, he, h⟩ := R.bind_ok.1 h
      obtain ⟨sh, h1, h⟩ := R.bind_ok.1 h
      cases h
      refine foldlM_inv (fun x : Shared => RInv P Q { r with sh := x } ∧ r.sh.stampIdCounter ≤ x.stampIdCounter) h1
        ⟨hi, le_refl _⟩ ?_
      rintro eff hmem a b ⟨ha, hle⟩ hstep
      obtain ⟨k1, k2⟩ := applyRelate_RInv (r := { r with sh := a }) hP hstep
        (by rintro rel rfl n hn; exact hs act args name effs rfl hd he rel hmem n (by simp only at hn; omega)) ha
      exact ⟨k1, by simp only at k2; omega⟩

theorem RInv.proc {P : Int → Sentence → Prop} {Q : Sentence → Prop} {r : Reasoner} (hi : RInv P Q r) (p : Proc) : RInv P Q { r with proc := p } :=
  ⟨hi.all, hi.answers, hi.link, hi.pos⟩

theorem procStep1_RInv {P : Int → Sentence → Prop} {Q : Sentence → Prop} (hP : IdClosed P) {env : Env} {r r' : Reasoner} {d : LineDraws}
    (h : procStep1 env r d = .ok r')
    (hs : ∀ p2 act args name effs, narStep1 libCall env.goalDecay r.proc d.decide d.infs = .ok (p2, some act) →
      decodeOp act = some (args, name) → opEffects r.proc.ops name args = .ok effs →
      ∀ rel, OpEffect.relate rel ∈ effs → ∀ n, r.sh.stampIdCounter ≤ n → P (n + 1) (newEternalSentenceByTv rel .JUGEMENT ⟨1, 9/10⟩ ⟨[n]⟩))
    (hi : RInv P Q r) : RInv P Q r' ∧ r.sh.stampIdCounter ≤ r'.sh.stampIdCounter := by
  unfold procStep1 at h
  obtain ⟨⟨p, executed⟩, hn, h⟩ := R.bind_ok.1 h
  refine declEffects_RInv (r := { r with proc := p }) hP h ?_ (hi.proc p)
  rintro act args name effs rfl hd he
  exact hs p act args name effs hn hd he

theorem procWork_fold (l : List (List Nat)) (r : Reasoner) : l.foldl procWork r = { r with proc := l.foldl workerStep r.proc } := by
  induction l generalizing r with
  | nil => rfl
  | cons a l ih => exact (ih (procWork r a)).trans rfl

theorem procStep_RInv {P : Int → Sentence → Prop} {Q : Sentence → Prop} (hP : IdClosed P) {env : Env} {r r' : Reasoner} {d : LineDraws}
    (h : procStep env r d = .ok r')
    (hs : ∀ rel, StepReports env r d rel → ∀ n, r.sh.stampIdCounter ≤ n → P (n + 1) (newEternalSentenceByTv rel .JUGEMENT ⟨1, 9/10⟩ ⟨[n]⟩))
    (hi : RInv P Q r) : RInv P Q r' ∧ r.sh.stampIdCounter ≤ r'.sh.stampIdCounter := by
  unfold procStep at h
  obtain ⟨p, h0, h⟩ := R.bind_ok.1 h
  rw [procWork_fold] at h
  refine procStep1_RInv (r := { r with proc := d.between.foldl workerStep p }) hP h ?_ (hi.proc _)
  intro p2 act args name effs h1 hd he rel hrel
  exact hs rel ⟨p, _, p2, act, args, name, effs, h0, rfl, h1, hd, he, hrel⟩

theorem runCommand_RInv {P : Int → Sentence → Prop} {Q : Sentence → Prop} (hP : IdClosed P) {env : Env} {r r' : Reasoner} {d : LineDraws}
    {s : List Char} {c : Command} {out : List (List Char)} (h : runCommand env r d s c = .ok (r', out))
    (hn : c = .narsese → ∀ term tv, parseNarsese env.pf s = .ok (some (term, tv, .JUGEMENT, false)) → ¬ IsTemporal term →
      ∀ n, r.sh.stampIdCounter ≤ n → P (n + 1) (newEternalSentenceByTv term .JUGEMENT tv ⟨[n]⟩))
    (hb : c ≠ .stepB)
    (hr : c = .step → ∀ rel, StepReports env r d rel → ∀ n, r.sh.stampIdCounter ≤ n → P (n + 1) (newEternalSentenceByTv rel .JUGEMENT ⟨1, 9/10⟩ ⟨[n]⟩))
    (hl : (∃ a, c = .nlp a) → ∀ rel ∈ d.rels, ∀ txt, convRelToNarsese env.sf rel = .ok txt → ∀ term tv,
      parseNarsese env.pf txt = .ok (some (term, tv, .JUGEMENT, false)) → ¬ IsTemporal term →
      ∀ n, r.sh.stampIdCounter ≤ n → P (n + 1) (newEternalSentenceByTv term .JUGEMENT tv ⟨[n]⟩))
    (hQ : ∀ s, KnowsRule r s → Q s) (hi : RInv P Q r) : RInv P Q r' ∧ r.sh.stampIdCounter ≤ r'.sh.stampIdCounter := by
  cases c with
  | comment => cases h; exact ⟨hi, le_refl _⟩
  | step =>
    obtain ⟨r1, h1, h⟩ := R.bind_ok.1 h
    cases h; exact procStep_RInv hP h1 (hr rfl) hi
  | stepA =>
    obtain ⟨p, _, h⟩ := R.bind_ok.1 h
    cases h; exact ⟨hi.proc p, le_refl _⟩
  | stepB => exact absurd rfl hb
  | cycles arg =>
    obtain ⟨n, _, h⟩ := R.bind_ok.1 h
    obtain ⟨r1, h1, h⟩ := R.bind_ok.1 h
    cases h
    obtain ⟨k1, k2⟩ := cyclesLoop_RInv hP h1 hQ hi
    exact ⟨k1, by omega⟩
  | flush => cases h; exact ⟨⟨hi.all, hi.answers, hi.link, hi.pos⟩, le_refl _⟩
  | register arg =>
    simp only [runCommand] at h
    split at h
    · cases h; exact ⟨hi.proc _, le_refl _⟩
    · cases h; exact ⟨hi, le_refl _⟩
  | showEvidence =>
    obtain ⟨_, _, h⟩ := R.bind_ok.1 h
    cases h; exact ⟨hi, le_refl _⟩
  | babbleOff => cases h; exact ⟨hi.proc _, le_refl _⟩
  | babbleOn => cases h; exact ⟨hi.proc _, le_refl _⟩
  | nlp a =>
    obtain ⟨r1, h1, h⟩ := R.bind_ok.1 h
    cases h; exact nlpProcess_RInv hP h1 (hl ⟨a, rfl⟩) hi
  | debugTasks =>
    obtain ⟨_, _, h⟩ := R.bind_ok.1 h
    cases h; exact ⟨hi, le_refl _⟩
  | debugMemory => cases h; exact ⟨hi, le_refl _⟩
  | quit => cases h; exact ⟨hi, le_refl _⟩
  | empty => cases h; exact ⟨hi, le_refl _⟩
  | narsese =>
    obtain ⟨⟨r1, ok⟩, h1, h⟩ := R.bind_ok.1 h
    cases h; exact inputN_RInv hP h1 (hn rfl) hi

theorem NarOp.run_RInv {P : Int → Sentence → Prop} {Q : Sentence → Prop} (hP : IdClosed P) {env : Env} {r r' : Reasoner} {op : NarOp}
    (h : op.run env r = .ok r')
    (hs : ∀ term tv, Told env r op term tv → ∀ n, r.sh.stampIdCounter ≤ n → P (n + 1) (newEternalSentenceByTv term .JUGEMENT tv ⟨[n]⟩))
    (hQ : ∀ s, KnowsRule r s → Q s) (hi : RInv P Q r) : RInv P Q r' ∧ r.sh.stampIdCounter ≤ r'.sh.stampIdCounter := by
  cases op with
  | line l d =>
    obtain ⟨x, h1, rfl⟩ := R.map_ok.1 h
    unfold input at h1
    obtain ⟨c, hc, h1⟩ := R.bind_ok.1 h1
    obtain ⟨⟨r1, out⟩, h2, h1⟩ := R.bind_ok.1 h1
    cases h1
    refine runCommand_RInv hP h2 ?_ (by rintro rfl; exact dispatch_ne_stepB _ hc) ?_ ?_ hQ hi
    · rintro rfl term tv hp ht
      exact hs term tv (.inl ⟨hc, hp, ht⟩)
    · rintro rfl rel hrel
      exact hs rel _ (.inr (.inr ⟨hc, rfl, hrel⟩))
    · rintro ⟨a, rfl⟩ rel hrel txt ht term tv hp hnt
      exact hs term tv (.inr (.inl ⟨⟨a, hc⟩, rel, hrel, txt, ht, hp, hnt⟩))
  | tell term punct tv isEvent rng =>
    have := inputT2_RInv hP h (by rintro rfl rfl ht; exact hs term tv ⟨rfl, rfl, rfl, rfl, ht⟩ _ (le_refl _)) hi
    exact ⟨this.1, by rw [this.2]; omega⟩
  | cycle v =>
    obtain ⟨k1, k2⟩ := cycle_RInv hP h hQ hi
    exact ⟨k1, by omega⟩
  | declWork =>
    cases h
    obtain ⟨k1, k2⟩ := declWork_RInv hP env hi
    exact ⟨k1, by omega⟩
  | procWork rng => cases h; exact ⟨hi.proc _, le_refl _⟩
  | handlers n => cases h; exact ⟨⟨hi.all, hi.answers, hi.link, hi.pos⟩, le_refl _⟩
  | verbosity v => cases h; exact ⟨⟨hi.all, hi.answers, hi.link, hi.pos⟩, le_refl _⟩
  | workerLost => cases h; exact ⟨⟨hi.all, hi.answers, hi.link, hi.pos⟩, le_refl _⟩
  | link =>
    cases h
    refine ⟨⟨hi.all, fun c hc => ?_, hi.link, hi.pos⟩, le_refl _⟩
    rcases hi.answers c hc with h | h
    · exact .inl h
    · exact .inr ⟨rfl, h.2⟩

theorem RInv.imp {P P' : Int → Sentence → Prop} {Q : Sentence → Prop} {r : Reasoner} (hi : RInv P Q r)
    (h : ∀ s, P r.sh.stampIdCounter s → P' r.sh.stampIdCounter s) : RInv P' Q r :=
  ⟨hi.all.mono h, fun c hc => (hi.answers c hc).mono h, hi.link, hi.pos⟩

/-- the number of a statement which an action tells is one of those given out by that action -/
theorem NarOp.run_RInv_numbers {P : Int → Sentence → Prop} {Q : Sentence → Prop} (hP : IdClosed P) {env : Env} {r r' : Reasoner}
    {op : NarOp} (h : op.run env r = .ok r')
    (hs : ∀ term tv, Told env r op term tv → ∀ n, r.sh.stampIdCounter ≤ n → n < r'.sh.stampIdCounter →
      P (n + 1) (newEternalSentenceByTv term .JUGEMENT tv ⟨[n]⟩))
    (hQ : ∀ s, KnowsRule r s → Q s) (hi : RInv P Q r) : RInv P Q r' ∧ r.sh.stampIdCounter ≤ r'.sh.stampIdCounter := by
  have hP' : IdClosed (fun n s => n ≤ r'.sh.stampIdCounter → P n s) := by
    refine ⟨fun n => ⟨?_, ?_, ?_, ?_⟩, fun n n' s hn hs hn' => hP.mono n n' s hn (hs (by omega))⟩
    · exact fun cell b s x hb hs h1 h2 h3 hn => (hP.closed n).pool cell b s x (hb hn) (hs hn) h1 h2 h3
    · exact fun s u hs hn => (hP.closed n).used s u (hs hn)
    · exact fun p s c w hp hs h hn => (hP.closed n).two p s c w (hp hn) (hs hn) h
    · exact fun p c w hp h hn => (hP.closed n).alone p c w (hp hn) h
  obtain ⟨k1, k2⟩ := NarOp.run_RInv hP' h (fun term tv ht n hn hn' => hs term tv ht n hn (by omega)) hQ (hi.imp fun s hs _ => hs)
  exact ⟨k1.imp fun s hs => hs (le_refl _), k2⟩

theorem moreNar_RInv_numbers {P : Int → Sentence → Prop} {Q : Sentence → Prop} (hP : IdClosed P) {env : Env} {ops : List NarOp} :
    ∀ {r r' : Reasoner}, moreNar env r ops = .ok r' →
    (∀ pre post op r0 r1, ops = pre ++ op :: post → moreNar env r pre = .ok r0 → op.run env r0 = .ok r1 → 0 ≤ r0.sh.stampIdCounter →
      ∀ term tv, Told env r0 op term tv → ∀ n, r0.sh.stampIdCounter ≤ n → n < r1.sh.stampIdCounter →
      P (n + 1) (newEternalSentenceByTv term .JUGEMENT tv ⟨[n]⟩)) →
    (∀ pre post r0, ops = pre ++ post → moreNar env r pre = .ok r0 → ∀ s, KnowsRule r0 s → Q s) →
    RInv P Q r → RInv P Q r' ∧ r.sh.stampIdCounter ≤ r'.sh.stampIdCounter := by
  induction ops with
  | nil => intro r r' h _ _ hi; cases h; exact ⟨hi, le_refl _⟩
  | cons op ops ih =>
    intro r r' h hs hQ hi
    unfold moreNar at h
    rw [List.foldlM_cons] at h
    obtain ⟨r1, h1, h⟩ := R.bind_ok.1 h
    obtain ⟨k1, k2⟩ := NarOp.run_RInv_numbers hP h1 (hs [] ops op r r1 rfl rfl h1 hi.pos) (hQ [] _ r rfl rfl) hi
    obtain ⟨k3, k4⟩ := ih h (fun pre post op' r0 r1' he hr => hs (op :: pre) post op' r0 r1' (by rw [he]; rfl) (by
      unfold moreNar; rw [List.foldlM_cons, h1]; exact hr)) (fun pre post r0 he hr =>
        hQ (op :: pre) post r0 (by rw [he]; rfl) (by unfold moreNar; rw [List.foldlM_cons, h1]; exact hr)) k1
    exact ⟨k3, by omega⟩

theorem moreNar_RInv {P : Int → Sentence → Prop} {Q : Sentence → Prop} (hP : IdClosed P) {env : Env} {ops : List NarOp}
    {r r' : Reasoner} (h : moreNar env r ops = .ok r')
    (hs : ∀ pre post op r0, ops = pre ++ op :: post → moreNar env r pre = .ok r0 → ∀ term tv, Told env r0 op term tv →
      ∀ n, 0 ≤ n → P (n + 1) (newEternalSentenceByTv term .JUGEMENT tv ⟨[n]⟩))
    (hQ : ∀ pre post r0, ops = pre ++ post → moreNar env r pre = .ok r0 → ∀ s, KnowsRule r0 s → Q s)
    (hi : RInv P Q r) : RInv P Q r' ∧ r.sh.stampIdCounter ≤ r'.sh.stampIdCounter :=
  moreNar_RInv_numbers hP h (fun pre post op r0 _ he hr _ hp term tv ht n hn _ => hs pre post op r0 he hr term tv ht n (by omega)) hQ hi

theorem createNar_RInv (P : Int → Sentence → Prop) (Q : Sentence → Prop) : RInv P Q createNar :=
  ⟨⟨by simp [createNar, createShared], by simp [createNar, createShared, MemP], by simp [createNar, createShared, MemP]⟩,
    by simp [createNar], rfl, le_refl _⟩

theorem runNar_stamps {env : Env} {ops : List NarOp} {r : Reasoner} (h : runNar env ops = .ok r) :
    RInv StampOk (fun _ => True) r := by
  refine (moreNar_RInv ⟨stampOk_closed, fun n n' s hn hs => hs.mono hn⟩ h ?_ (fun _ _ _ _ _ _ _ => trivial) (createNar_RInv _ _)).1
  intro _ _ op _ _ _ term tv _ n hn
  refine ⟨by simp [newEternalSentenceByTv], by simp [newEternalSentenceByTv], by simp [newEternalSentenceByTv], ?_⟩
  intro id hid
  simp [newEternalSentenceByTv] at hid
  omega

theorem derivable_closed (env : Env) (ops : List NarOp) : SentClosed (Derivable env ops) where
  pool := fun _ _ _ _ hb hs h1 h2 h3 => .pool hb hs h1 h2 h3
  used := fun _ u h => .used u h
  two := fun _ _ _ _ hp hs h => .two hp hs h
  alone := fun _ _ _ hp h => .alone hp h

theorem runNar_derivable {env : Env} {ops : List NarOp} {r : Reasoner} (h : runNar env ops = .ok r) :
    RInv (fun _ => Derivable env ops) (WasRule env ops) r := by
  refine (moreNar_RInv ⟨fun _ => derivable_closed env ops, fun _ _ _ _ hs => hs⟩ h ?_
    (fun pre post r0 he hr s hs => ⟨pre, post, r0, he, hr, hs⟩) (createNar_RInv _ _)).1
  intro pre post op r0 he hr term tv ht n _
  exact .told he hr ht n

theorem RInv.holds {P : Int → Sentence → Prop} {Q : Sentence → Prop} {r : Reasoner} (hi : RInv P Q r) {s : Sentence} (h : Holds r s) :
    P r.sh.stampIdCounter s := by
  rcases h with ⟨t, ht, rfl⟩ | ⟨t, hb⟩
  · exact hi.all.1 t ht
  · exact hi.all.2.1.under hb

/-! ## the link to procedural memory -/

theorem cyclesLoop_linked {env : Env} {draws : Nat → Rat × Nat} {n i : Nat} {r r' : Reasoner}
    (h : cyclesLoop env draws n i r = .ok r') : r'.linked = r.linked := by
  induction n generalizing r i with
  | zero => cases h; rfl
  | succ n ih =>
    unfold cyclesLoop at h
    obtain ⟨r1, h1, h⟩ := R.bind_ok.1 h
    rw [ih h, (cycle_same h1).2, (declWorkN_same env _ r).2]

theorem inputN_linked {env : Env} {r r' : Reasoner} {txt : List Char} {ok : Bool} {rng : List Nat}
    (h : inputN env r txt rng = .ok (r', ok)) : r'.linked = r.linked := by
  unfold inputN at h
  obtain ⟨p, hp, h⟩ := R.bind_ok.1 h
  split at h
  · obtain ⟨r1, h1, h⟩ := R.bind_ok.1 h
    cases h
    exact (inputT2_cases h1).2.2.2.2.2.2.1
  · cases h; rfl

theorem nlpProcess_linked {env : Env} {r r' : Reasoner} {rels : List Relation} {rng : List Nat}
    (h : nlpProcess env r rels rng = .ok r') : r'.linked = r.linked := by
  unfold nlpProcess at h
  refine foldlM_inv (fun x : Reasoner => x.linked = r.linked) h rfl ?_
  rintro rel hrel a b ha hstep
  obtain ⟨txt, ht, hstep⟩ := R.bind_ok.1 hstep
  obtain ⟨⟨r1, ok⟩, h1, hstep⟩ := R.bind_ok.1 hstep
  cases hstep
  rw [inputN_linked h1, ha]

theorem declEffects_linked {env : Env} {r r' : Reasoner} {ops : List Op} {t : Int} {executed : Option Term}
    (h : declEffects env r ops t executed = .ok r') : r'.linked = r.linked := by
  unfold declEffects at h
  split at h
  · cases h; rfl
  · split at h
    · cases h; rfl
    · obtain ⟨effs, he, h⟩ := R.bind_ok.1 h
      obtain ⟨sh, h1, h⟩ := R.bind_ok.1 h
      cases h; rfl

theorem procStep1_linked {env : Env} {r r' : Reasoner} {d : LineDraws} (h : procStep1 env r d = .ok r') :
    r'.linked = r.linked := by
  unfold procStep1 at h
  obtain ⟨⟨p, executed⟩, hn, h⟩ := R.bind_ok.1 h
  exact (declEffects_linked (r := { r with proc := p }) h).trans rfl

theorem procStep_linked {env : Env} {r r' : Reasoner} {d : LineDraws} (h : procStep env r d = .ok r') :
    r'.linked = r.linked := by
  unfold procStep at h
  obtain ⟨p, h0, h⟩ := R.bind_ok.1 h
  rw [procWork_fold] at h
  exact (procStep1_linked (r := { r with proc := d.between.foldl workerStep p }) h).trans rfl

theorem runCommand_linked {env : Env} {r r' : Reasoner} {d : LineDraws} {s : List Char} {c : Command}
    {out : List (List Char)} (h : runCommand env r d s c = .ok (r', out)) : r'.linked = r.linked := by
  cases c with
  | comment => cases h; rfl
  | step =>
    obtain ⟨r1, h1, h⟩ := R.bind_ok.1 h
    cases h; exact procStep_linked h1
  | stepA =>
    obtain ⟨p, _, h⟩ := R.bind_ok.1 h
    cases h; rfl
  | stepB =>
    obtain ⟨r1, h1, h⟩ := R.bind_ok.1 h
    cases h; exact procStep1_linked h1
  | cycles arg =>
    obtain ⟨n, _, h⟩ := R.bind_ok.1 h
    obtain ⟨r1, h1, h⟩ := R.bind_ok.1 h
    cases h; exact cyclesLoop_linked h1
  | flush => cases h; rfl
  | register arg =>
    simp only [runCommand] at h
    split at h <;> cases h <;> rfl
  | showEvidence =>
    obtain ⟨_, _, h⟩ := R.bind_ok.1 h
    cases h; rfl
  | babbleOff => cases h; rfl
  | babbleOn => cases h; rfl
  | nlp a =>
    obtain ⟨r1, h1, h⟩ := R.bind_ok.1 h
    cases h; exact nlpProcess_linked h1
  | debugTasks =>
    obtain ⟨_, _, h⟩ := R.bind_ok.1 h
    cases h; rfl
  | debugMemory => cases h; rfl
  | quit => cases h; rfl
  | empty => cases h; rfl
  | narsese =>
    obtain ⟨⟨r1, ok⟩, h1, h⟩ := R.bind_ok.1 h
    cases h; exact inputN_linked h1

theorem NarOp.run_linked {env : Env} {r r' : Reasoner} {op : NarOp} (h : op.run env r = .ok r') :
    r'.linked = true ↔ r.linked = true ∨ op = .link := by
  have key : r'.linked = r.linked → op ≠ .link → (r'.linked = true ↔ r.linked = true ∨ op = .link) := by
    intro h1 h2; rw [h1]; simp [h2]
  cases op with
  | line l d =>
    refine key ?_ (by simp)
    obtain ⟨x, h1, rfl⟩ := R.map_ok.1 h
    unfold input at h1
    obtain ⟨c, hc, h1⟩ := R.bind_ok.1 h1
    obtain ⟨⟨r1, out⟩, h2, h1⟩ := R.bind_ok.1 h1
    cases h1
    exact runCommand_linked h2
  | tell term punct tv isEvent rng => exact key (inputT2_cases h).2.2.2.2.2.2.1 (by simp)
  | cycle v => exact key (cycle_same h).2 (by simp)
  | declWork => cases h; exact key (declWork_same env r).2 (by simp)
  | procWork rng => cases h; exact key rfl (by simp)
  | handlers n => cases h; exact key rfl (by simp)
  | verbosity v => cases h; exact key rfl (by simp)
  | workerLost => cases h; exact key rfl (by simp)
  | link => cases h; simp

theorem moreNar_linked {env : Env} {ops : List NarOp} : ∀ {r r' : Reasoner}, moreNar env r ops = .ok r' →
    (r'.linked = true ↔ r.linked = true ∨ NarOp.link ∈ ops) := by
  induction ops with
  | nil => intro r r' h; cases h; simp
  | cons op ops ih =>
    intro r r' h
    unfold moreNar at h
    rw [List.foldlM_cons] at h
    obtain ⟨r1, h1, h⟩ := R.bind_ok.1 h
    rw [ih h, NarOp.run_linked h1, List.mem_cons]
    constructor
    · rintro ((h | h) | h)
      · exact .inl h
      · exact .inr (.inl h.symm)
      · exact .inr (.inr h)
    · rintro (h | h | h)
      · exact .inl (.inl h)
      · exact .inl (.inr h.symm)
      · exact .inr h

theorem runNar_linked {env : Env} {ops : List NarOp} {r : Reasoner} (h : runNar env ops = .ok r) :
    r.linked = true ↔ NarOp.link ∈ ops := by
  rw [moreNar_linked h]; simp [createNar]

theorem view_under (m : PMem) (t : Term) (b : Sentence) : BeliefUnder m.view t b ↔
    ∃ c, m.get t = some c ∧ ∃ ref, (ref ∈ c.byExp ∨ ref ∈ c.byUsage) ∧ m.heap[ref]? = some b := by
  have hg : m.view.get t = (m.get t).map (fun c =>
      (⟨c.name, c.byExp.filterMap (m.heap[·]?), c.byUsage.filterMap (m.heap[·]?)⟩ : Concept)) := by
    unfold Mem.get PMem.get PMem.view
    rw [List.find?_map]
    rfl
  unfold BeliefUnder
  rw [hg]
  constructor
  · rintro ⟨c, hc, hb⟩
    obtain ⟨pc, hpc, rfl⟩ := Option.map_eq_some_iff.1 hc
    simp only [List.mem_filterMap] at hb
    rcases hb with ⟨ref, h1, h2⟩ | ⟨ref, h1, h2⟩
    · exact ⟨pc, hpc, ref, .inl h1, h2⟩
    · exact ⟨pc, hpc, ref, .inr h1, h2⟩
  · rintro ⟨pc, hpc, ref, h1, h2⟩
    refine ⟨_, by rw [hpc]; rfl, ?_⟩
    simp only [List.mem_filterMap]
    rcases h1 with h1 | h1
    · exact .inl ⟨ref, h1, h2⟩
    · exact .inr ⟨ref, h1, h2⟩

end Nar
