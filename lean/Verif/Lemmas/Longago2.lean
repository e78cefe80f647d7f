import Verif.Lemmas.Longago1
import Verif.Lemmas.Course2
/-! # Helper lemmas: what was told long ago is not combined with what is told later -/
namespace Nar
open Term

/-! ## simple facts -/

theorem SimpleFact.stmt {c : Copula} {x y : Term} (h : SimpleFact (.Stmt c x y)) : (c = .INH ∨ c = .SIM) ∧ NoStatementIn x ∧ NoStatementIn y := by
  obtain ⟨_, _, _, e, h⟩ := h
  cases e
  exact h

theorem NoStatementIn.part {x y : Term} (h : NoStatementIn x) (hy : y ∈ parts x) : NoStatementIn y := fun c a b hs => h c a b (.inside hy hs)

theorem noStatementIn_of {x : Term} (hx : ∀ c a b, x ≠ .Stmt c a b) (h : ∀ y ∈ parts x, NoStatementIn y) : NoStatementIn x := by
  intro c a b hs
  generalize hz : Term.Stmt c a b = z at hs
  cases hs with
  | refl => exact hx c a b hz.symm
  | inside h1 h2 => subst hz; exact h _ h1 c a b h2

theorem rule1_simple {a c : Term} {ta tc : Tv} (h : Rule1 a ta c tc) (ha : SimpleFact a) : SimpleFact c := by
  cases h with
  | negation => obtain ⟨_, _, _, e, _⟩ := ha; cases e
  | decomposeSubj pre x post p => exact ⟨_, _, _, rfl, .inl rfl, ha.stmt.2.1.part (by simp [parts]), ha.stmt.2.2⟩
  | decomposePred pre x post p => exact ⟨_, _, _, rfl, .inl rfl, ha.stmt.2.1, ha.stmt.2.2.part (by simp [parts])⟩
  | productLeft x y rest rel =>
    exact ⟨_, _, _, rfl, .inl rfl, ha.stmt.2.1.part (by simp [parts]), noStatementIn_of (by simp) (fun z hz => by
      simp only [parts, List.mem_cons, List.not_mem_nil, or_false] at hz
      rcases hz with rfl | rfl
      · exact ha.stmt.2.2
      · exact ha.stmt.2.1.part (by simp [parts]))⟩
  | productRight x y rel =>
    exact ⟨_, _, _, rfl, .inl rfl, ha.stmt.2.1.part (by simp [parts]), noStatementIn_of (by simp) (fun z hz => by
      simp only [parts, List.mem_cons, List.not_mem_nil, or_false] at hz
      rcases hz with rfl | rfl
      · exact ha.stmt.2.2
      · exact ha.stmt.2.1.part (by simp [parts]))⟩
  | imageLeft x y rel =>
    exact ⟨_, _, _, rfl, .inl rfl, noStatementIn_of (by simp) (fun z hz => by
      simp only [parts, List.mem_cons, List.not_mem_nil, or_false] at hz
      rcases hz with rfl | rfl
      · exact ha.stmt.2.1
      · exact ha.stmt.2.2.part (by simp [parts])), ha.stmt.2.2.part (by simp [parts])⟩
  | imageRight x y rel =>
    exact ⟨_, _, _, rfl, .inl rfl, noStatementIn_of (by simp) (fun z hz => by
      simp only [parts, List.mem_cons, List.not_mem_nil, or_false] at hz
      rcases hz with rfl | rfl
      · exact ha.stmt.2.2.part (by simp [parts])
      · exact ha.stmt.2.1), ha.stmt.2.2.part (by simp [parts])⟩
  | setInt a b => exact ⟨_, _, _, rfl, .inr rfl, ha.stmt.2.1.part (by simp [parts]), ha.stmt.2.2.part (by simp [parts])⟩
  | setExt a b => exact ⟨_, _, _, rfl, .inr rfl, ha.stmt.2.1.part (by simp [parts]), ha.stmt.2.2.part (by simp [parts])⟩
  | decomposePar => have := ha.stmt.1; simp at this

theorem rule2_simple {a b c : Term} {ta tb tc : Tv} (h : Rule2 a ta b tb c tc) (ha : SimpleFact a) (hb : SimpleFact b) : SimpleFact c := by
  cases h with
  | setUnion x A B =>
    exact ⟨_, _, _, rfl, .inl rfl, ha.stmt.2.1, noStatementIn_of (by simp) (fun z hz => by
      simp only [parts, List.mem_append] at hz
      rcases hz with hz | hz
      · exact ha.stmt.2.2.part (by simp [parts, hz])
      · exact hb.stmt.2.2.part (by simp [parts, hz]))⟩
  | intersection x p q =>
    exact ⟨_, _, _, rfl, .inl rfl, ha.stmt.2.1, noStatementIn_of (by simp) (fun z hz => by
      simp only [parts, List.mem_cons, List.not_mem_nil, or_false] at hz
      rcases hz with rfl | rfl
      · exact ha.stmt.2.2
      · exact hb.stmt.2.2)⟩
  | comparePred => exact ⟨_, _, _, rfl, .inr rfl, ha.stmt.2.2, hb.stmt.2.2⟩
  | compareSubj => exact ⟨_, _, _, rfl, .inr rfl, ha.stmt.2.1, hb.stmt.2.1⟩
  | deduction => exact ⟨_, _, _, rfl, ha.stmt.1, ha.stmt.2.1, hb.stmt.2.2⟩
  | abduction => exact ⟨_, _, _, rfl, .inl rfl, ha.stmt.2.1, hb.stmt.2.1⟩
  | induction => exact ⟨_, _, _, rfl, .inl rfl, ha.stmt.2.2, hb.stmt.2.2⟩
  | detach => have := ha.stmt.1; simp at this
  | conjDetach => have := ha.stmt.1; simp at this

theorem fromThese_simple {told : Term → Prop} (h : ∀ t, told t → SimpleFact t) {t : Term} (ht : FromThese told t) : SimpleFact t := by
  induction ht with
  | told t ht => exact h t ht
  | alone a c _ h1 ih => obtain ⟨ta, tc, h1⟩ := h1; exact rule1_simple h1 ih
  | both a b c _ _ h1 ih1 ih2 => obtain ⟨ta, tb, tc, h1⟩ := h1; exact rule2_simple h1 ih1 ih2

/-- no simple fact is inside another -/
theorem simple_inside {a b : Term} (ha : SimpleFact a) (hb : SimpleFact b) (h : IsSubterm a b) : a = b := by
  obtain ⟨c, x, y, rfl, _⟩ := ha
  obtain ⟨c', x', y', rfl, _, h1, h2⟩ := hb
  generalize hz : Term.Stmt c x y = z at h
  generalize hw : Term.Stmt c' x' y' = w at h
  cases h with
  | refl => rfl
  | inside k1 k2 =>
    subst hw hz
    simp only [parts, List.mem_cons, List.not_mem_nil, or_false] at k1
    rcases k1 with rfl | rfl
    · exact absurd k2 (h1 _ _ _)
    · exact absurd k2 (h2 _ _ _)

/-! ## tasks added -/

/-- tasks with these statements were added -/
structure Grew (T : Term → Prop) (sh sh' : Shared) : Prop where
  heap : ∃ new, sh'.heap = sh.heap ++ new ∧ ∀ t ∈ new, T t.sentence.term
  kept : ∀ r, TaskKept sh' r → TaskKept sh r ∨ (sh.heap.length ≤ r ∧ r ∈ sh'.judgementTasks)
  pending : ∀ r ∈ sh.judgementTasks, r ∈ sh'.judgementTasks

theorem Grew.refl {T : Term → Prop} (sh : Shared) : Grew T sh sh := ⟨⟨[], by simp⟩, fun _ h => .inl h, fun _ h => h⟩

theorem Grew.trans {T : Term → Prop} {a b c : Shared} (h1 : Grew T a b) (h2 : Grew T b c) : Grew T a c := by
  obtain ⟨n1, e1, t1⟩ := h1.heap
  obtain ⟨n2, e2, t2⟩ := h2.heap
  refine ⟨⟨n1 ++ n2, by rw [e2, e1, List.append_assoc], fun t ht => (List.mem_append.1 ht).elim (t1 t) (t2 t)⟩, ?_, fun r hr => h2.pending r (h1.pending r hr)⟩
  intro r hr
  rcases h2.kept r hr with hr | ⟨k1, k2⟩
  · rcases h1.kept r hr with hr | ⟨k1, k2⟩
    · exact .inl hr
    · exact .inr ⟨k1, h2.pending r k2⟩
  · rw [e1, List.length_append] at k1
    exact .inr ⟨by omega, k2⟩

theorem memAddTask_grew {T : Term → Prop} {cfg : Cfg} {sh sh' : Shared} {s : Sentence} {cc : Bool} {mc : Rat} {now : Int}
    (h : memAddTask cfg sh s cc mc now = .ok sh') (hs : s.punct = .JUGEMENT → (calcComplexity s.term : Int) ≤ cfg.maxComplexity → T s.term) :
    Grew T sh sh' := by
  obtain ⟨⟨new, e, hn⟩, hk, hj⟩ := memAddTask_available h
  exact ⟨⟨new, e, fun t ht => by obtain ⟨h1, h2, h3⟩ := hn t ht; rw [h1]; exact hs h2 h3⟩, hk, hj⟩

theorem work_grew {T : Term → Prop} {cfg : Cfg} {sh sh' : Shared} {msg : Msg} {calls : List AnswerCall}
    (h : work cfg sh msg = .ok (sh', calls)) (hc : ∀ c w, Concludes sh msg c w → (calcComplexity c.term : Int) ≤ cfg.maxComplexity → T c.term) :
    Grew T sh sh' := by
  obtain ⟨concl, p, hconcl, _, hm⟩ := work_more [] h
  refine foldlM_inv (fun st : Shared × List AnswerCall => Grew T sh st.1) hm (Grew.refl sh) ?_
  rintro o ho ⟨sh1, log⟩ b h1 hstep
  obtain ⟨⟨sh2, calls2⟩, h3, h4⟩ := R.bind_ok.1 hstep
  cases h4
  simp only [workOps, List.mem_append, List.mem_map] at ho
  rcases ho with ⟨c, hcm, rfl⟩ | ⟨c, hcm, rfl⟩
  · simp only [TaskOp.run] at h3
    unfold offerConclusion at h3
    split at h3
    · rw [R.bind_ok] at h3
      obtain ⟨⟨qs, cs⟩, _, h3⟩ := h3
      cases h3
      exact ⟨h1.heap, h1.kept, h1.pending⟩
    · cases h3; exact h1
  · obtain ⟨x, g1, g2⟩ := R.map_ok.1 h3
    cases g2
    refine h1.trans (memAddTask_grew g1 fun _ hx => ?_)
    obtain ⟨c0, u, k1, e⟩ := workConclusions_mem hconcl hcm
    rw [e] at hx ⊢
    exact hc c0 _ k1 hx

/-! ## the tasks which can still be used -/

/-- only these tasks, the ones still to come and the given messages are in use -/
structure Limits (K : Nat → Prop) (q0 : List Msg) (s : Sys) : Prop where
  kept : ∀ r, TaskKept s.sh r → K r
  new : ∀ r, s.sh.heap.length ≤ r → K r
  messages : ∀ m ∈ s.queue, m ∈ q0 ∨ ∀ r, m.about r → K r

theorem Grew.limits {K : Nat → Prop} {T : Term → Prop} {q0 : List Msg} {s : Sys} {sh' : Shared} {log : List AnswerCall} {q : List Msg} (h : Limits K q0 s) (hg : Grew T s.sh sh')
    (hq : ∀ m ∈ q, m ∈ s.queue) : Limits K q0 ⟨sh', q, log⟩ where
  kept r hr := (hg.kept r hr).elim (h.kept r) (fun k => h.new r k.1)
  new r hr := by
    obtain ⟨n, e, _⟩ := hg.heap
    refine h.new r ?_
    simp only [e, List.length_append] at hr
    omega
  messages m hm := h.messages m (hq m hm)

/-- the message of a cycle is about tasks which were available -/
theorem cycle_about {cfg : Cfg} {v : Rat} {now : Int} {sh sh' : Shared} {m : Msg} {calls : List AnswerCall}
    (h : reasonCycle cfg v now sh = .ok (sh', some m, calls)) (hi : Inv cfg sh) : ∀ r, m.about r → TaskKept sh r := by
  obtain ⟨_, _, _, _, t5⟩ := reasonCycle_taken h hi
  rcases t5 with ⟨_, e, _⟩ | ⟨m', l, e, p1, _, _, _, honly⟩
  · cases e
  · cases e
    have hp : m.primary ∈ sh.judgementTasks := p1.mem_iff.1 (by simp)
    rintro r (rfl | hr)
    · exact .inl hp
    · have hlt := hi.valid m.primary hp
      obtain ⟨x, refs, _, x2, x3⟩ := honly _ (List.getElem?_eq_getElem hlt) r hr
      obtain ⟨q, hq, rfl⟩ := Option.map_eq_some_iff.1 x2
      exact .inr ⟨q, List.mem_of_find?_eq_some hq, List.mem_of_mem_take x3⟩

theorem cycle_limits {K : Nat → Prop} {q0 : List Msg} {cfg : Cfg} {v : Rat} {now : Int} {s : Sys} {sh' : Shared} {msg : Option Msg}
    {calls log : List AnswerCall} (h : reasonCycle cfg v now s.sh = .ok (sh', msg, calls)) (hi : Inv cfg s.sh) (h0 : Limits K q0 s) :
    Limits K q0 ⟨sh', s.queue ++ msg.toList, log⟩ where
  kept r hr := h0.kept r ((reasonCycle_sub h).1 r hr)
  new r hr := h0.new r (by
    have := (reasonCycle_taken h hi).2.1
    simp only at hr
    omega)
  messages m hm := by
    rcases List.mem_append.1 hm with hm | hm
    · exact h0.messages m hm
    · rw [Option.mem_toList] at hm
      subst hm
      exact .inr fun r hr => h0.kept r (cycle_about h hi r hr)

theorem flush_kept {sh : Shared} {r : Nat} (h : TaskKept (flushTasks sh) r) : TaskKept sh r := by
  rcases h with h | ⟨p, h, _⟩
  · cases h
  · cases h

theorem limits_step {K : Nat → Prop} {q0 : List Msg} {cfg : Cfg} {s s' : Sys} {op : SysOp} (h : op.run cfg s = .ok s') (hi : Inv cfg s.sh)
    (h0 : Limits K q0 s) : Limits K q0 s' := by
  cases op with
  | input x cc mc now =>
    obtain ⟨sh, h1, h⟩ := R.bind_ok.1 h
    cases Except.ok.inj h
    exact (memAddTask_grew (T := fun _ => True) h1 (fun _ _ => trivial)).limits h0 (fun _ h => h)
  | cycle v now =>
    obtain ⟨⟨sh1, msg, calls⟩, h1, h⟩ := R.bind_ok.1 h
    cases Except.ok.inj h
    exact cycle_limits h1 hi h0
  | work =>
    simp only [SysOp.run] at h
    cases hq : s.queue with
    | nil =>
      rw [hq] at h
      rw [← Except.ok.inj h]
      exact h0
    | cons m rest =>
      rw [hq] at h
      simp only at h
      obtain ⟨⟨sh1, calls⟩, h1, h⟩ := R.bind_ok.1 h
      cases Except.ok.inj h
      exact (work_grew (T := fun _ => True) h1 (fun _ _ _ _ => trivial)).limits h0 (fun m' h => by rw [hq]; exact List.mem_cons_of_mem _ h)
  | flush => cases Except.ok.inj h; exact ⟨fun r hr => h0.kept r (flush_kept hr), h0.new, h0.messages⟩
  | newStampId => cases Except.ok.inj h; exact ⟨h0.kept, h0.new, h0.messages⟩
  | procMem m => cases Except.ok.inj h; exact ⟨h0.kept, h0.new, h0.messages⟩

theorem limits_more {K : Nat → Prop} {q0 : List Msg} {cfg : Cfg} {ops : List SysOp} : ∀ {s s' : Sys}, moreSys cfg s ops = .ok s' → Inv cfg s.sh →
    Limits K q0 s → Limits K q0 s' := by
  induction ops with
  | nil => intro s s' h _ h0; cases h; exact h0
  | cons op ops ih =>
    intro s s' h hi h0
    obtain ⟨s1, h1, h2⟩ := foldlM_cons_ok.1 h
    exact ih h2 ((SysOp.run_kept h1).inv hi) (limits_step h1 hi h0)

/-! ## pending tasks are the only ones available until the next cycle -/

/-- only pending tasks are available -/
def OnlyPending (sh : Shared) : Prop := ∀ r, TaskKept sh r → r ∈ sh.judgementTasks

theorem Grew.onlyPending {T : Term → Prop} {sh sh' : Shared} (h : Grew T sh sh') (h0 : OnlyPending sh) : OnlyPending sh' :=
  fun r hr => (h.kept r hr).elim (fun k => h.pending r (h0 r k)) (·.2)

theorem onlyPending_step {cfg : Cfg} {s s' : Sys} {op : SysOp} (h : op.run cfg s = .ok s') (hc : cyclesIn [op] = 0) (h0 : OnlyPending s.sh) :
    OnlyPending s'.sh := by
  cases op with
  | input x cc mc now =>
    obtain ⟨sh, h1, h⟩ := R.bind_ok.1 h
    cases Except.ok.inj h
    exact (memAddTask_grew (T := fun _ => True) h1 (fun _ _ => trivial)).onlyPending h0
  | cycle v now => simp [cyclesIn] at hc
  | work =>
    simp only [SysOp.run] at h
    cases hq : s.queue with
    | nil =>
      rw [hq] at h
      rw [← Except.ok.inj h]
      exact h0
    | cons m rest =>
      rw [hq] at h
      simp only at h
      obtain ⟨⟨sh1, calls⟩, h1, h⟩ := R.bind_ok.1 h
      cases Except.ok.inj h
      exact (work_grew (T := fun _ => True) h1 (fun _ _ _ _ => trivial)).onlyPending h0
  | flush =>
    cases Except.ok.inj h
    rintro r (hr | ⟨p, hp, _⟩)
    · exact hr
    · cases hp
  | newStampId => cases Except.ok.inj h; exact h0
  | procMem m => cases Except.ok.inj h; exact h0

theorem onlyPending_more {cfg : Cfg} {ops : List SysOp} : ∀ {s s' : Sys}, moreSys cfg s ops = .ok s' → cyclesIn ops = 0 → OnlyPending s.sh →
    OnlyPending s'.sh := by
  induction ops with
  | nil => intro s s' h _ h0; cases h; exact h0
  | cons op ops ih =>
    intro s s' h hc h0
    obtain ⟨s1, h1, h2⟩ := foldlM_cons_ok.1 h
    have := cyclesIn_append [op] ops
    rw [show [op] ++ ops = op :: ops from rfl] at this
    exact ih h2 (by omega) (onlyPending_step h1 (by omega) h0)

/-! ## what is held -/

/-- a simple fact, one of those held before or which follow from the new ones -/
def OldOrNew (O T : Term → Prop) (s : Sentence) : Prop := s.punct = .JUGEMENT ∧ SimpleFact s.term ∧ (O s.term ∨ FromThese T s.term)

theorem oldOrNew_lasts (O T : Term → Prop) : Lasts (OldOrNew O T) where
  pool cell b s r hb hs hsame hno h := by
    obtain ⟨ta, tb, tv, h1, h2, h3, rfl⟩ := revisedBelief_ok h
    exact hb
  used s u h := h

/-- the usable tasks say what follows from the new statements -/
structure Apart (K : Nat → Prop) (O T : Term → Prop) (s : Sys) : Prop where
  limits : Limits K [] s
  terms : ∀ r t, K r → s.sh.heap[r]? = some t → FromThese T t.sentence.term
  all : Throughout (OldOrNew O T) s.sh

theorem Apart.concludes {K : Nat → Prop} {O T : Term → Prop} {s : Sys} (h : Apart K O T s) {m : Msg} (hm : m ∈ s.queue) {c : Sentence} {w : Rat}
    (hc : Concludes s.sh m c w) : c.punct = .JUGEMENT ∧ SimpleFact c.term ∧ FromThese T c.term := by
  have hk := (h.limits.messages m hm).resolve_left (by simp)
  have hold : ∀ r t, m.about r → s.sh.heap[r]? = some t → t.sentence.punct = .JUGEMENT ∧ SimpleFact t.sentence.term ∧ FromThese T t.sentence.term :=
    fun r t hr ht => ⟨(h.all.1 t (List.mem_of_getElem? ht)).1, (h.all.1 t (List.mem_of_getElem? ht)).2.1, h.terms r t (hk r hr) ht⟩
  have two : ∀ {a b c : Sentence} {w : Rat}, a.punct = .JUGEMENT ∧ SimpleFact a.term ∧ FromThese T a.term →
      b.punct = .JUGEMENT ∧ SimpleFact b.term ∧ FromThese T b.term → Follows a b c w → c.punct = .JUGEMENT ∧ SimpleFact c.term ∧ FromThese T c.term := by
    intro a b c w ha hb hf
    obtain ⟨h1, ta, tb, tc, h2 | h2⟩ := follows_rule ha.1 hb.1 hf
    · exact ⟨h1, rule2_simple h2 ha.2.1 hb.2.1, .both _ _ _ ha.2.2 hb.2.2 ⟨_, _, _, h2⟩⟩
    · exact ⟨h1, rule2_simple h2 hb.2.1 ha.2.1, .both _ _ _ hb.2.2 ha.2.2 ⟨_, _, _, h2⟩⟩
  obtain ⟨p, hp, hf | ⟨r, hr, t, ht, hf⟩ | ⟨b, hb, hf⟩⟩ := hc
  · have := hold _ p (.inl rfl) hp
    obtain ⟨h1, ta, tc, h2⟩ := followsAlone_rule hf
    exact ⟨h1, rule1_simple h2 this.2.1, .alone _ _ this.2.2 ⟨_, _, h2⟩⟩
  · exact two (hold _ p (.inl rfl) hp) (hold r t (.inr hr) ht) hf
  · have hpp := hold _ p (.inl rfl) hp
    obtain ⟨b1, b2⟩ := h.all.2.under hb
    have e := simple_inside hpp.2.1 b1.2.1 b2
    exact two hpp ⟨b1.1, b1.2.1, e ▸ hpp.2.2⟩ hf

theorem Grew.terms {K : Nat → Prop} {T U : Term → Prop} {sh sh' : Shared} (h : Grew U sh sh') (hU : ∀ t, U t → FromThese T t)
    (h0 : ∀ r t, K r → sh.heap[r]? = some t → FromThese T t.sentence.term) :
    ∀ r t, K r → sh'.heap[r]? = some t → FromThese T t.sentence.term := by
  obtain ⟨n, e, hn⟩ := h.heap
  intro r t hr ht
  rw [e] at ht
  by_cases hl : r < sh.heap.length
  · rw [List.getElem?_append_left hl] at ht
    exact h0 r t hr ht
  · rw [List.getElem?_append_right (by omega)] at ht
    exact hU _ (hn t (List.mem_of_getElem? ht))

theorem apart_step {K : Nat → Prop} {O T : Term → Prop} (hT : ∀ t, T t → SimpleFact t) {cfg : Cfg} {s s' : Sys} {op : SysOp} (h : op.run cfg s = .ok s')
    (hi : Inv cfg s.sh) (h0 : Apart K O T s) (hin : ∀ x cc mc now, op = .input x cc mc now → x.punct = .JUGEMENT → T x.term) :
    Apart K O T s' ∧ ∀ call ∈ s'.log, call ∈ s.log ∨ (¬ IsTemporal call.question → O call.answer.term ∨ FromThese T call.answer.term) := by
  have hl := limits_step h hi h0.limits
  cases op with
  | input x cc mc now =>
    have hx := hin x cc mc now rfl
    obtain ⟨sh, h1, h⟩ := R.bind_ok.1 h
    cases Except.ok.inj h
    have hg := memAddTask_grew (T := T) h1 (fun h _ => hx h)
    exact ⟨⟨hl, hg.terms (fun t ht => .told t ht) h0.terms,
      memAddTask_lasts (oldOrNew_lasts O T) h1 h0.all (fun hj _ => ⟨hj, hT _ (hx hj), .inr (.told _ (hx hj))⟩)⟩, fun call hc => .inl hc⟩
  | cycle v now =>
    obtain ⟨⟨sh1, msg, calls⟩, h1, h⟩ := R.bind_ok.1 h
    cases Except.ok.inj h
    refine ⟨⟨hl, ?_, reasonCycle_lasts (oldOrNew_lasts O T) h1 h0.all⟩, ?_⟩
    · intro r t hr ht
      obtain ⟨k1, k2, _⟩ := reasonCycle_taken h1 hi
      simp only at ht
      have hlt : r < s.sh.heap.length := by rw [← k2]; exact (List.getElem?_eq_some_iff.1 ht).1
      obtain ⟨t1, g1, g2⟩ := k1 r s.sh.heap[r] (List.getElem?_eq_getElem hlt)
      rw [ht] at g1; cases g1
      have := h0.terms r _ hr (List.getElem?_eq_getElem hlt)
      have e : t.sentence.term = s.sh.heap[r].sentence.term := by rw [g2]
      rw [e]; exact this
    · intro call hc
      rcases List.mem_append.1 hc with hc | hc
      · exact .inl hc
      · right
        intro ht
        rcases (reasonCycle_asks h1).2 with ⟨_, e, _⟩ | ⟨i, q, q', cands, _, _, g3, g4, _⟩
        · rw [e] at hc; cases hc
        · obtain ⟨_, _, _, _, _, _, as, _, hs, _, _, _, j6⟩ := qaTryAll_spec g4
          obtain ⟨j1, j2⟩ := j6 call hc
          rcases (g3 _).1 (hs.subset j2) with ⟨hq, _⟩ | ⟨_, x, _, hb⟩
          · rw [j1] at ht; exact absurd hq ht
          · exact (h0.all.2.under hb).1.2.2
  | work =>
    simp only [SysOp.run] at h
    cases hq : s.queue with
    | nil =>
      rw [hq] at h
      rw [← Except.ok.inj h]
      exact ⟨h0, fun call hc => .inl hc⟩
    | cons m rest =>
      rw [hq] at h
      simp only at h
      obtain ⟨⟨sh1, calls⟩, h1, h⟩ := R.bind_ok.1 h
      cases Except.ok.inj h
      have hm : m ∈ s.queue := by rw [hq]; simp
      have hg := work_grew (T := FromThese T) h1 (fun c w hc _ => (h0.concludes hm hc).2.2)
      refine ⟨⟨hl, hg.terms (fun t ht => ht) h0.terms, work_lasts (oldOrNew_lasts O T) h1 h0.all (fun c w hc _ =>
        ⟨(h0.concludes hm hc).1, (h0.concludes hm hc).2.1, .inr (h0.concludes hm hc).2.2⟩)⟩, ?_⟩
      intro call hc
      rcases List.mem_append.1 hc with hc | hc
      · exact .inl hc
      right
      intro _
      obtain ⟨concl, p, hconcl, _, hmore⟩ := work_more [] h1
      have := offers_calls hmore ?_ call (by simpa using hc)
      · rcases this with k | k
        · cases k
        · simp only [workOps, List.mem_append, List.mem_map] at k
          rcases k with ⟨c, hcm, e⟩ | ⟨c, hcm, e⟩
          · obtain ⟨c0, u, hcc, e2⟩ := workConclusions_mem hconcl hcm
            injection e with e
            rw [e2] at e
            rw [← e]
            exact .inr (h0.concludes hm hcc).2.2
          · cases e
      · intro o ho
        simp only [workOps, List.mem_append, List.mem_map] at ho
        rcases ho with ⟨c, _, rfl⟩ | ⟨c, _, rfl⟩
        · exact .inl ⟨_, rfl⟩
        · exact .inr ⟨_, _, _, _, rfl⟩
  | flush => cases Except.ok.inj h; exact ⟨⟨hl, h0.terms, h0.all⟩, fun call hc => .inl hc⟩
  | newStampId => cases Except.ok.inj h; exact ⟨⟨hl, h0.terms, h0.all⟩, fun call hc => .inl hc⟩
  | procMem m => cases Except.ok.inj h; exact ⟨⟨hl, h0.terms, h0.all⟩, fun call hc => .inl hc⟩

theorem apart_more {K : Nat → Prop} {O T : Term → Prop} (hT : ∀ t, T t → SimpleFact t) {cfg : Cfg} {ops : List SysOp} : ∀ {s s' : Sys},
    moreSys cfg s ops = .ok s' → Inv cfg s.sh → Apart K O T s → (∀ x, PutIn ops x → x.punct = .JUGEMENT → T x.term) →
    Apart K O T s' ∧ ∀ call ∈ s'.log, call ∈ s.log ∨ (¬ IsTemporal call.question → O call.answer.term ∨ FromThese T call.answer.term) := by
  induction ops with
  | nil => intro s s' h _ h0 _; cases h; exact ⟨h0, fun _ h => .inl h⟩
  | cons op ops ih =>
    intro s s' h hi h0 hin
    obtain ⟨s1, h1, h2⟩ := foldlM_cons_ok.1 h
    obtain ⟨g1, g2⟩ := apart_step hT h1 hi h0 (fun x cc mc now e hj => hin x ⟨cc, mc, now, by rw [e]; simp⟩ hj)
    obtain ⟨g3, g4⟩ := ih h2 ((SysOp.run_kept h1).inv hi) g1 (fun x ⟨cc, mc, now, hm⟩ hj => hin x ⟨cc, mc, now, List.mem_cons_of_mem _ hm⟩ hj)
    exact ⟨g3, fun call hc => (g4 call hc).elim (g2 call) .inr⟩

end Nar
