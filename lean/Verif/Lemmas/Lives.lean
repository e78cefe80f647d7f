import Verif.Spec.Lives
import Verif.Lemmas.Course2
import Verif.Lemmas.Chance2
/-! # Helper lemmas: a course with acting in between -/
namespace Nar
open Term

theorem not_forActing_statement {t : Term} (h : ¬ IsTemporal t) : ¬ ForActing t .JUGEMENT false := by
  simp [ForActing, isTemporalQuestion_not h]

theorem lineReads_run {env : Env} {r r' : Reasoner} {l : List Char} {d : LineDraws} {t : Term} {tv : Tv} {punct : Punct} {ev : Bool}
    (hl : LineReads env l t tv punct ev) (h : (NarOp.line l d).run env r = .ok r') : inputT2 env r t punct tv ev d.rng = .ok r' := by
  obtain ⟨hd, hp⟩ := hl
  obtain ⟨x, hx, rfl⟩ := R.map_ok.1 h
  unfold Nar.input at hx
  obtain ⟨c, hc, hx⟩ := R.bind_ok.1 hx
  cases Except.ok.inj (hd.symm.trans hc)
  obtain ⟨⟨s, out⟩, g, k⟩ := R.bind_ok.1 hx
  cases k
  clear hx
  obtain ⟨y, k, g⟩ := R.bind_ok.1 g
  cases g
  unfold Nar.inputN at k
  rw [hp] at k
  obtain ⟨z, e, hz⟩ := R.bind_ok.1 k
  cases Except.ok.inj e
  obtain ⟨w, e, hz⟩ := R.bind_ok.1 hz
  cases hz
  exact e

/-- what acting does to the declarative system: it may use up an evidence number, and nothing else -/
def SameMind (r s : Reasoner) : Prop :=
  s.queue = r.queue ∧ s.answers = r.answers ∧ s.nGlobal = r.nGlobal ∧ s.nConceptBeliefs = r.nConceptBeliefs ∧
    s.maxComplexity = r.maxComplexity ∧ (s.sh = r.sh ∨ s.sh = { r.sh with stampIdCounter := r.sh.stampIdCounter + 1 })

theorem SameMind.refl (r : Reasoner) : SameMind r r := ⟨rfl, rfl, rfl, rfl, rfl, .inl rfl⟩

theorem inputT2_mind {env : Env} {r r' : Reasoner} {t : Term} {punct : Punct} {tv : Tv} {ev : Bool} {rng : List Nat}
    (hf : ForActing t punct ev) (h : inputT2 env r t punct tv ev rng = .ok r') : SameMind r r' := by
  obtain ⟨h1, _, h2, h3, h4, h5, _⟩ := inputT2_cases h
  exact ⟨h1, h2, h3, h4, h5, .inr ((inputT2_frame h).2.2.2.1 hf)⟩

theorem Acts.mind {env : Env} {r s : Reasoner} {op : NarOp} (ha : Acts env op) (hn : NoReports r.proc.ops) (h : op.run env r = .ok s) :
    SameMind r s := by
  cases op with
  | line l d =>
    have same : ∀ {c : Command}, dispatch (trimNewline l) = .ok c → ∃ out, runCommand env r d (trimNewline l) c = .ok (s, out) := by
      intro c hc
      obtain ⟨x, hx, rfl⟩ := R.map_ok.1 h
      rw [input_of_dispatch hc] at hx
      obtain ⟨y, hy, rfl⟩ := R.map_ok.1 hx
      exact ⟨_, hy⟩
    rcases ha with ⟨hd, t, tv, punct, ev, hp, hf⟩ | ⟨hd, hp⟩ | ⟨arg, hd⟩ | ⟨c, hc, hd⟩
    · exact inputT2_mind hf (lineReads_run ⟨hd, hp⟩ h)
    · obtain ⟨out, g⟩ := same hd
      obtain ⟨y, k, g⟩ := R.bind_ok.1 g
      cases g
      unfold Nar.inputN at k
      rw [hp] at k
      cases k
      exact .refl _
    · obtain ⟨out, g⟩ := same hd
      simp only [runCommand] at g
      split at g
      · cases g; exact .refl _
      · cases g; exact .refl _
    · obtain ⟨out, g⟩ := same hd
      simp only [List.mem_cons, List.not_mem_nil, or_false] at hc
      casesm* _ ∨ _
      all_goals subst c
      · obtain ⟨_, k, g⟩ := R.bind_ok.1 g
        cases g
        obtain ⟨p, rfl, _⟩ := procStep_frame hn k
        exact .refl _
      · cases g; exact .refl _
      · cases g; exact .refl _
      · cases g; exact .refl _
      · cases g; exact .refl _
      · cases g; exact .refl _
      · obtain ⟨_, _, g⟩ := R.bind_ok.1 g; cases g; exact .refl _
      · obtain ⟨_, _, g⟩ := R.bind_ok.1 g; cases g; exact .refl _
      · cases g; exact .refl _
  | tell t punct tv ev rng => exact inputT2_mind ha h
  | procWork rng => cases h; exact .refl _
  | verbosity v => cases h; exact .refl _
  | link => cases h; exact .refl _
  | cycle v => exact ha.elim
  | declWork => exact ha.elim
  | handlers n => exact ha.elim
  | workerLost => exact ha.elim

theorem moreNar_ops {env : Env} {ops : List NarOp} : ∀ {r s : Reasoner}, moreNar env r ops = .ok s → ∀ o ∈ r.proc.ops, o ∈ s.proc.ops := by
  induction ops with
  | nil => intro r s h; cases h; exact fun _ k => k
  | cons op ops ih =>
    intro r s h o ho
    obtain ⟨r1, h1, h2⟩ := foldlM_cons_ok.1 h
    exact ih h2 o (NarOp.run_ops h1 o ho)

theorem NoReports.before {env : Env} {ops : List NarOp} {r s : Reasoner} (hn : NoReports s.proc.ops) (h : moreNar env r ops = .ok s) :
    NoReports r.proc.ops := fun o ho => hn o (moreNar_ops h o ho)

theorem stepReports_none {env : Env} {r : Reasoner} {d : LineDraws} {t : Term} (hn : NoReports r.proc.ops) : ¬ StepReports env r d t := by
  rintro ⟨p0, p1, p2, act, args, name, effs, h0, hb, _, _, he, hm⟩
  obtain ⟨heap, new, rfl, _⟩ := narStep0_spec h0
  have hops : p1.ops = r.proc.ops := by
    obtain ⟨q, hq, _, k2⟩ := between_frame d.between { r with proc := _ }
    have key : ∀ (l : List (List Nat)) (x : Reasoner), (l.foldl procWork x).proc = l.foldl workerStep x.proc := by
      intro l
      induction l with
      | nil => intro x; rfl
      | cons a l ih => intro x; exact ih (procWork x a)
    have := congrArg Reasoner.proc hq
    rw [key] at this
    rw [← hb]
    rw [this]
    exact k2
  unfold opEffects at he
  split at he
  · rename_i op hop
    obtain ⟨x, hx⟩ := callOp_noReports (by rw [hops]; exact hn) _ (List.mem_of_find?_eq_some hop) he _ hm
    cases hx
  · cases he; cases hm

theorem Acts.not_told {env : Env} {r : Reasoner} {op : NarOp} (ha : Acts env op) (hn : NoReports r.proc.ops) {t : Term} {tv : Tv} :
    ¬ Told env r op t tv := by
  intro ht
  cases op with
  | line l d =>
    rcases ht with ⟨k1, k2, k3⟩ | ⟨⟨text, k1⟩, _⟩ | ⟨_, _, k⟩
    · rcases ha with ⟨hd, t, tv, punct, ev, hp, hf⟩ | ⟨hd, hp⟩ | ⟨arg, hd⟩ | ⟨c, hc, hd⟩
      · rw [hp] at k2
        obtain ⟨rfl, rfl, rfl, rfl⟩ : t = _ ∧ tv = _ ∧ punct = _ ∧ ev = _ := by simpa using k2
        exact not_forActing_statement k3 hf
      · rw [hp] at k2; cases k2
      · rw [hd] at k1; cases k1
      · rw [hd] at k1; cases k1; simp at hc
    · rcases ha with ⟨hd, _⟩ | ⟨hd, hp⟩ | ⟨arg, hd⟩ | ⟨c, hc, hd⟩
      · rw [hd] at k1; cases k1
      · rw [hd] at k1; cases k1
      · rw [hd] at k1; cases k1
      · rw [hd] at k1; cases k1; simp at hc
    · exact stepReports_none hn k
  | tell t punct tv ev rng =>
    obtain ⟨rfl, rfl, rfl, rfl, k⟩ := ht
    exact not_forActing_statement k ha
  | procWork rng => exact ht
  | verbosity v => exact ht
  | link => exact ht
  | cycle v => exact ht
  | declWork => exact ht
  | handlers n => exact ht
  | workerLost => exact ht

theorem Lives.split {env : Env} {ops : List NarOp} {as : List Lecture} (h : Lives env ops as) : ∀ {pre : List NarOp} {op : NarOp} {post : List NarOp},
    ops = pre ++ op :: post → Acts env op ∨ (∃ a ∈ as, op = a.op) ∨ (∃ l d st, op = .line l d ∧ Lecture.tell st ∈ as ∧ LineReads env l st.1 st.2 .JUGEMENT false) ∨
      ∃ l d q tv, op = .line l d ∧ Lecture.ask q ∈ as ∧ LineReads env l q tv .QUESTION true := by
  induction h with
  | nil => intro pre op post e; simp at e
  | learn a _ ih =>
    intro pre op post e
    cases pre with
    | nil =>
      obtain ⟨rfl, rfl⟩ := List.cons.inj e
      exact .inr (.inl ⟨a, List.mem_cons_self, rfl⟩)
    | cons x pre =>
      rcases ih (List.cons.inj e).2 with k | ⟨b, k1, k2⟩ | ⟨l, d, st, k1, k2, k3⟩ | ⟨l, d, q, tv, k1, k2, k3⟩
      · exact .inl k
      · exact .inr (.inl ⟨b, List.mem_cons_of_mem _ k1, k2⟩)
      · exact .inr (.inr (.inl ⟨l, d, st, k1, List.mem_cons_of_mem _ k2, k3⟩))
      · exact .inr (.inr (.inr ⟨l, d, q, tv, k1, List.mem_cons_of_mem _ k2, k3⟩))
  | @statement l d st ops as hl _ ih =>
    intro pre op post e
    cases pre with
    | nil =>
      obtain ⟨rfl, rfl⟩ := List.cons.inj e
      exact .inr (.inr (.inl ⟨l, d, st, rfl, List.mem_cons_self, hl⟩))
    | cons x pre =>
      rcases ih (List.cons.inj e).2 with k | ⟨b, k1, k2⟩ | ⟨l, d, st, k1, k2, k3⟩ | ⟨l, d, q, tv, k1, k2, k3⟩
      · exact .inl k
      · exact .inr (.inl ⟨b, List.mem_cons_of_mem _ k1, k2⟩)
      · exact .inr (.inr (.inl ⟨l, d, st, k1, List.mem_cons_of_mem _ k2, k3⟩))
      · exact .inr (.inr (.inr ⟨l, d, q, tv, k1, List.mem_cons_of_mem _ k2, k3⟩))
  | @question l d q tv ops as hl _ ih =>
    intro pre op post e
    cases pre with
    | nil =>
      obtain ⟨rfl, rfl⟩ := List.cons.inj e
      exact .inr (.inr (.inr ⟨l, d, q, tv, rfl, List.mem_cons_self, hl⟩))
    | cons x pre =>
      rcases ih (List.cons.inj e).2 with k | ⟨b, k1, k2⟩ | ⟨l, d, st, k1, k2, k3⟩ | ⟨l, d, q, tv, k1, k2, k3⟩
      · exact .inl k
      · exact .inr (.inl ⟨b, List.mem_cons_of_mem _ k1, k2⟩)
      · exact .inr (.inr (.inl ⟨l, d, st, k1, List.mem_cons_of_mem _ k2, k3⟩))
      · exact .inr (.inr (.inr ⟨l, d, q, tv, k1, List.mem_cons_of_mem _ k2, k3⟩))
  | act ha _ ih =>
    intro pre op post e
    cases pre with
    | nil =>
      obtain ⟨rfl, rfl⟩ := List.cons.inj e
      exact .inl ha
    | cons x pre => exact ih (List.cons.inj e).2

/-- what is told in a life is what is told in the course -/
theorem Lives.telling {env : Env} {k : Nat} {ops : List NarOp} {as : List Lecture} {r : Reasoner} (h : Lives env ops as)
    (hf : ∀ a ∈ as, a.Fine) (hr : runNar env (.handlers k :: ops) = .ok r) (hn : NoReports r.proc.ops) :
    SaneTelling env (.handlers k :: ops) ∧ NarOp.workerLost ∉ ops := by
  have nw : NarOp.workerLost ∉ ops := by
    intro hm
    obtain ⟨pre, post, e⟩ := List.append_of_mem hm
    rcases h.split e with k | ⟨a, _, k⟩ | ⟨l, d, st, k, _⟩ | ⟨l, d, q, tv, k, _⟩
    · exact k
    · cases a <;> cases k
    · cases k
    · cases k
  refine ⟨?_, nw⟩
  intro pre op post r0 t tv e h0 ht
  cases pre with
  | nil =>
    obtain ⟨rfl, rfl⟩ := List.cons.inj e
    exact ht.elim
  | cons x pre =>
    have e2 := (List.cons.inj e).2
    rw [e] at hr
    obtain ⟨r1, g1, g2⟩ := moreNar_append.1 (show moreNar env createNar (x :: pre ++ op :: post) = .ok r from hr)
    cases Except.ok.inj (h0.symm.trans g1)
    rcases h.split e2 with k | ⟨a, ha, rfl⟩ | ⟨l, d, st, rfl, ha, hl1, hl2⟩ | ⟨l, d, q, tv', rfl, ha, hl1, hl2⟩
    · exact absurd ht (k.not_told (hn.before g2))
    · exact ht.sane (hf a ha).use
    · rcases ht with ⟨k1, k2, k3⟩ | ⟨⟨text, k1⟩, _⟩ | ⟨k1, _⟩
      · rw [hl2] at k2
        obtain ⟨e1, e2⟩ : st.1 = t ∧ st.2 = tv := by simpa using k2
        have := ((hf _ ha).2.1 rfl rfl).2
        rw [e1, e2] at this
        exact this
      · rw [hl1] at k1; cases k1
      · rw [hl1] at k1; cases k1
    · rcases ht with ⟨k1, k2, k3⟩ | ⟨⟨text, k1⟩, _⟩ | ⟨k1, _⟩
      · rw [hl2] at k2; simp at k2
      · rw [hl1] at k1; cases k1
      · rw [hl1] at k1; cases k1

end Nar
