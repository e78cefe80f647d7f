import Verif.Spec.Unprompted
import Verif.Lemmas.Serving2
import Verif.Lemmas.Topics
/-! # Lemmas: the acting side gets to know only names it is given -/
namespace Nar
open Term

variable {ok : String → Prop}

theorem MentionsOnly.sub {s t : Term} (h : MentionsOnly ok t) (hs : IsSubterm s t) : MentionsOnly ok s :=
  fun x hx => h x (IsSubterm.trans hx hs)

theorem mentionsOnly_parts {t : Term} (ht : ¬ IsAtom t) : MentionsOnly ok t ↔ ∀ c ∈ parts t, MentionsOnly ok c := by
  constructor
  · intro h c hc
    exact h.sub (.inside hc (.refl _))
  · intro h x hx
    obtain ⟨c, hc, ho⟩ := (occ_iff_parts ht).1 (occ_name.2 hx)
    exact h c hc x (occ_name.1 ho)

theorem mentionsOnly_stmt {c : Copula} {s p : Term} :
    MentionsOnly ok (.Stmt c s p) ↔ MentionsOnly ok s ∧ MentionsOnly ok p := by
  rw [mentionsOnly_parts (by simp [IsAtom])]; simp [parts]

theorem mentionsOnly_seq {ts : List Term} : MentionsOnly ok (.Seq ts) ↔ ∀ c ∈ ts, MentionsOnly ok c := by
  rw [mentionsOnly_parts (by simp [IsAtom])]; simp [parts]

theorem mentionsOnly_rule {cond effect : Term} {acts : List Term} :
    MentionsOnly ok (rule cond acts effect) ↔ MentionsOnly ok cond ∧ (∀ a ∈ acts, MentionsOnly ok a) ∧ MentionsOnly ok effect := by
  unfold rule
  rw [mentionsOnly_stmt, mentionsOnly_seq]
  simp [and_assoc]

theorem mentionsOnly_name {n : String} (h : ok n) : MentionsOnly ok (.Name n) := by
  intro x hx
  have : Term.Name x = .Name n := by
    rcases (isSubterm_iff _ _).1 hx with h | ⟨c, hc, -⟩
    · exact h
    · simp [parts] at hc
  injection this with this
  rw [this]; exact h

theorem mentionsOnly_var {v : Term} (h : IsVar v) : MentionsOnly ok v := by
  intro x hx
  have : Term.Name x = v := by
    rcases (isSubterm_iff _ _).1 hx with k | ⟨c, hc, -⟩
    · exact k
    · cases v <;> simp [parts, IsVar] at hc h
  rw [← this] at h
  exact h.elim

theorem mentionsOnly_self (h : ok "SELF") : MentionsOnly ok selfTerm := by
  unfold selfTerm
  rw [mentionsOnly_parts (by simp [IsAtom])]
  intro c hc
  simp only [parts, List.mem_singleton] at hc
  rw [hc]; exact mentionsOnly_name h

theorem mentionsOnly_encode {args : List Term} {name : String} :
    MentionsOnly ok (encodeOp args name) ↔ (∀ a ∈ args, MentionsOnly ok a) ∧ ok name := by
  unfold encodeOp
  rw [mentionsOnly_stmt, mentionsOnly_parts (t := .SetExt [.Prod args]) (by simp [IsAtom])]
  simp only [parts, List.mem_singleton, forall_eq]
  rw [mentionsOnly_parts (by simp [IsAtom])]
  exact ⟨fun h => ⟨h.1, h.2 name (.refl _)⟩, fun h => ⟨h.1, mentionsOnly_name h.2⟩⟩

theorem mentionsOnly_call {t : Term} {args : List Term} {name : String} (hc : IsCall t args name) (h : MentionsOnly ok t) :
    (∀ a ∈ args, MentionsOnly ok a) ∧ ok name := by
  rw [hc.2] at h
  exact mentionsOnly_encode.1 h

theorem mentionsOnly_subst {p b q : Term} {a : List Asgnment} (h : unify p b = some a) (hb : MentionsOnly ok b)
    (hq : MentionsOnly ok q) : MentionsOnly ok (unifySubst a q) := by
  intro x hx
  rcases occ_unify h (occ_name.2 hx) with k | k
  · exact hq x (occ_name.1 k)
  · exact hb x (occ_name.1 k)

theorem mentionsOnly_replace {repl w : Term} (hw : MentionsOnly ok w) (t : Term) :
    MentionsOnly ok t → MentionsOnly ok (replaceTerm t repl w) := by
  refine parts_ind (P := fun t => MentionsOnly ok t → MentionsOnly ok (replaceTerm t repl w)) (fun t ih h => ?_) t
  by_cases he : t = repl
  · rw [he, replaceTerm_self]; exact hw
  rw [replaceTerm_ne he]
  have hl : ∀ ts : List Term, (∀ x ∈ ts, x ∈ parts t) → ∀ x ∈ ts.map (replaceTerm · repl w), MentionsOnly ok x := by
    intro ts hts x hx
    obtain ⟨y, hy, rfl⟩ := List.mem_map.1 hx
    exact ih y (hts y hy) (h.sub (.inside (hts y hy) (.refl _)))
  have hp : ∀ y ∈ parts t, MentionsOnly ok (replaceTerm y repl w) := fun y hy => ih y hy (h.sub (.inside hy (.refl _)))
  have h0 : ∀ y ∈ parts t, MentionsOnly ok y := fun y hy => h.sub (.inside hy (.refl _))
  cases t with
  | QVar n => exact h
  | DepVar n => exact h
  | IndepVar n => exact h
  | Name n => exact h
  | Stmt c s p => exact mentionsOnly_stmt.2 ⟨hp s (by simp [parts]), hp p (by simp [parts])⟩
  | Neg t =>
    rw [mentionsOnly_parts (by simp [IsAtom])]
    intro x hx
    simp only [parts, List.mem_singleton] at hx
    subst hx
    exact hp t (by simp [parts])
  | Img r i ts =>
    rw [mentionsOnly_parts (by simp [IsAtom])]
    intro x hx
    simp only [parts, List.mem_cons] at hx
    rcases hx with rfl | hx
    · exact h0 x (by simp [parts])
    · exact hl ts (fun y hy => by simp [parts, hy]) x hx
  | Seq ts => exact (mentionsOnly_parts (by simp [IsAtom])).2 (hl ts fun x hx => hx)
  | SetInt ts => exact (mentionsOnly_parts (by simp [IsAtom])).2 (hl ts fun x hx => hx)
  | SetExt ts => exact (mentionsOnly_parts (by simp [IsAtom])).2 (hl ts fun x hx => hx)
  | Conj ts => exact (mentionsOnly_parts (by simp [IsAtom])).2 (hl ts fun x hx => hx)
  | Prod ts => exact (mentionsOnly_parts (by simp [IsAtom])).2 (hl ts fun x hx => hx)
  | IntInt ts => exact (mentionsOnly_parts (by simp [IsAtom])).2 (hl ts fun x hx => hx)
  | ExtInt ts => exact (mentionsOnly_parts (by simp [IsAtom])).2 (hl ts fun x hx => hx)
  | Par ts => exact (mentionsOnly_parts (by simp [IsAtom])).2 (hl ts fun x hx => hx)

theorem matchandintro_mentions {t0 : Term} {rng rng' : List Nat} {ts : List Term} (hp : MentionsOnly ok t0)
    (h : matchandintroVar1 t0 rng = .ok (ts, rng')) {t : Term} (ht : t ∈ ts) : MentionsOnly ok t := by
  unfold matchandintroVar1 at h
  split at h
  · unfold introVars at h
    split at h
    · cases h; simp at ht
    · obtain ⟨⟨w, rng1⟩, hw, h⟩ := R.bind_ok.1 h
      cases h
      rw [List.mem_singleton] at ht
      subst ht
      exact mentionsOnly_replace (mentionsOnly_var (createRandomVarname_var hw)) _ hp
  · cases h; simp at ht

/-! ## told rules -/

theorem memAddEvidence_mentions {m m' : PMem} {s : Sentence} {n : Nat} {now : Int} {rng : List Nat}
    (h : memAddEvidence m s n now rng = .ok m') (hs : MentionsOnly ok s.term) (hm : ∀ b ∈ m.heap, MentionsOnly ok b.term) :
    ∀ b ∈ m'.heap, MentionsOnly ok b.term := by
  unfold memAddEvidence at h
  obtain ⟨m1, h1, h⟩ := R.bind_ok.1 h
  obtain ⟨⟨out, rng'⟩, h2, h⟩ := R.bind_ok.1 h
  obtain ⟨⟨k, hk⟩, -, -⟩ := memAddEvidenceInternal_spec h1
  obtain ⟨⟨l, hl, hx⟩, -⟩ := foldAddP_spec h
  have hout : ∀ x ∈ out, MentionsOnly ok x.term := by
    unfold matchandintroVar1Sentence at h2
    obtain ⟨⟨ts, rng1⟩, h3, h2⟩ := R.bind_ok.1 h2
    cases h2
    intro x hx
    obtain ⟨t, ht, rfl⟩ := List.mem_map.1 hx
    exact matchandintro_mentions hs h3 ht
  intro b hb
  rw [hl, hk] at hb
  rcases List.mem_append.1 hb with hb | hb
  · rcases List.mem_append.1 hb with hb | hb
    · exact hm b hb
    · rw [List.eq_of_mem_replicate hb]; exact hs
  · exact hout b (hx b hb).1

/-! ## goals -/

/-- all stored goals mention only such names -/
def GoalsMention (ok : String → Prop) (g : GoalSystem) : Prop := ∀ e, Stored g e → MentionsOnly ok e.sentence.term

theorem GoalsMention.add {g g' : GoalSystem} {t : Int} {s : Sentence} {ev : Option Nat} {d : Int}
    (h : GoalsMention ok g) (hs : MentionsOnly ok s.term) (ha : addEntry g t s ev d = .ok g') : GoalsMention ok g' := by
  intro e he
  rcases (addEntry_spec ha).2.2 e he with k | ⟨a, rfl⟩
  · exact h e k
  · exact hs

theorem GoalsMention.satisfyAll {g : GoalSystem} (h : GoalsMention ok g) (t : Term) : GoalsMention ok (eventOccurred g t) := by
  intro e he
  obtain ⟨e0, h0, rfl⟩ := (eventOccurred_stored _ _ _).1 he
  rw [(satisfy_fields _ _ _).1]
  exact h e0 h0

theorem GoalsMention.erase {g : GoalSystem} (h : GoalsMention ok g) (i : Nat) :
    GoalsMention ok { g with activeSet := g.activeSet.eraseIdx i } := by
  rintro e (he | he)
  · exact h e (.inl (List.mem_of_mem_eraseIdx he))
  · exact h e (.inr he)

theorem GoalsMention.limit {decay : Int → Rat} {g g' : GoalSystem} {t : Int} (h : GoalsMention ok g)
    (hl : goalLimitMemory decay g t = .ok g') : GoalsMention ok g' := by
  obtain ⟨sorted, -, -, -, hs, -, hf⟩ := goalLimit_cases hl
  intro e he
  rcases (foldAdd_spec hf).2.2.2.1 e he with k | ⟨e1, h1, a, rfl⟩
  · exact absurd k (flushed_stored _ _)
  · obtain ⟨e0, u, h0, -, rfl⟩ := hs e1 (List.mem_of_mem_take h1)
    exact h e0 h0

theorem GoalStep.mentions {m : PMem} (hm : ∀ b ∈ m.heap, MentionsOnly ok b.term) {s c : Sentence} {ev : Option Nat}
    (h : GoalStep m s c ev) (hs : MentionsOnly ok s.term) : MentionsOnly ok c.term := by
  rcases h with ⟨-, first, rest, ts, h1, -, h2, -⟩ | ⟨r, b, -, hb, cond, ts, tb, h1, -, -, -, h2, -⟩
  · rw [h2]; rw [h1] at hs; exact mentionsOnly_seq.1 hs _ (by simp)
  · rw [h2]
    have := hm b (List.mem_of_getElem? hb)
    rw [h1] at this
    exact (mentionsOnly_stmt.1 this).1

theorem GoalChain.mentions {m : PMem} (hm : ∀ b ∈ m.heap, MentionsOnly ok b.term) {s c : Sentence} {n : Nat}
    {ev : Option Nat} (h : GoalChain m s n c ev) (hs : MentionsOnly ok s.term) : MentionsOnly ok c.term := by
  induction h with
  | one h => exact h.mentions hm hs
  | more _ h ih => exact h.mentions hm ih

theorem GoalsMention.infer {g g' : GoalSystem} {t : Int} {m : PMem} {d1 d2 : Rat} {rng : List Nat}
    (hm : ∀ b ∈ m.heap, MentionsOnly ok b.term) (h : GoalsMention ok g) (hi : sampleAndInference g t m d1 d2 rng = .ok g') :
    GoalsMention ok g' := by
  intro x hx
  rcases (sampleAndInference_spec hi).2.2 x hx with k | ⟨i, e, c, a, he, -, ⟨n, hc, -⟩, rfl⟩
  · exact h x k
  · exact hc.mentions hm (h e (.inr ⟨i, he⟩))

theorem GoalsMention.work {decay : Int → Rat} {t : Int} {m : PMem} (hm : ∀ b ∈ m.heap, MentionsOnly ok b.term)
    {infs : List (Rat × Rat × List Nat)} {g g' : GoalSystem} (h : GoalsMention ok g)
    (hw : (goalWork t m infs).foldlM (GoalOp.run decay) g = .ok g') : GoalsMention ok g' := by
  refine foldlM_inv (fun g => GoalsMention ok g) hw h ?_
  intro op hop a b ha hr
  unfold goalWork at hop
  rcases List.mem_append.1 hop with k | k
  · split at k
    · rw [List.mem_singleton] at k; subst k
      exact ha.limit hr
    · cases k
  · obtain ⟨d, -, rfl⟩ := List.mem_map.1 k
    exact ha.infer hm hr

/-! ## the whole state -/

/-- the acting side knows only such names -/
structure PMentions (ok : String → Prop) (p : Proc) : Prop where
  heap : ∀ b ∈ p.mem.heap, MentionsOnly ok b.term
  queue : ∀ m ∈ p.queue, MentionsOnly ok m.1.term
  goals : GoalsMention ok p.goals
  trace : ∀ e ∈ p.trace, MentionsOnly ok e.name
  ops : ∀ o ∈ p.ops, o.babbleable = true → ok o.name

theorem IsOption.mentions {p : Proc} (h : PMentions ok p) {seq : Term} {x : Rat} {ev : Option Nat} (ho : IsOption p seq x ev) :
    MentionsOnly ok seq := by
  rcases ho with ⟨e, event, first, rest, a, he, hr, ht, hu, rfl, -⟩ |
    ⟨e, last, T, tv, r, rs, b, acts, effect, he, hl, -, hp, hb, hbt, rfl, -⟩
  · exact mentionsOnly_subst hu (h.trace event ((newest_suffix _ _).subset hr)) (h.goals e he)
  · have := h.heap b (List.mem_of_getElem? hb)
    rw [hbt] at this
    unfold rule at this
    exact (mentionsOnly_stmt.1 this).1

theorem Adopted.mentions {p : Proc} (h : PMentions ok p) {g : GoalSystem} (ha : Adopted p g) : GoalsMention ok g := by
  rcases ha with rfl | ⟨seq, x, r, b, acts, op, args, name, tv, hopt, -, -, -, rfl, -, hadd⟩
  · exact h.goals
  · exact h.goals.add (show MentionsOnly ok op from mentionsOnly_seq.1 (hopt.mentions h) _ (by simp)) hadd

/-- which events are in the trace after a step, for operators about whose reports something is known -/
theorem narStep1_trace {call : Call} {P : List Term → Event → Prop}
    (hcall : ∀ name args q q', call name args q = .ok q' → ∃ evs, q' = { q with trace := q.trace ++ evs } ∧ ∀ e ∈ evs, P args e)
    {decay : Int → Rat} {p p' : Proc} {rng : List Nat} {infs : List (Rat × Rat × List Nat)} {act : Option Term}
    (h : narStep1 call decay p rng infs = .ok (p', act)) :
    ∀ e ∈ p'.trace, e ∈ p.trace ∨ (∃ t args name, act = some t ∧ IsCall t args name ∧ P args e) ∨ act = some e.name := by
  unfold narStep1 at h
  obtain ⟨⟨p1, picked, rng1⟩, h1, h⟩ := R.bind_ok.1 h
  obtain ⟨⟨p2, executed⟩, h2, h⟩ := R.bind_ok.1 h
  obtain ⟨p3, h3, h⟩ := R.bind_ok.1 h
  obtain ⟨p4, h4, h⟩ := R.bind_ok.1 h
  obtain ⟨rfl, rfl⟩ := Prod.mk.inj (Except.ok.inj h)
  obtain ⟨g, an, rfl⟩ : ∃ g an, p1 = { p with goals := g, anticipated := an } := by
    obtain ⟨g, hg, hd⟩ := decideAction_spec h1
    rcases hd with ⟨e, i, r, b, iv, k1, k2, k3, k4, k5, k6, k7, k8⟩ | ⟨k1, k2, k3⟩
    · exact ⟨_, _, k8⟩
    · exact ⟨g, p.anticipated, k2⟩
  have hr : OnlyReports call := by
    intro name args q q' hq
    obtain ⟨evs, he, -⟩ := hcall name args q q' hq
    exact ⟨evs, he⟩
  have key : ∀ e ∈ p2.trace, e ∈ p.trace ∨ (∃ t args name, executed = some t ∧ IsCall t args name ∧ P args e) ∨
      executed = some e.name := by
    rcases execute_spec hr h2 with ⟨rfl, rfl, -⟩ | ⟨t, args, name, q1, evs, rfl, rfl, k1, -, k3, k4, rfl⟩
    · exact fun e he => .inl he
    · intro e he
      obtain ⟨evs', e1, e2⟩ := hcall _ _ _ _ k3
      have : evs = evs' := by
        rw [k4] at e1
        have := congrArg Proc.trace e1
        exact List.append_cancel_left this
      subst this
      rcases List.mem_append.1 he with he | he
      · rcases List.mem_append.1 he with he | he
        · exact .inl he
        · exact .inr (.inl ⟨t, args, name, rfl, k1, e2 e he⟩)
      · rw [List.mem_singleton] at he
        subst he
        exact .inr (.inr rfl)
  obtain ⟨concepts, goals, rfl, -⟩ := limitAll_spec h3
  obtain ⟨goals', rfl, -⟩ := inferGoals_spec (decay := decay) h4
  intro e he
  exact key e ((newest_suffix _ _).subset he)

theorem ReportsOnly.reports {call : Call} (h : ReportsOnly ok call) : OnlyReports call := by
  intro name args q q' hq
  obtain ⟨evs, he, -⟩ := h name args q q' hq
  exact ⟨evs, he⟩

theorem narStep1_mentions {call : Call} (hcall : ReportsOnly ok call) (hself : ok "SELF") {decay : Int → Rat} {p p' : Proc}
    {rng : List Nat} {infs : List (Rat × Rat × List Nat)} {act : Option Term} (h : PMentions ok p)
    (hs : narStep1 call decay p rng infs = .ok (p', act)) : PMentions ok p' ∧ ∀ t, act = some t → MentionsOnly ok t := by
  have htr := narStep1_trace (P := fun args e => (∀ a ∈ args, MentionsOnly ok a) → MentionsOnly ok e.name)
    (fun name args q q' hq => by
      obtain ⟨evs, e1, e2⟩ := hcall name args q q' hq
      exact ⟨evs, e1, fun e he k => e2 k e he⟩) hs
  obtain ⟨g, g2, an, evs, concepts, goals, ha, hd, -, hp', -, -, -, hwork⟩ := narStep1_spec hcall.reports hs
  have hg := ha.mentions h
  have hact : ∀ t, act = some t → MentionsOnly ok t := by
    rintro t rfl
    rcases hd with ⟨e, i, r, b, iv, he, -, -, -, -, -, -, -, k9, k10⟩ | ⟨-, -, -, k⟩
    · by_cases hreg : RegisteredCall p.ops e.sentence.term
      · rw [Option.some.inj (k9 hreg)]
        exact hg e (.inl (List.mem_of_getElem? he))
      · cases k10 hreg
    · rcases k with k | ⟨k1, op, ho, k2, k⟩
      · cases k
      · rw [Option.some.inj k]
        refine mentionsOnly_encode.2 ⟨?_, h.ops op ho k2⟩
        intro a ha
        rw [List.mem_singleton.1 ha]
        exact mentionsOnly_self hself
  have hgoals : GoalsMention ok goals := by
    refine GoalsMention.work (m := p'.mem) (by rw [hp']; exact h.heap) ?_ hwork
    rcases hd with ⟨e, i, r, b, iv, -, -, -, -, -, -, rfl, -⟩ | ⟨-, rfl, -⟩
    · exact hg.erase i
    · exact hg
  have htrace : ∀ e ∈ p'.trace, MentionsOnly ok e.name := by
    intro e he
    rcases htr e he with k | ⟨t, args, name, rfl, hc, k⟩ | rfl
    · exact h.trace e k
    · exact k (mentionsOnly_call hc (hact t rfl)).1
    · exact hact _ rfl
  refine ⟨?_, hact⟩
  rw [hp'] at htrace ⊢
  exact ⟨h.heap, h.queue, hgoals, htrace, h.ops⟩

theorem narStep0_mentions {p p' : Proc} {draws : Nat → SampleDraws} (h : PMentions ok p) (hs : narStep0 p draws = .ok p') :
    PMentions ok p' := by
  obtain ⟨heap, new, rfl, h1, -, h2, h3⟩ := narStep0_spec hs
  refine ⟨?_, ?_, ?_, h.trace, h.ops⟩
  · intro b' hb'
    have hg : ∀ (r : Nat) (b : Sentence), p.mem.heap[r]? = some b → ∃ b', heap[r]? = some b' ∧ Grown b b' := by
      intro r b hb
      obtain ⟨b', hb', hd⟩ := h3 r b hb
      exact ⟨b', hb', hd.grown⟩
    obtain ⟨b, hb, hbg⟩ := HeapGrown.mem h2 hg hb'
    rw [hbg.1]; exact h.heap b hb
  · intro m hm
    rcases List.mem_append.1 hm with hm | hm
    · exact h.queue m hm
    · obtain ⟨-, first, acts, act, last, n, args, name, hsub, -, -, -, -, hterm, -⟩ := h1 m hm
      rw [hterm]
      have hmem : ∀ e ∈ first :: (acts ++ [act, last]), MentionsOnly ok e.name := fun e he => h.trace e (hsub.subset he)
      refine mentionsOnly_rule.2 ⟨hmem first (by simp), ?_, hmem last (by simp)⟩
      intro a ha
      obtain ⟨e, he, rfl⟩ := List.mem_map.1 ha
      exact hmem e (by rcases List.mem_append.1 he with he | he <;> simp_all)
  · show GoalsMention ok (satisfyLast p)
    unfold satisfyLast
    split
    · exact h.goals.satisfyAll _
    · exact h.goals

theorem workerStep_mentions {p : Proc} (h : PMentions ok p) (rng : List Nat) : PMentions ok (workerStep p rng) := by
  obtain ⟨r1, r2, r3, r4, r5⟩ := workerStep_rest p rng
  refine ⟨?_, fun m hm => h.queue m (r5 m hm), by rw [workerStep_goals]; exact h.goals, by rw [r1]; exact h.trace,
    by rw [r3]; exact h.ops⟩
  intro b hb
  rcases workerStep_terms p rng b hb with hb | ⟨m, hm, hb | ⟨ts, rng', hts, hb⟩⟩
  · exact h.heap b hb
  · rw [hb]; exact h.queue m hm
  · exact matchandintro_mentions (h.queue m hm) hts hb

theorem workers_mention (l : List (List Nat)) : ∀ {p : Proc}, PMentions ok p → PMentions ok (l.foldl workerStep p) := by
  induction l with
  | nil => exact fun h => h
  | cons a l ih => exact fun h => ih (workerStep_mentions h a)

theorem ProcOp.run_mentions {call : Call} (hcall : ReportsOnly ok call) (hself : ok "SELF") {decay : Int → Rat} {p p' : Proc}
    {op : ProcOp} (hg : ∀ t, op.Gives t → MentionsOnly ok t) (hp : PMentions ok p) (h : op.run call decay p = .ok p') :
    PMentions ok p' := by
  cases op with
  | event t =>
    cases h
    refine ⟨hp.heap, hp.queue, hp.goals, ?_, hp.ops⟩
    intro e he
    rcases List.mem_append.1 he with he | he
    · exact hp.trace e he
    · rw [List.mem_singleton] at he; subst he; exact hg t rfl
  | flush =>
    cases h
    exact ⟨hp.heap, hp.queue, hp.goals, (fun e he => by cases he), hp.ops⟩
  | goal t tv id =>
    obtain ⟨g, ha, h⟩ := R.bind_ok.1 h
    cases h
    exact ⟨hp.heap, hp.queue, hp.goals.add (hg t rfl) ha, hp.trace, hp.ops⟩
  | rule t tv id n rng =>
    obtain ⟨m, hm, h⟩ := R.bind_ok.1 h
    cases h
    exact ⟨memAddEvidence_mentions hm (hg t rfl) hp.heap, hp.queue, hp.goals, hp.trace, hp.ops⟩
  | step0 draws => exact narStep0_mentions hp h
  | step1 rng infs =>
    obtain ⟨⟨p1, act⟩, hn, rfl⟩ := R.map_ok.1 h
    exact (narStep1_mentions hcall hself hp hn).1
  | worker rng => cases h; exact workerStep_mentions hp rng

theorem runProc_mentions {call : Call} (hcall : ReportsOnly ok call) (hself : ok "SELF") {decay : Int → Rat} {p p' : Proc}
    {ops : List ProcOp} (hg : ∀ op ∈ ops, ∀ t, op.Gives t → MentionsOnly ok t) (hp : PMentions ok p)
    (h : runProc call decay p ops = .ok p') : PMentions ok p' :=
  foldlM_inv (fun q : Proc => PMentions ok q) h hp (fun op ho _ _ hx hs => ProcOp.run_mentions hcall hself (hg op ho) hx hs)

/-! ## the operators of the library -/

/-- the effects mention only such names -/
def EffectsMention (ok : String → Prop) (effs : List OpEffect) : Prop := ∀ e, .inject e ∈ effs → MentionsOnly ok e

theorem execOne_mentions {call : Op → List Term → R (List OpEffect)} {ops : List Op}
    (hc : ∀ op args effs, call op args = .ok effs → (∀ a ∈ args, MentionsOnly ok a) → EffectsMention ok effs) {t : Term}
    {effs : List OpEffect} (h : execOne call ops t = .ok effs) (ht : MentionsOnly ok t) : EffectsMention ok effs := by
  unfold execOne at h
  split at h
  · rename_i args name hd
    split at h
    · obtain ⟨_, -, h⟩ := R.bind_ok.1 h
      exact hc _ _ _ h (mentionsOnly_call ((decodeOp_iff _ _ _).1 hd) ht).1
    · cases h; intro e he; cases he
  · cases h; intro e he; cases he

theorem mapM_from {α β : Type} {f : α → R β} {l : List α} : ∀ {r : List β}, l.mapM f = .ok r → ∀ x ∈ r, ∃ a ∈ l, f a = .ok x := by
  induction l with
  | nil => intro r h x hx; rw [List.mapM_nil] at h; cases h; cases hx
  | cons a l ih =>
    intro r h x hx
    rw [List.mapM_cons] at h
    obtain ⟨b, hb, h⟩ := R.bind_ok.1 h
    obtain ⟨bs, hbs, h⟩ := R.bind_ok.1 h
    cases h
    rcases List.mem_cons.1 hx with rfl | hx
    · exact ⟨a, by simp, hb⟩
    · obtain ⟨a', ha', e⟩ := ih hbs x hx
      exact ⟨a', by simp [ha'], e⟩

theorem callOp_mentions {ops : List Op} (n : Nat) : ∀ {op : Op} {args : List Term} {effs : List OpEffect},
    callOp ops n op args = .ok effs → (∀ a ∈ args, MentionsOnly ok a) → EffectsMention ok effs := by
  induction n with
  | zero => intro op args effs h; cases h
  | succ n ih =>
    intro op args effs h ha
    rw [callOp] at h
    split at h
    · cases h; intro e he; cases he
    · split at h
      · unfold execAndInject at h
        split at h
        · rename_i self seq ev
          obtain ⟨l, hl, h⟩ := R.bind_ok.1 h
          cases h
          intro e he
          rcases List.mem_append.1 he with he | he
          · obtain ⟨x, hx, he⟩ := List.mem_flatten.1 he
            obtain ⟨t, ht, hxt⟩ := mapM_from hl x hx
            exact execOne_mentions (fun op args effs => ih) hxt
              (mentionsOnly_seq.1 (ha (.Seq seq) (by simp)) t ht) e he
          · rw [List.mem_singleton] at he
            cases he
            exact ha ev (by simp)
        · cases h; intro e he; cases he
      · split at h
        · unfold nlpRel0 at h
          split at h
          · obtain ⟨_, -, h⟩ := R.bind_ok.1 h
            obtain ⟨_, -, h⟩ := R.bind_ok.1 h
            obtain ⟨_, -, h⟩ := R.bind_ok.1 h
            cases h
            intro e he
            rw [List.mem_singleton] at he
            cases he
          · cases h; intro e he; cases he
        · cases h; intro e he; cases he

theorem libCall_mentions (ok : String → Prop) : ReportsOnly ok libCall := by
  intro name args p p' h
  unfold libCall at h
  obtain ⟨effs, he, h⟩ := R.bind_ok.1 h
  have heff : (∀ a ∈ args, MentionsOnly ok a) → EffectsMention ok effs := by
    intro ha
    unfold opEffects at he
    split at he
    · exact callOp_mentions _ he ha
    · cases he; intro e he; cases he
  obtain rfl := Except.ok.inj h
  suffices hx : ∃ evs, effs.foldl applyInject p = { p with trace := p.trace ++ evs } ∧
      (EffectsMention ok effs → ∀ e ∈ evs, MentionsOnly ok e.name) by
    obtain ⟨evs, h1, h2⟩ := hx
    exact ⟨evs, h1, fun ha => h2 (heff ha)⟩
  clear * -
  induction effs generalizing p with
  | nil => exact ⟨[], by simp, fun _ e he => by cases he⟩
  | cons e effs ih =>
    rw [List.foldl_cons]
    obtain ⟨evs, h, h2⟩ := ih (applyInject p e)
    obtain ⟨evs0, h0, h3⟩ : ∃ evs0, applyInject p e = { p with trace := p.trace ++ evs0 } ∧
        (EffectsMention ok (e :: effs) → ∀ x ∈ evs0, MentionsOnly ok x.name) := by
      cases e with
      | inject ev =>
        refine ⟨[⟨ev, p.t, p.t⟩], rfl, fun k x hx => ?_⟩
        rw [List.mem_singleton] at hx
        subst hx
        exact k ev (by simp)
      | relate rel => exact ⟨[], by simp [applyInject], fun _ x hx => by cases hx⟩
    rw [h, h0]
    refine ⟨evs0 ++ evs, by simp, fun k x hx => ?_⟩
    rcases List.mem_append.1 hx with hx | hx
    · exact h3 k x hx
    · exact h2 (fun y hy => k y (List.mem_cons_of_mem _ hy)) x hx

/-! ## the whole reasoner -/

section
variable {env : Env} (hself : ok "SELF")
include hself

theorem inputT2_mentions {r r' : Reasoner} {term : Term} {punct : Punct} {tv : Tv} {isEvent : Bool} {rng : List Nat}
    (h : inputT2 env r term punct tv isEvent rng = .ok r')
    (hg : BearsOnActing term punct isEvent → MentionsOnly ok term) (hi : PMentions ok r.proc) : PMentions ok r'.proc := by
  have run : ∀ {p' : Proc} {op : ProcOp}, (∀ t, op.Gives t → MentionsOnly ok t) →
      op.run libCall env.goalDecay r.proc = .ok p' → PMentions ok p' :=
    fun k hr => ProcOp.run_mentions (libCall_mentions ok) hself k hi hr
  unfold inputT2 at h
  obtain ⟨_, _, h⟩ := R.bind_ok.1 h
  cases isEvent with
  | true =>
    simp only [if_true] at h
    unfold inputEventT at h
    cases punct with
    | GOAL =>
      obtain ⟨g, ha, h⟩ := R.bind_ok.1 h
      cases h
      exact run (op := .goal term tv r.sh.stampIdCounter) (by rintro t rfl; exact hg (by simp [BearsOnActing])) (by
        simp only [ProcOp.run, inputGoal]
        exact R.bind_ok.2 ⟨g, ha, rfl⟩)
    | QUESTION =>
      simp only [newEternalSentenceByTv] at h
      unfold addInputTask at h
      obtain ⟨sh, hs, h⟩ := R.bind_ok.1 h
      cases h; exact hi
    | JUGEMENT => cases h; exact run (op := .event term) (by rintro t rfl; exact hg (by simp [BearsOnActing])) rfl
  | false =>
    simp only [Bool.false_eq_true, if_false] at h
    unfold inputEternalT at h
    split at h
    · rename_i htmp
      cases punct with
      | GOAL => cases h; exact hi
      | QUESTION => cases h; exact hi
      | JUGEMENT =>
        obtain ⟨m, hm, h⟩ := R.bind_ok.1 h
        cases h
        exact run (op := .rule term tv r.sh.stampIdCounter r.nConceptBeliefs rng)
          (by rintro t rfl; exact hg (by exact ⟨(isTemporal_iff _).1 htmp, rfl⟩)) (by
            simp only [ProcOp.run, inputRule]
            exact R.bind_ok.2 ⟨m, hm, rfl⟩)
    · cases punct with
      | GOAL => cases h; exact hi
      | QUESTION => cases h; exact hi
      | JUGEMENT =>
        simp only [newEternalSentenceByTv] at h
        unfold addInputTask at h
        obtain ⟨sh, hs, h⟩ := R.bind_ok.1 h
        cases h; exact hi

theorem inputN_mentions {r r' : Reasoner} {txt : List Char} {b : Bool} {rng : List Nat}
    (h : inputN env r txt rng = .ok (r', b))
    (hg : ∀ t tv punct isEvent, parseNarsese env.pf txt = .ok (some (t, tv, punct, isEvent)) → BearsOnActing t punct isEvent →
      MentionsOnly ok t) (hi : PMentions ok r.proc) : PMentions ok r'.proc := by
  unfold inputN at h
  obtain ⟨p, hp, h⟩ := R.bind_ok.1 h
  split at h
  · obtain ⟨r1, h1, h⟩ := R.bind_ok.1 h
    cases h
    exact inputT2_mentions hself h1 (hg _ _ _ _ hp) hi
  · cases h; exact hi

theorem nlpProcess_mentions {r r' : Reasoner} {rels : List Relation} {rng : List Nat}
    (h : nlpProcess env r rels rng = .ok r')
    (hg : ∀ rel ∈ rels, ∀ txt t tv punct isEvent, convRelToNarsese env.sf rel = .ok txt →
      parseNarsese env.pf txt = .ok (some (t, tv, punct, isEvent)) → BearsOnActing t punct isEvent → MentionsOnly ok t)
    (hi : PMentions ok r.proc) : PMentions ok r'.proc := by
  unfold nlpProcess at h
  refine foldlM_inv (fun r : Reasoner => PMentions ok r.proc) h hi ?_
  rintro rel hrel a b ha hstep
  obtain ⟨txt, ht, hstep⟩ := R.bind_ok.1 hstep
  obtain ⟨⟨r1, b1⟩, h1, hstep⟩ := R.bind_ok.1 hstep
  cases hstep
  exact inputN_mentions hself h1 (fun t tv punct isEvent k => hg rel hrel txt t tv punct isEvent ht k) ha

theorem procStep_mentions {r r' : Reasoner} {d : LineDraws} (h : procStep env r d = .ok r') (hi : PMentions ok r.proc) :
    PMentions ok r'.proc := by
  unfold procStep at h
  obtain ⟨p, h0, h⟩ := R.bind_ok.1 h
  rw [procWork_fold] at h
  unfold procStep1 at h
  obtain ⟨⟨p2, executed⟩, hn, h⟩ := R.bind_ok.1 h
  rw [declEffects_proc h]
  exact (narStep1_mentions (libCall_mentions ok) hself (workers_mention d.between (narStep0_mentions hi h0)) hn).1

theorem runCommand_mentions {r r' : Reasoner} {d : LineDraws} {s : List Char} {c : Command} {out : List (List Char)}
    (h : runCommand env r d s c = .ok (r', out)) (hA : c ≠ .stepA) (hB : c ≠ .stepB)
    (hg : ∀ t, (c = .narsese ∧ ∃ tv punct isEvent, parseNarsese env.pf s = .ok (some (t, tv, punct, isEvent)) ∧
        BearsOnActing t punct isEvent) ∨
      ((∃ text, c = .nlp text) ∧ ∃ rel ∈ d.rels, ∃ txt tv punct isEvent, convRelToNarsese env.sf rel = .ok txt ∧
        parseNarsese env.pf txt = .ok (some (t, tv, punct, isEvent)) ∧ BearsOnActing t punct isEvent) → MentionsOnly ok t)
    (hn : ∀ arg op, c = .register arg → registeredOp (splitWhitespace arg []) = some op → op.babbleable = true → ok op.name)
    (hi : PMentions ok r.proc) : PMentions ok r'.proc := by
  cases c with
  | comment => cases h; exact hi
  | step =>
    obtain ⟨r1, h1, h⟩ := R.bind_ok.1 h
    cases h; exact procStep_mentions hself h1 hi
  | stepA =>
    exact absurd rfl hA
  | stepB =>
    exact absurd rfl hB
  | cycles arg =>
    obtain ⟨n, _, h⟩ := R.bind_ok.1 h
    obtain ⟨r1, h1, h⟩ := R.bind_ok.1 h
    cases h; rw [cyclesLoop_proc h1]; exact hi
  | flush => cases h; exact hi
  | register arg =>
    simp only [runCommand] at h
    split at h
    · rename_i op hop
      cases h
      refine ⟨hi.heap, hi.queue, hi.goals, hi.trace, ?_⟩
      intro o ho hb
      rcases List.mem_append.1 ho with ho | ho
      · exact hi.ops o ho hb
      · rw [List.mem_singleton] at ho
        subst ho
        exact hn arg _ rfl hop hb
    · cases h; exact hi
  | showEvidence =>
    obtain ⟨_, _, h⟩ := R.bind_ok.1 h
    cases h; exact hi
  | babbleOff => cases h; exact ⟨hi.heap, hi.queue, hi.goals, hi.trace, hi.ops⟩
  | babbleOn => cases h; exact ⟨hi.heap, hi.queue, hi.goals, hi.trace, hi.ops⟩
  | nlp a =>
    obtain ⟨r1, h1, h⟩ := R.bind_ok.1 h
    cases h; exact nlpProcess_mentions hself h1
      (fun rel hr txt t tv punct isEvent k1 k2 k3 => hg t (.inr ⟨⟨_, rfl⟩, rel, hr, txt, tv, punct, isEvent, k1, k2, k3⟩)) hi
  | debugTasks =>
    obtain ⟨_, _, h⟩ := R.bind_ok.1 h
    cases h; exact hi
  | debugMemory => cases h; exact hi
  | quit => cases h; exact hi
  | empty => cases h; exact hi
  | narsese =>
    obtain ⟨⟨r1, b⟩, h1, h⟩ := R.bind_ok.1 h
    cases h; exact inputN_mentions hself h1 (fun t tv punct isEvent k1 k2 => hg t (.inl ⟨rfl, tv, punct, isEvent, k1, k2⟩)) hi

theorem NarOp.run_mentions {r r' : Reasoner} {op : NarOp} (h : op.run env r = .ok r')
    (hg : ∀ t, GivesForActing env op t → MentionsOnly ok t) (hn : ∀ n, Permits op n → ok n) (hi : PMentions ok r.proc) :
    PMentions ok r'.proc := by
  cases op with
  | line l d =>
    obtain ⟨x, h1, rfl⟩ := R.map_ok.1 h
    unfold input at h1
    obtain ⟨c, hc, h1⟩ := R.bind_ok.1 h1
    obtain ⟨⟨r1, out⟩, h2, h1⟩ := R.bind_ok.1 h1
    cases h1
    exact runCommand_mentions hself h2 (by rintro rfl; exact dispatch_ne_stepA _ hc) (by rintro rfl; exact dispatch_ne_stepB _ hc)
      (fun t k => hg t (by
        rcases k with ⟨rfl, k⟩ | ⟨⟨x, rfl⟩, k⟩
        · exact .inl ⟨hc, k⟩
        · exact .inr ⟨⟨x, hc⟩, k⟩)) (fun arg op e k1 k2 => hn op.name ⟨arg, op, by rw [hc, e], k1, k2, rfl⟩) hi
  | tell term punct tv isEvent rng => exact inputT2_mentions hself h (fun k => hg term ⟨rfl, k⟩) hi
  | cycle v => rw [(cycle_same h).1]; exact hi
  | declWork => cases h; rw [(declWork_same env r).1]; exact hi
  | procWork rng => cases h; exact workerStep_mentions hi rng
  | handlers n => cases h; exact hi
  | verbosity v => cases h; exact hi
  | workerLost => cases h; exact hi
  | link => cases h; exact hi

theorem runNar_mentions {ops : List NarOp} {r : Reasoner} (h : runNar env ops = .ok r)
    (hg : ∀ op ∈ ops, ∀ t, GivesForActing env op t → MentionsOnly ok t) (hn : ∀ op ∈ ops, ∀ n, Permits op n → ok n) :
    PMentions ok r.proc := by
  refine foldlM_inv (fun r : Reasoner => PMentions ok r.proc) h ?_
    (fun op ho _ _ hx hs => NarOp.run_mentions hself hs (hg op ho) (hn op ho) hx)
  exact ⟨(fun b hb => by cases hb), (fun b hb => by cases hb), (fun e he => absurd he (makeGoalSystem_empty _ _ e)),
    (fun b hb => by cases hb), (fun b hb => by cases hb)⟩

end

theorem Started.mentions {p : Proc} (h : Started p) (ho : ∀ o ∈ p.ops, o.babbleable = true → ok o.name) : PMentions ok p := by
  obtain ⟨h1, -, h3⟩ := h.fresh
  obtain ⟨n, d, -, -, hg⟩ := h.goals
  refine ⟨?_, ?_, ?_, ?_, ho⟩
  · rw [h1]; intro b hb; cases hb
  · rw [h3]; intro b hb; cases hb
  · rw [hg]; exact fun e he => absurd he (makeGoalSystem_empty n d e)
  · rw [h.trace]; intro b hb; cases hb

end Nar
