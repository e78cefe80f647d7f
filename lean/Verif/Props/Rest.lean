import Verif.Lemmas.Exact3
import Verif.Props.Thinks
import Verif.Props.Bounded
/-! # Property theorems: nothing is overlooked, and thinking to the end (C119) -/
namespace Nar.Props
open Nar Term

/-- Of two tasks whose turn is over and which have a term in common, one was combined with the other: everything which follows from the
two in one of the two orders is among the tasks, whenever they came in and whichever came first. -/
theorem C119_no_pair_overlooked (cfg : Cfg) (ops : List SysOp) (s : Sys) (h : runSys cfg ops = .ok s) (hf : SysOp.flush ∉ ops)
    (hc : cyclesIn ops < 111) (room : Room s.sh) (a b : Nat) (ta tb : Task) (ha : TurnOver s a) (hb : TurnOver s b)
    (hta : s.sh.heap[a]? = some ta) (htb : s.sh.heap[b]? = some tb)
    (hx : ∃ x, IsSubterm x ta.sentence.term ∧ IsSubterm x tb.sentence.term) :
    (∀ c w, Follows ta.sentence tb.sentence c w → Concluded cfg s c) ∨ ∀ c w, Follows tb.sentence ta.sentence c w → Concluded cfg s c := by
  obtain ⟨x, h1, h2⟩ := hx
  rcases ((fair_run h hf hc).1 room).pairs a b ha.2.1 hb.2.1 ⟨ta, tb, x, hta, htb, h1, h2⟩ with (⟨m, hm, e, _⟩ | k) | ⟨m, hm, e, _⟩ | k
  · exact absurd e (ha.2.2 m hm)
  · exact .inl fun c w => k ta tb hta htb c w
  · exact absurd e (hb.2.2 m hm)
  · exact .inr fun c w => k tb ta htb hta c w

/-- When a task's turn is over everything which follows from it alone is among the tasks. -/
theorem C119_none_overlooked_alone (cfg : Cfg) (ops : List SysOp) (s : Sys) (h : runSys cfg ops = .ok s) (hf : SysOp.flush ∉ ops)
    (hc : cyclesIn ops < 111) (room : Room s.sh) (a : Nat) (ta : Task) (ha : TurnOver s a) (hta : s.sh.heap[a]? = some ta)
    (c : Sentence) (w : Rat) (hw : FollowsAlone ta.sentence c w) : Concluded cfg s c := by
  rcases ((fair_run h hf hc).1 room).alone a ha.1 ha.2.1 with ⟨m, hm, e⟩ | k
  · exact absurd e (ha.2.2 m hm)
  · exact k ta hta c w hw

/-- When thinking has come to rest everything which can be deduced from what was put in is known: for every statement which the documented
rules derive in any number of steps, never combining statements which rest on the same evidence, there is a task with that statement, and it
rests on no other evidence. -/
theorem C119_everything_deduced (cfg : Cfg) (ops : List SysOp) (s : Sys) (h : runSys cfg ops = .ok s) (hs : ∀ op ∈ ops, op.Sane)
    (hf : SysOp.flush ∉ ops) (hc : cyclesIn ops < 111) (room : Room s.sh) (hr : AtRest s) (t : Term) (E : List Int)
    (hd : Deducible cfg (PutIn ops) t E) : ∃ k ∈ s.sh.heap, k.sentence.term = t ∧ ∀ e ∈ k.sentence.stamp.ids, e ∈ E :=
  deducible_known ((fair_run h hf hc).1 room) hr (runSys_limited hs h).inv.good.1
    (fun _ ⟨_, _, _, hm⟩ hj hx => input_known h hm hj hx) hd

/-- `n` cycles, the worker dealing with every message at once -/
def think (n : Nat) : List SysOp := (List.range n).flatMap fun i => [.cycle (1/2) (i : Int), .work]

theorem room_of_lengths {sh : Shared} (h : sh.judgementTasksByTerm.all (fun p => decide (p.2.length ≤ 51)) = true) (hl : sh.heap.length ≤ 300) :
    Room sh where
  perTerm s refs hr := by
    obtain ⟨p, hp, rfl⟩ := Option.map_eq_some_iff.1 hr
    simpa using List.all_eq_true.1 h _ (List.mem_of_find?_eq_some hp)
  total := hl

/-- thinking comes to rest, and there is room -/
theorem chain_rests : (runSys cfg1 (threeTold ++ think 12)).map (fun s => (s.sh.judgementTasks, s.queue.length,
    s.sh.judgementTasksByTerm.all (fun p => decide (p.2.length ≤ 51)), decide (s.sh.heap.length ≤ 300))) = .ok ([], 0, true, true) := by
  decide +kernel

theorem threeTold_sane : ∀ op ∈ threeTold ++ think 12, op.Sane := by
  intro op hop
  rcases List.mem_append.1 hop with hop | hop
  · have : ∀ x y : String, ∀ i : Int, (SysOp.input (jdg x y 1 (9/10) i) true 1 0).Sane := fun x y i _ =>
      ⟨⟨1, 9/10⟩, rfl, wf_stmt.2 ⟨wf_iff.2 ⟨trivial, by simp [parts]⟩, wf_iff.2 ⟨trivial, by simp [parts]⟩⟩, by unfold Tv.Sane; decide +kernel⟩
    simp only [threeTold, List.mem_cons, List.not_mem_nil, or_false] at hop
    rcases hop with rfl | rfl | rfl <;> exact this _ _ _
  · obtain ⟨i, _, hi⟩ := List.mem_flatMap.1 hop
    simp only [List.mem_cons, List.not_mem_nil, or_false] at hi
    rcases hi with rfl | rfl <;> exact trivial

/-- `a --> d` follows in two steps from the three statements -/
theorem threeTold_deducible : Deducible cfg1 (PutIn (threeTold ++ think 12)) (.Stmt .INH (.Name "a") (.Name "d")) ([1, 2] ++ [3]) := by
  have h1 : Deducible cfg1 (PutIn (threeTold ++ think 12)) (.Stmt .INH (.Name "a") (.Name "b")) [1] :=
    .told (jdg "a" "b" 1 (9/10) 1) ⟨true, 1, 0, by simp [threeTold]⟩ rfl (by decide)
  have h2 : Deducible cfg1 (PutIn (threeTold ++ think 12)) (.Stmt .INH (.Name "b") (.Name "c")) [2] :=
    .told (jdg "b" "c" 1 (9/10) 2) ⟨true, 1, 0, by simp [threeTold]⟩ rfl (by decide)
  have h3 : Deducible cfg1 (PutIn (threeTold ++ think 12)) (.Stmt .INH (.Name "c") (.Name "d")) [3] :=
    .told (jdg "c" "d" 1 (9/10) 3) ⟨true, 1, 0, by simp [threeTold]⟩ rfl (by decide)
  have h4 := Deducible.both _ _ (.Stmt .INH (.Name "a") (.Name "c")) _ _ h1 h2 (by decide)
    ⟨.Name "b", .inside (by simp [parts]) (.refl _), .inside (by simp [parts]) (.refl _)⟩
    ⟨⟨1, 1⟩, ⟨1, 1⟩, _, .deduction .INH _ _ _ _ _ (.inl rfl) (by decide)⟩ (by decide)
  exact Deducible.both _ _ (.Stmt .INH (.Name "a") (.Name "d")) _ _ h4 h3 (by decide)
    ⟨.Name "c", .inside (by simp [parts]) (.refl _), .inside (by simp [parts]) (.refl _)⟩
    ⟨⟨1, 1⟩, ⟨1, 1⟩, _, .deduction .INH _ _ _ _ _ (.inl rfl) (by decide)⟩ (by decide)

example : ∃ s, runSys cfg1 (threeTold ++ think 12) = .ok s ∧ AtRest s ∧ Room s.sh ∧
    ∃ k ∈ s.sh.heap, k.sentence.term = .Stmt .INH (.Name "a") (.Name "d") ∧ ∀ e ∈ k.sentence.stamp.ids, e ∈ [1, 2, 3] := by
  obtain ⟨s, hs, h⟩ := R.map_ok.1 chain_rests
  simp only [Prod.mk.injEq, decide_eq_true_eq] at h
  obtain ⟨h1, h2, h3, h4⟩ := h
  have hr : AtRest s := ⟨h1, List.length_eq_zero_iff.1 h2⟩
  have hroom := room_of_lengths h3 h4
  exact ⟨s, hs, hr, hroom, C119_everything_deduced cfg1 _ s hs threeTold_sane (by simp [threeTold, think]) (by decide) hroom hr _ _ threeTold_deducible⟩

/-- Conversely nothing else is known, at any time: every task can be deduced from what was put in, with no more evidence than it rests on.
(As long as no more than 120 pieces of evidence are around, so that none is forgotten.) -/
theorem C119_only_deducible (cfg : Cfg) (ops : List SysOp) (s : Sys) (h : runSys cfg ops = .ok s) (hs : ∀ op ∈ ops, op.Sane) (U : List Int)
    (hU : U.length ≤ 120) (he : EvidenceFrom U ops) (k : Task) (hk : k ∈ s.sh.heap) :
    ∃ E, Deducible cfg (PutIn ops) k.sentence.term E ∧ ∀ e ∈ E, e ∈ k.sentence.stamp.ids :=
  ((grounded_run hU h hs he).all.1 k hk).deduced

/-- So when thinking has come to rest the statements known are exactly those which can be deduced. -/
theorem C119_known_iff_deducible (cfg : Cfg) (ops : List SysOp) (s : Sys) (h : runSys cfg ops = .ok s) (hs : ∀ op ∈ ops, op.Sane)
    (hf : SysOp.flush ∉ ops) (hc : cyclesIn ops < 111) (room : Room s.sh) (hr : AtRest s) (U : List Int) (hU : U.length ≤ 120)
    (he : EvidenceFrom U ops) (t : Term) :
    (∃ k ∈ s.sh.heap, k.sentence.term = t) ↔ ∃ E, Deducible cfg (PutIn ops) t E := by
  constructor
  · rintro ⟨k, hk, rfl⟩
    obtain ⟨E, h1, _⟩ := C119_only_deducible cfg ops s h hs U hU he k hk
    exact ⟨E, h1⟩
  · rintro ⟨E, hd⟩
    obtain ⟨k, hk, e, _⟩ := C119_everything_deduced cfg ops s h hs hf hc room hr t E hd
    exact ⟨k, hk, e⟩

theorem threeTold_evidence : EvidenceFrom [1, 2, 3] (threeTold ++ think 12) := by
  rintro s ⟨cc, mc, now, hm⟩
  rcases List.mem_append.1 hm with hm | hm
  · simp only [threeTold, List.mem_cons, List.not_mem_nil, or_false, SysOp.input.injEq] at hm
    rcases hm with ⟨rfl, _⟩ | ⟨rfl, _⟩ | ⟨rfl, _⟩ <;> simp [jdg, newEternalSentenceByTv]
  · obtain ⟨i, _, hi⟩ := List.mem_flatMap.1 hm
    simp at hi

/-- `d --> a` is not known, so it cannot be deduced; `a --> d` can -/
example : (¬ ∃ E, Deducible cfg1 (PutIn (threeTold ++ think 12)) (.Stmt .INH (.Name "d") (.Name "a")) E) ∧
    ∃ E, Deducible cfg1 (PutIn (threeTold ++ think 12)) (.Stmt .INH (.Name "a") (.Name "d")) E := by
  have h : (runSys cfg1 (threeTold ++ think 12)).map (fun s => ((s.sh.judgementTasks, s.queue.length,
      s.sh.judgementTasksByTerm.all (fun p => decide (p.2.length ≤ 51)), decide (s.sh.heap.length ≤ 300)),
      s.sh.heap.any (fun k => decide (k.sentence.term = .Stmt .INH (.Name "d") (.Name "a"))))) = .ok (([], 0, true, true), false) := by
    decide +kernel
  obtain ⟨s, hs, h⟩ := R.map_ok.1 h
  simp only [Prod.mk.injEq, decide_eq_true_eq] at h
  obtain ⟨⟨h1, h2, h3, h4⟩, h5⟩ := h
  refine ⟨fun hd => ?_, _, threeTold_deducible⟩
  obtain ⟨k, hk, e⟩ := (C119_known_iff_deducible cfg1 _ s hs threeTold_sane (by simp [threeTold, think]) (by decide) (room_of_lengths h3 h4)
    ⟨h1, List.length_eq_zero_iff.1 h2⟩ [1, 2, 3] (by decide) threeTold_evidence _).2 hd
  have := List.any_eq_false.1 h5 k hk
  simp [e] at this

/-- A new reasoner is asked some questions and told a handful of different statements, then it thinks: cycles and rounds of its worker in
any arrangement.  If it comes to rest everything which can be deduced from the statements is known. -/
theorem C119_new_reasoner (env : Env) (k : Nat) (qs : List Term) (sts : List (Term × Tv)) (ts : List NarOp) (r : Reasoner)
    (hq : ∀ q ∈ qs, Printable q ∧ calcComplexity q ≤ 64) (hs : Handful sts) (ht : ∀ op ∈ ts, op.Thinking) (hc : thinkingCycles ts < 111)
    (h : runNar env (.handlers k :: (askAll qs ++ tellAll sts) ++ ts) = .ok r) (room : Room r.sh) (hr : AtRest r.sys)
    (t : Term) (E : List Int) (cfg : Cfg) (hcfg : cfg.maxComplexity = 64)
    (hd : Deducible cfg (fun s => ∃ i A, sts[i]? = some A ∧ s = toldAs (qs.length + i) A) t E) :
    ∃ x ∈ r.sh.heap, x.sentence.term = t ∧ ∀ e ∈ x.sentence.stamp.ids, e ∈ E := by
  obtain ⟨cfg', hm, h1, h2, h3⟩ := new_deduced hq hs ht hc h
  have hd' : Deducible cfg' (fun s => ∃ i A, sts[i]? = some A ∧ s = toldAs (qs.length + i) A) t E := hd.limit (by rw [hm, hcfg])
  exact deducible_known (s := r.sys) (h1 room) hr h2 (by
    rintro _ ⟨i, A, hA, rfl⟩ _ _
    exact h3 i A hA) hd'

/-- At rest such a reasoner knows exactly what can be deduced. -/
theorem C119_new_reasoner_exact (env : Env) (k : Nat) (qs : List Term) (sts : List (Term × Tv)) (ts : List NarOp) (r : Reasoner)
    (hq : ∀ q ∈ qs, Printable q ∧ calcComplexity q ≤ 64) (hs : Handful sts) (ht : ∀ op ∈ ts, op.Thinking) (hc : thinkingCycles ts < 111)
    (h : runNar env (.handlers k :: (askAll qs ++ tellAll sts) ++ ts) = .ok r) (room : Room r.sh) (hr : AtRest r.sys)
    (t : Term) (cfg : Cfg) (hcfg : cfg.maxComplexity = 64) :
    (∃ x ∈ r.sh.heap, x.sentence.term = t) ↔
      ∃ E, Deducible cfg (fun s => ∃ i A, sts[i]? = some A ∧ s = toldAs (qs.length + i) A) t E := by
  constructor
  · rintro ⟨x, hx, rfl⟩
    obtain ⟨E, h1, _⟩ := new_grounded hq hs ht h hcfg x hx
    exact ⟨E, h1⟩
  · rintro ⟨E, hd⟩
    obtain ⟨x, hx, e, _⟩ := C119_new_reasoner env k qs sts ts r hq hs ht hc h room hr t E cfg hcfg hd
    exact ⟨x, hx, e⟩

/-- the conditions of the two theorems are met -/
example : ∃ r, runNar env0 (.handlers 1 :: (askAll [.Stmt .INH (.QVar "x") (.Name "c")] ++ tellAll twoPremises) ++
      (List.replicate 5 [NarOp.cycle (1/2), .declWork]).flatten) = .ok r ∧ AtRest r.sys ∧ Room r.sh := by
  have h : (runNar env0 (.handlers 1 :: (askAll [.Stmt .INH (.QVar "x") (.Name "c")] ++ tellAll twoPremises) ++
      (List.replicate 5 [NarOp.cycle (1/2), .declWork]).flatten)).map (fun r => (r.sh.judgementTasks, r.queue.length,
        r.sh.judgementTasksByTerm.all (fun p => decide (p.2.length ≤ 51)), decide (r.sh.heap.length ≤ 300))) = .ok ([], 0, true, true) := by
    decide +kernel
  obtain ⟨r, hr, h⟩ := R.map_ok.1 h
  simp only [Prod.mk.injEq, decide_eq_true_eq] at h
  obtain ⟨h1, h2, h3, h4⟩ := h
  exact ⟨r, hr, ⟨h1, List.length_eq_zero_iff.1 h2⟩, room_of_lengths h3 h4⟩

/-! ## where thinking does not come to rest -/

/-- Violated by relations: they go round in circles.  `(x * y) --> rel` yields `x --> (rel /1 y)`, which yields `(x * y) --> rel` again, with
the same evidence; only pending tasks are compared, so it is a new task each time.  Whatever else is put in and however the thinking is
arranged, there is no rest. -/
theorem C119_relations_never_rest (cfg : Cfg) (pre post : List SysOp) (s : Sys) (z : Sentence) (calcCredit : Bool) (mulCredit : Rat) (now : Int)
    (x y rel : Term) (hz : z.term ∈ relational x y rel) (hj : z.punct = .JUGEMENT)
    (hc : ∀ t ∈ relational x y rel, (calcComplexity t : Int) ≤ cfg.maxComplexity)
    (h : runSys cfg (pre ++ .input z calcCredit mulCredit now :: post) = .ok s)
    (hs : ∀ op ∈ pre ++ .input z calcCredit mulCredit now :: post, op.Sane) (hf : SysOp.flush ∉ pre ++ .input z calcCredit mulCredit now :: post)
    (hn : cyclesIn (pre ++ .input z calcCredit mulCredit now :: post) < 111) : ¬ AtRest s :=
  (busy_run (relational_circular hc) hz hj (hc _ hz) h hs hf hn).not_rest

/-- If a relation between names is all which was ever put in, the reasoner thinks about nothing else for ever: in however many cycles, it
never comes to rest, and all its tasks say the same. -/
theorem C119_one_relation_for_ever (cfg : Cfg) (ops : List SysOp) (s : Sys) (z : Sentence) (calcCredit : Bool) (mulCredit : Rat) (now : Int)
    (x y rel : String) (e : Int) (tv : Tv) (hz : z.term ∈ relational (.Name x) (.Name y) (.Name rel)) (hj : z.punct = .JUGEMENT)
    (htv : z.evi = some (.TV tv)) (hsane : Tv.Sane tv) (hev : z.stamp.ids = [e])
    (hc : ∀ t ∈ relational (.Name x) (.Name y) (.Name rel), (calcComplexity t : Int) ≤ cfg.maxComplexity)
    (ho : ∀ op ∈ ops, op.Thinking) (h : runSys cfg (.input z calcCredit mulCredit now :: ops) = .ok s) :
    ¬ AtRest s ∧ ∀ t ∈ s.sh.heap, t.sentence.term ∈ relational (.Name x) (.Name y) (.Name rel) ∧ t.sentence.stamp.ids = [e] := by
  have hw : WellFormed z.term := by
    simp only [relational, List.mem_cons, List.not_mem_nil, or_false] at hz
    have hname : ∀ n, WellFormed (.Name n) := fun n => wf_iff.2 ⟨trivial, by simp [parts]⟩
    rcases hz with e | e | e <;> rw [e]
    · exact wf_stmt.2 ⟨wf_iff.2 ⟨by simp [Shaped], by simp [parts, hname]⟩, hname _⟩
    · exact wf_stmt.2 ⟨hname _, wf_iff.2 ⟨by simp [Shaped], by simp [parts, hname]⟩⟩
    · exact wf_stmt.2 ⟨hname _, wf_iff.2 ⟨by simp [Shaped], by simp [parts, hname]⟩⟩
  obtain ⟨h1, h2⟩ := oneRelation_run hc (z := z) ⟨⟨hj, ⟨tv, htv, hsane⟩, hw⟩, hz, hev⟩ ho h
  exact ⟨h2.not_rest, fun t ht => ⟨(h1.1 t ht).2.1, (h1.1 t ht).2.2⟩⟩

/-- `(a * b) --> r` -/
def relation1 : Sentence := newEternalSentenceByTv (.Stmt .INH (.Prod [.Name "a", .Name "b"]) (.Name "r")) .JUGEMENT ⟨1, 9/10⟩ ⟨[1]⟩

/-- one statement has become 12 tasks -/
example : (runSys cfg1 (.input relation1 true 1 0 :: think 10)).map (fun s => (s.sh.judgementTasks.length, s.sh.heap.length)) = .ok (2, 12) := by
  decide +kernel

/-- the conditions are met: the agent is still thinking about it after a hundred cycles, or any other number -/
example (n : Nat) (s : Sys) (h : runSys cfg1 (.input relation1 true 1 0 :: think n) = .ok s) : ¬ AtRest s :=
  (C119_one_relation_for_ever cfg1 (think n) s relation1 true 1 0 "a" "b" "r" 1 ⟨1, 9/10⟩ (by decide) rfl rfl (by unfold Tv.Sane; decide +kernel) rfl
    (by decide) (fun op hop => by
      obtain ⟨i, _, hi⟩ := List.mem_flatMap.1 hop
      simp only [List.mem_cons, List.not_mem_nil, or_false] at hi
      rcases hi with rfl | rfl
      · exact .inr ⟨_, _, rfl⟩
      · exact .inl rfl) h).1

end Nar.Props
