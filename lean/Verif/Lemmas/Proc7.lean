import Verif.Lemmas.Proc6
/-! # Lemmas about the safety of the procedural reasoner -/
namespace Nar
open Term

/-- the term is an operator call or a sequence which ends in one -/
def EndsInCall (t : Term) : Prop :=
  (∃ args name, IsCall t args name) ∨ ∃ ini op args name, t = .Seq (ini ++ [op]) ∧ IsCall op args name

/-- what safety needs of the goals -/
structure GSafe (n : Nat) (g : GoalSystem) : Prop where
  inv : GInv g
  depth : 0 < g.nMaxDepth
  cap : 0 ≤ g.nMaxEntries
  usable : Usable g
  ev : ∀ e, Stored g e → ∀ r, e.evidence = some r → r < n ∧ EndsInCall e.sentence.term
  text : ∀ e, Stored g e → Printable e.sentence.term

theorem GSafe.mono {n n' : Nat} {g : GoalSystem} (h : GSafe n g) (hn : n ≤ n') : GSafe n' g :=
  ⟨h.inv, h.depth, h.cap, h.usable, fun e he r hr => ⟨by have := (h.ev e he r hr).1; omega, (h.ev e he r hr).2⟩, h.text⟩

/-- what safety needs of the reasoner -/
structure PSafe (p : Proc) : Prop where
  heap : ∀ b ∈ p.mem.heap, RuleOk p.table b
  queue : ∀ m ∈ p.queue, MsgOk p.ops p.table m.1
  refs : p.mem.RefsValid
  antic : ∀ a ∈ p.anticipated, a.evi < p.mem.heap.length
  goals : GSafe p.mem.heap.length p.goals
  trace : ∀ e ∈ p.trace, 0 ≤ e.evi ∧ PlainEvent p.ops e.name
  time : 0 ≤ p.t
  table : p.table ≠ []
  alive : p.workerAlive = true
  weights : ∀ o ∈ p.ops, 1 ≤ o.eviCnt

theorem PSafe.valid {p : Proc} (h : PSafe p) : p.mem.Valid := ⟨h.refs, fun b hb => (h.heap b hb).sane.truth⟩

/-! ## observations -/

theorem Observation.msg {p : Proc} {s : Sentence} (h : Observation p s) (hp : PSafe p) : MsgOk p.ops p.table s := by
  have hs := h.sane hp.weights
  obtain ⟨first, acts, act, last, n, args, name, hsub, hacts, _, _, _, h1, h2, h3, _, _, _, _⟩ := h
  have hmem : ∀ e ∈ first :: (acts ++ [act, last]), e ∈ p.trace := fun e he => hsub.subset he
  have htext : ∀ e ∈ first :: (acts ++ [act, last]), Printable e.name := fun e he => (hp.trace e (hmem e he)).2.1
  refine ⟨⟨hs, ?_, ?_, ?_, ?_⟩, first.name, (acts ++ [act]).map (·.name), last.name, h1, ?_, ?_⟩
  · obtain ⟨args, name, hc, _⟩ := hacts act (by simp)
    exact ⟨first.name, acts.map (·.name), act.name, last.name, args, name, by rw [h1]; simp, hc⟩
  · obtain ⟨v, l, hl⟩ := List.exists_cons_of_ne_nil hp.table
    obtain ⟨k, hk, he, _⟩ := findMinTableIdx_spec (last.occT - act.occT) v l
    rw [hl] at h3 ⊢
    exact ⟨k, by simp; omega, by rw [h3, he]⟩
  · rw [h2]
    intro hm
    obtain ⟨e, he, hev⟩ := List.mem_map.1 hm
    have := (hp.trace e (hmem e he)).1
    omega
  · rw [h1]
    refine printable_stmt.2 ⟨printable_seq.2 ⟨by simp, ?_⟩, htext last (by simp)⟩
    intro t ht
    rcases List.mem_cons.1 ht with rfl | ht
    · exact htext first (by simp)
    · obtain ⟨e, he, rfl⟩ := List.mem_map.1 ht
      exact htext e (by rcases List.mem_append.1 he with he | he <;> simp_all)
  · exact (hp.trace first (hmem first (by simp))).2
  · intro a ha
    obtain ⟨e, he, rfl⟩ := List.mem_map.1 ha
    exact hacts e he

theorem selectOps_cases {idxs : List Nat} (hne : idxs ≠ []) (n : Nat) (ds sel : List Nat) :
    (∃ r, selectOps idxs n ds sel = .ok r ∧ r ≠ []) ∨ selectOps idxs n ds sel = .error .fuel := by
  induction ds generalizing sel with
  | nil => exact .inr rfl
  | cons d ds ih =>
    have hlen : idxs.length ≠ 0 := by simpa using hne
    have hlt : d % idxs.length < idxs.length := Nat.mod_lt _ (by omega)
    rw [selectOps]
    simp only [genRange, if_neg hlen, bind, Except.bind, List.headD_cons, indexAt_ok.2 (List.getElem?_eq_getElem hlt)]
    by_cases hn : (if sel.contains idxs[d % idxs.length] then sel else sel ++ [idxs[d % idxs.length]]).length = n
    · rw [if_pos hn]
      refine .inl ⟨_, rfl, ?_⟩
      split
      · rename_i hc
        intro e
        rw [e] at hc
        simp at hc
      · simp
    · rw [if_neg hn]
      exact ih _

theorem selectOps_one {idxs : List Nat} (hne : idxs ≠ []) {ds : List Nat} (hd : ds ≠ []) :
    ∃ r, selectOps idxs 1 ds [] = .ok r := by
  obtain ⟨d, ds, rfl⟩ := List.exists_cons_of_ne_nil hd
  have hlen : idxs.length ≠ 0 := by simpa using hne
  have hlt : d % idxs.length < idxs.length := Nat.mod_lt _ (by omega)
  refine ⟨[idxs[d % idxs.length]], ?_⟩
  rw [selectOps]
  simp only [genRange, if_neg hlen, bind, Except.bind, List.headD_cons, indexAt_ok.2 (List.getElem?_eq_getElem hlt)]
  rfl

theorem lastIdx_total {p : Proc} (h : 3 ≤ p.trace.length) (mx prev : Nat) : ∃ i, lastIdx p mx prev = .ok i := by
  unfold lastIdx
  have hlt : p.trace.length - 2 < p.trace.length := by omega
  simp only [genRange, if_neg (show ¬ (2 : Nat) = 0 by omega), bind, Except.bind, indexAt_ok.2 (List.getElem?_eq_getElem hlt)]
  split <;> exact ⟨_, rfl⟩

theorem selectItems_cases {p : Proc} (h : 3 ≤ p.trace.length) (d : SampleDraws) :
    (∃ r, selectItems p d = .ok r) ∨ (selectItems p d = .error .fuel ∧ (p.nOpsMax = 1 → d.ops = [])) := by
  unfold selectItems
  simp only
  split
  · exact .inl ⟨_, rfl⟩
  · rename_i hlen
    have hne : calcIdxsOfOps p.ops p.trace ≠ [] := by simpa using hlen
    rcases selectOps_cases hne (nSelOps p (calcIdxsOfOps p.ops p.trace).length d.multi) d.ops [] with ⟨sel, hsel, hsne⟩ | hf
    · left
      obtain ⟨-, hmem, -⟩ := selectOps_spec hsel (by simp) (by simp)
      obtain ⟨mn, hmn⟩ : ∃ m, sel.min? = some m := by
        rw [← Option.isSome_iff_exists, List.isSome_min?_iff]; exact hsne
      obtain ⟨mx, hmx⟩ : ∃ m, sel.max? = some m := by
        rw [← Option.isSome_iff_exists, List.isSome_max?_iff]; exact hsne
      have hsl : ∀ i ∈ sel, i < p.trace.length := by
        intro i hi
        obtain ⟨e, he, _⟩ := mem_calcIdxsOfOps.1 (hmem i hi)
        exact (List.getElem?_eq_some_iff.1 he).1
      simp only [bind, Except.bind, hsel, hmn, hmx, unwrap]
      split
      · exact ⟨_, rfl⟩
      · rename_i hmn0
        obtain ⟨l, hl⟩ := lastIdx_total h mx d.prev
        have hll : l < p.trace.length := by
          rcases lastIdx_ok hl with h | ⟨h, _⟩ <;> omega
        have hmnl : mn < p.trace.length := hsl mn (List.min?_mem hmn)
        have hfl : d.first % mn < p.trace.length := by
          have := Nat.mod_lt d.first (show mn > 0 by omega)
          omega
        obtain ⟨items, hitems⟩ := mapM_indexAt_total (l := p.trace) (is := sortNat (d.first % mn :: (sel ++ [l]))) (by
          intro i hi
          have hi := (sortNat_perm _).mem_iff.1 hi
          rcases List.mem_cons.1 hi with rfl | hi
          · exact hfl
          · rcases List.mem_append.1 hi with hi | hi
            · exact hsl i hi
            · rw [List.mem_singleton] at hi; subst hi; exact hll)
        simp only [genRange, if_neg hmn0, List.headD_cons, hl, hitems]
        exact ⟨_, rfl⟩
    · right
      refine ⟨by simp only [bind, Except.bind, hf], ?_⟩
      intro h1
      by_contra hne'
      obtain ⟨r, hr⟩ := selectOps_one hne hne'
      simp only [nSelOps, if_pos h1] at hf
      rw [hr] at hf
      cases hf

theorem eviCntOf_total {ops : List Op} {first last a : Term} {acts : List Term} (h : RegisteredCall ops a) :
    ∃ n, eviCntOf ops (rule first (a :: acts) last) = .ok n := by
  obtain ⟨args, name, hc, _⟩ := h
  have hd := (decodeOp_iff a args name).2 hc
  unfold eviCntOf
  have h1 : retImplSeqOp (rule first (a :: acts) last) = .ok a := rfl
  simp only [h1, bind, Except.bind, hd, unwrap]
  split <;> exact ⟨_, rfl⟩

theorem evidenceOf_total {p : Proc} {ini : List Event} {last : Event} (h : 2 ≤ ini.length) :
    ∃ r, evidenceOf p (ini ++ [last]) = .ok r := by
  obtain ⟨first, a, acts, rfl⟩ : ∃ first a acts, ini = first :: a :: acts := by
    match ini, h with
    | first :: a :: acts, _ => exact ⟨_, _, _, rfl⟩
  unfold evidenceOf
  have hm : (((first :: a :: acts) ++ [last]).map (·.name)) = first.name :: ((a :: acts).map (·.name) ++ [last.name]) := by
    simp
  rw [hm]
  rcases tryBuildImplSeq_of (ops := p.ops) (first := first.name) (last := last.name) (acts := (a :: acts).map (·.name))
    (by simp) with ⟨h1, h2, -⟩ | ⟨h1, -⟩
  · simp only [h1, bind, Except.bind]
    obtain ⟨n, hn⟩ := eviCntOf_total (first := first.name) (last := last.name) (acts := acts.map (·.name)) (h2 a.name (by simp))
    have l1 : (first :: a :: acts ++ [last]).length - 1 < (first :: a :: acts ++ [last]).length := by simp
    have l2 : (first :: a :: acts ++ [last]).length - 2 < (first :: a :: acts ++ [last]).length := by simp
    simp only [List.map_cons]
    simp only [indexAt_ok.2 (List.getElem?_eq_getElem l1), indexAt_ok.2 (List.getElem?_eq_getElem l2), hn]
    exact ⟨_, rfl⟩
  · simp only [h1, bind, Except.bind]
    exact ⟨_, rfl⟩

theorem perceiveSample_cases {p : Proc} (h : 3 ≤ p.trace.length) (ha : p.workerAlive = true) (d : SampleDraws) :
    (∃ p', perceiveSample p d = .ok p') ∨ (perceiveSample p d = .error .fuel ∧ (p.nOpsMax = 1 → d.ops = [])) := by
  unfold perceiveSample
  rcases selectItems_cases h d with ⟨r, hr⟩ | ⟨hf, hn⟩
  · left
    simp only [bind, Except.bind, hr]
    cases r with
    | none => exact ⟨_, rfl⟩
    | some items =>
      obtain ⟨is, l, ini, last, rfl, _, _, _, hfa, h2, _⟩ := selectItems_spec hr
      obtain ⟨s, hs⟩ := evidenceOf_total (p := p) (last := last) (ini := ini) (by rw [← hfa.length_eq]; exact h2)
      simp only [hs]
      cases s with
      | none => exact ⟨_, rfl⟩
      | some s =>
        simp only [sendToWorker, ha, if_true]
        exact ⟨_, rfl⟩
  · right
    exact ⟨by simp only [bind, Except.bind, hf], hn⟩

theorem perceives_cases {is : List Nat} {draws : Nat → SampleDraws} {p : Proc} (h : 3 ≤ p.trace.length)
    (ha : p.workerAlive = true) :
    (∃ p', is.foldlM (fun p i => perceiveSample p (draws i)) p = .ok p') ∨
    (is.foldlM (fun p i => perceiveSample p (draws i)) p = .error .fuel ∧ (p.nOpsMax = 1 → ∃ i, (draws i).ops = [])) := by
  induction is generalizing p with
  | nil => exact .inl ⟨p, rfl⟩
  | cons i is ih =>
    rw [List.foldlM_cons]
    rcases perceiveSample_cases h ha (draws i) with ⟨p1, h1⟩ | ⟨hf, hn⟩
    · have : p1.trace = p.trace ∧ p1.workerAlive = p.workerAlive ∧ p1.nOpsMax = p.nOpsMax := by
        rcases perceiveSample_spec h1 with rfl | ⟨s, _, _, rfl⟩ <;> exact ⟨rfl, rfl, rfl⟩
      simp only [bind, Except.bind, h1]
      rcases ih (p := p1) (by rw [this.1]; exact h) (by rw [this.2.1]; exact ha) with h2 | ⟨h2, h3⟩
      · exact .inl h2
      · exact .inr ⟨h2, by rw [← this.2.2]; exact h3⟩
    · right
      exact ⟨by simp only [bind, Except.bind, hf], fun h => ⟨i, hn h⟩⟩

theorem traceStep_cases {p : Proc} (ha : p.workerAlive = true) (draws : Nat → SampleDraws) :
    (∃ p', traceStep p draws = .ok p') ∨
    (traceStep p draws = .error .fuel ∧ (p.nOpsMax = 1 → ∃ i, (draws i).ops = [])) := by
  unfold traceStep
  split
  · rename_i h
    exact perceives_cases (p := { p with goals := satisfyLast p }) h ha
  · exact .inl ⟨_, rfl⟩

/-! ## first part of a step -/

theorem confirm_total {p : Proc} (hp : PSafe p) {l : List Anticipation} (hl : ∀ a ∈ l, a.evi < p.mem.heap.length) (i : Nat) :
    ∃ l', confirm p l i = .ok l' := by
  unfold confirm
  split
  · exact ⟨_, rfl⟩
  · refine filterR_total ?_
    intro a ha
    have hlt := hl a ha
    obtain ⟨c, as, op, e, _, _, h, _⟩ := (hp.heap p.mem.heap[a.evi] (List.getElem_mem _)).shape
    have hr : retPred p.mem.heap[a.evi].term = .ok e := by rw [h]; rfl
    simp only [bind, Except.bind, indexAt_ok.2 (List.getElem?_eq_getElem hlt), hr]
    exact ⟨_, rfl⟩

theorem confirms_total {p : Proc} (hp : PSafe p) (is : List Nat) {l : List Anticipation}
    (hl : ∀ a ∈ l, a.evi < p.mem.heap.length) :
    ∃ l', is.foldlM (confirm p) l = .ok l' ∧ ∀ a ∈ l', a ∈ l := by
  induction is generalizing l with
  | nil => exact ⟨l, rfl, fun a h => h⟩
  | cons i is ih =>
    obtain ⟨l1, h1⟩ := confirm_total hp hl i
    have hsub : ∀ a ∈ l1, a ∈ l := by
      classical
      rw [confirm_spec h1]
      exact fun a ha => List.mem_of_mem_filter ha
    obtain ⟨l2, h2, h3⟩ := ih (l := l1) (fun a ha => hl a (hsub a ha))
    exact ⟨l2, foldlM_cons_ok.2 ⟨l1, h1, h2⟩, fun a ha => hsub a (h3 a ha)⟩

theorem RuleOk.disappointed {table : List Int} {b : Sentence} (hb : RuleOk table b) {pos cnt : Int} (h : Counts b pos cnt) :
    RuleOk table { b with evi := some (.CNT pos (cnt + 1)) } := by
  refine ⟨hb.sane.grown (Disappointed.grown (n := 1) (.inr ⟨pos, cnt, h, rfl⟩)), hb.shape, hb.delay, hb.stamp, hb.text⟩

theorem negConfirms_total {table : List Int} {l : List Anticipation} {heap : List Sentence}
    (hh : ∀ b ∈ heap, RuleOk table b) (hl : ∀ a ∈ l, a.evi < heap.length) :
    ∃ heap', l.foldlM negConfirm heap = .ok heap' ∧ heap'.length = heap.length ∧ ∀ b ∈ heap', RuleOk table b := by
  induction l generalizing heap with
  | nil => exact ⟨heap, rfl, rfl, hh⟩
  | cons a l ih =>
    have hlt := hl a (by simp)
    have hb := hh heap[a.evi] (List.getElem_mem _)
    obtain ⟨_, _, pos, cnt, hc, _⟩ := hb.sane
    have h1 : negConfirm heap a = .ok (heap.set a.evi { heap[a.evi] with evi := some (.CNT pos (cnt + 1)) }) := by
      unfold negConfirm
      simp only [bind, Except.bind, indexAt_ok.2 (List.getElem?_eq_getElem hlt), cntOf_of hc]
    obtain ⟨heap', h2, h3, h4⟩ := ih (heap := heap.set a.evi { heap[a.evi] with evi := some (.CNT pos (cnt + 1)) }) (by
      intro b hb'
      rcases List.mem_or_eq_of_mem_set hb' with hb' | rfl
      · exact hh b hb'
      · exact hb.disappointed hc) (by intro x hx; simp; exact hl x (by simp [hx]))
    exact ⟨heap', foldlM_cons_ok.2 ⟨_, h1, h2⟩, by rw [h3]; simp, h4⟩

theorem GSafe.satisfy {n : Nat} {p : Proc} (h : GSafe n p.goals) : GSafe n (satisfyLast p) := by
  unfold satisfyLast
  split
  · rename_i e _
    refine ⟨eventOccurred_inv _ h.inv, h.depth, h.cap, ?_, ?_, ?_⟩
    · intro x hx
      obtain ⟨y, hy, rfl⟩ := (eventOccurred_stored _ _ _).1 hx
      obtain ⟨h1, _, _, h2, _⟩ := satisfy_fields p.goals.enGoalSatisfaction e.name y
      rw [h1, h2]
      exact h.usable y hy
    · intro x hx r hr
      obtain ⟨y, hy, rfl⟩ := (eventOccurred_stored _ _ _).1 hx
      obtain ⟨h1, h2, _⟩ := satisfy_fields p.goals.enGoalSatisfaction e.name y
      rw [h2] at hr
      rw [h1]
      exact h.ev y hy r hr
    · intro x hx
      obtain ⟨y, hy, rfl⟩ := (eventOccurred_stored _ _ _).1 hx
      rw [(satisfy_fields p.goals.enGoalSatisfaction e.name y).1]
      exact h.text y hy
  · exact h

theorem narStep0_safe {p : Proc} (hp : PSafe p) (draws : Nat → SampleDraws) :
    (∃ p', narStep0 p draws = .ok p' ∧ PSafe p' ∧ p'.ops = p.ops ∧ p'.nOpsMax = p.nOpsMax) ∨
    (narStep0 p draws = .error .fuel ∧ (p.nOpsMax = 1 → ∃ i, (draws i).ops = [])) := by
  obtain ⟨l, hl, hsub⟩ := confirms_total hp (List.range p.perceptWindow) hp.antic
  obtain ⟨heap, hh, hlen, hok⟩ := negConfirms_total (table := p.table) (l := l.filter (fun a => decide (a.deadline ≤ p.t)))
    hp.heap (fun a ha => hp.antic a (hsub a (List.mem_of_mem_filter ha)))
  have hh : negConfirmAll p.mem.heap p.t l = .ok heap := hh
  obtain ⟨p1, hp1⟩ : ∃ p1 : Proc, p1 = { p with
    mem := { p.mem with heap := heap }
    anticipated := l.filter (fun a => decide (a.deadline > p.t)) } := ⟨_, rfl⟩
  have hs1 : PSafe p1 := by
    rw [hp1]
    refine ⟨hok, hp.queue, ?_, ?_, ?_, hp.trace, hp.time, hp.table, hp.alive, hp.weights⟩
    · intro c hc r hr
      show r < heap.length
      rw [hlen]
      exact hp.refs c hc r hr
    · intro a ha
      show a.evi < heap.length
      rw [hlen]
      exact hp.antic a (hsub a (List.mem_of_mem_filter ha))
    · show GSafe heap.length p.goals
      rw [hlen]
      exact hp.goals
  have hred : narStep0 p draws = traceStep p1 draws := by
    unfold narStep0
    simp only [bind, Except.bind, hl, hh, hp1]
  rw [hred]
  rcases traceStep_cases hs1.alive draws with ⟨p', h'⟩ | ⟨h1, h2⟩
  · left
    refine ⟨p', h', ?_⟩
    obtain ⟨new, hn, _, rfl⟩ := traceStep_spec h'
    refine ⟨⟨hs1.heap, ?_, hs1.refs, hs1.antic, hs1.goals.satisfy, hs1.trace, hs1.time, hs1.table, hs1.alive,
      hs1.weights⟩, by rw [hp1], by rw [hp1]⟩
    intro m hm
    rcases List.mem_append.1 hm with hm | hm
    · exact hs1.queue m hm
    · exact (hn m hm).2.msg hs1
  · exact .inr ⟨h1, by rw [hp1] at h2; exact h2⟩

end Nar
