import Verif.Lemmas.ProcRace
/-! # The storage worker in single locked sections: order of actions, whole rounds, whole steps -/
namespace Nar
open Term

theorem disappoints_visit {l : List Anticipation} {heap h1 h2 : List Sentence} {s : Sentence} {add add1 : Bool} {r : Nat}
    (hv : workerVisit s (heap, add) r = .ok (h1, add1)) (hn : l.foldlM negConfirm h1 = .ok h2) :
    ∃ h', l.foldlM negConfirm heap = .ok h' ∧ workerVisit s (h', add) r = .ok (h2, add1) := by
  induction l generalizing heap h1 with
  | nil => cases foldlM_nil_ok.1 hn; exact ⟨heap, rfl, hv⟩
  | cons a l ih =>
    obtain ⟨h3, k1, k2⟩ := foldlM_cons_ok.1 hn
    obtain ⟨h4, g1, g2⟩ := disappoint_visit hv k1
    obtain ⟨h5, g3, g4⟩ := ih g2 k2
    exact ⟨h5, foldlM_cons_ok.2 ⟨h4, g1, g3⟩, g4⟩

theorem dead_stays {n : Nat} {ops : List StoreOp} {x x' : StoreRace} (hx : x.phase = .dead) (h : runStore n x ops = .ok x') :
    x'.phase = .dead := by
  refine foldlM_inv (fun y : StoreRace => y.phase = .dead) h hx ?_
  intro op _ y y' hy h
  cases op with
  | worker rng => cases h; simp only [StoreRace.workerAct, hy]
  | send s time => simp only [StoreOp.run, StoreRace.send, hy] at h; cases h
  | disappoint r => obtain ⟨heap, _, h⟩ := R.bind_ok.1 h; cases h; exact hy
  | store s nb time =>
    simp only [StoreOp.run, StoreRace.store] at h
    split at h
    · cases h; exact hy
    · obtain ⟨m, _, h⟩ := R.bind_ok.1 h; cases h; exact hy
  | forget k =>
    simp only [StoreOp.run, StoreRace.forget] at h
    split at h
    · cases h; exact hy
    · obtain ⟨m, _, h⟩ := R.bind_ok.1 h; cases h; exact hy

theorem visits_serial {n : Nat} {ops : List StoreOp} {x x' : StoreRace} {s : Sentence} {time : Int} {todo : List Nat} {add : Bool}
    (hx : x.phase = .visiting s time todo add) (hw : workerActs ops = todo.length) (h : runStore n x ops = .ok x')
    (hd : x'.phase ≠ .dead) :
    ∃ heap add', (disappointments ops).foldlM negConfirm x.mem.heap = .ok heap ∧
      workerVisits s todo (heap, add) = ((x'.mem.heap, add'), none) ∧ x'.phase = .visiting s time [] add' ∧
      x'.mem.concepts = x.mem.concepts := by
  induction ops generalizing x todo add with
  | nil =>
    cases foldlM_nil_ok.1 h
    cases todo with
    | nil => exact ⟨_, add, rfl, rfl, hx, rfl⟩
    | cons r todo => cases hw
  | cons op ops ih =>
    obtain ⟨y, hy, h⟩ := foldlM_cons_ok.1 h
    have hguard : x.guarded = true := by simp only [StoreRace.guarded, hx]
    cases op with
    | worker rng =>
      cases hy
      cases todo with
      | nil => cases hw
      | cons r todo =>
        simp only [workerActs, List.length_cons, Nat.add_right_cancel_iff] at hw
        cases hv : workerVisit s (x.mem.heap, add) r with
        | error e =>
          refine absurd (dead_stays ?_ h) hd
          simp only [StoreRace.workerAct, hx, hv]
        | ok st =>
          obtain ⟨h1, add1⟩ := st
          have hact : x.workerAct n rng = { x with mem := { x.mem with heap := h1 }, phase := .visiting s time todo add1 } := by
            simp only [StoreRace.workerAct, hx, hv]
          rw [hact] at h
          obtain ⟨h2, add2, g1, g2, g3, g4⟩ := ih rfl hw h
          obtain ⟨h3, k1, k2⟩ := disappoints_visit hv g1
          refine ⟨h3, add2, k1, ?_, g3, g4⟩
          simp only [workerVisits, k2]
          exact g2
    | send t time' =>
      simp only [StoreOp.run, StoreRace.send, hx] at hy
      cases hy
      obtain ⟨h2, add2, g⟩ := ih (x := ⟨x.mem, x.queue ++ [(t, time')], .visiting s time todo add⟩) rfl hw h
      exact ⟨h2, add2, g⟩
    | disappoint r =>
      obtain ⟨heap, hh, hy⟩ := R.bind_ok.1 hy
      cases hy
      obtain ⟨h2, add2, g1, g2, g3, g4⟩ := ih (x := { x with mem := { x.mem with heap := heap } }) hx hw h
      exact ⟨h2, add2, foldlM_cons_ok.2 ⟨heap, hh, g1⟩, g2, g3, g4⟩
    | store t nb time' =>
      simp only [StoreOp.run, StoreRace.store, hguard, if_true] at hy
      cases hy
      exact ih hx hw h
    | forget k =>
      simp only [StoreOp.run, StoreRace.forget, hguard, if_true] at hy
      cases hy
      exact ih hx hw h

theorem Supports.disappointed {n : Nat} {b b' s : Sentence} (h : Disappointed n b b') : Supports b' s ↔ Supports b s := by
  rcases h with ⟨_, rfl⟩ | ⟨pos, cnt, _, rfl⟩
  · rfl
  · rfl

theorem Disappointed.counts {n : Nat} {b b' : Sentence} {pos cnt : Int} (h : Disappointed n b b') (hc : Counts b pos cnt) :
    Counts b' pos (cnt + n) := by
  rcases h with ⟨rfl, rfl⟩ | ⟨pos', cnt', hc', rfl⟩
  · simpa using hc
  · unfold Counts at hc hc'
    rw [hc] at hc'; cases hc'; rfl

theorem count_disappointments (l : List Anticipation) (r : Nat) :
    (l.filter (fun a => decide (a.evi = r))).length = (l.map (·.evi)).count r := by
  induction l with
  | nil => rfl
  | cons a l ih =>
    by_cases h : a.evi = r
    · rw [List.filter_cons_of_pos (by simpa using h), List.map_cons, h, List.count_cons_self, ← ih]; rfl
    · rw [List.filter_cons_of_neg (by simpa using h), List.map_cons, List.count_cons_of_ne h, ← ih]

theorem visits_counts {n : Nat} {ops : List StoreOp} {x x' : StoreRace} {s : Sentence} {time : Int} {todo : List Nat} {add : Bool}
    (hs : s.stamp.ids ≠ []) {k j : Int} (hsc : Counts s k j) (hx : x.phase = .visiting s time todo add)
    (hw : workerActs ops = todo.length) (h : runStore n x ops = .ok x') (hd : x'.phase ≠ .dead) {r : Nat} {b : Sentence}
    {pos cnt : Int} (hb : x.mem.heap[r]? = some b) (hc : Counts b pos cnt) :
    ∃ b', x'.mem.heap[r]? = some b' ∧
      (r ∈ todo ∧ Supports b s → Counts b' (pos + k) (cnt + j + ((disappointments ops).map (·.evi)).count r)) ∧
      (¬ (r ∈ todo ∧ Supports b s) → Counts b' pos (cnt + ((disappointments ops).map (·.evi)).count r)) := by
  obtain ⟨heap, add', h1, h2, _, _⟩ := visits_serial hx hw h hd
  obtain ⟨_, g⟩ := negConfirms_spec h1
  obtain ⟨b1, hb1, hdis⟩ := g r b hb
  have hc1 := hdis.counts hc
  rw [count_disappointments] at hc1
  obtain ⟨e, _, _⟩ := workerVisits_exact hs h2
  obtain ⟨e1, e2⟩ := e r b1 hb1
  rw [Supports.disappointed hdis] at e1 e2
  by_cases hsup : r ∈ todo ∧ Supports b s
  · obtain ⟨b', hb', hfin⟩ := e1 hsup
    refine ⟨b', hfin, fun _ => ?_, fun hn => absurd hsup hn⟩
    obtain ⟨pos', cnt', k', j', c1, c2, rfl⟩ := hb'
    unfold Counts at c1 c2 hc1 hsc
    rw [hc1] at c1; rw [hsc] at c2
    cases c1; cases c2
    unfold Counts
    simp only [Option.some.injEq, Evidence.CNT.injEq, true_and]
    omega
  · exact ⟨b1, e2 hsup, fun hn => absurd hn hsup, fun _ => hc1⟩

theorem Gain.unique {x : StoreRace} {r : Nat} {op : StoreOp} {p c p' c' : Int} (h : Gain x r op p c) (h' : Gain x r op p' c') :
    p = p' ∧ c = c' := by
  cases h with
  | supported hv hb hs hc =>
    cases h' with
    | supported hv' hb' hs' hc' =>
      obtain ⟨_, _, _, e⟩ := hv
      obtain ⟨_, _, _, e'⟩ := hv'
      rw [e] at e'
      cases e'
      unfold Counts at hc hc'
      rw [hc] at hc'; cases hc'; exact ⟨rfl, rfl⟩
    | unsupported hn => exact absurd hs (hn _ _ hv hb)
  | unsupported hn =>
    cases h' with
    | supported hv' hb' hs' hc' => exact absurd hs' (hn _ _ hv' hb')
    | unsupported => exact ⟨rfl, rfl⟩
  | disappointed =>
    cases h' with
    | disappointed => exact ⟨rfl, rfl⟩
    | otherRule hr => exact absurd rfl hr
  | otherRule hr =>
    cases h' with
    | disappointed => exact absurd rfl hr
    | otherRule _ => exact ⟨rfl, rfl⟩
  | send => cases h'; exact ⟨rfl, rfl⟩
  | store => cases h'; exact ⟨rfl, rfl⟩
  | forget => cases h'; exact ⟨rfl, rfl⟩

theorem Gains.unique {n r : Nat} {x : StoreRace} {ops : List StoreOp} {p c p' c' : Int} (h : Gains n r x ops p c)
    (h' : Gains n r x ops p' c') : p = p' ∧ c = c' := by
  induction h generalizing p' c' with
  | nil => cases h'; exact ⟨rfl, rfl⟩
  | cons hr hg _ ih =>
    cases h' with
    | cons hr' hg' h2 =>
      rw [hr] at hr'; cases hr'
      obtain ⟨rfl, rfl⟩ := hg.unique hg'
      obtain ⟨rfl, rfl⟩ := ih h2
      exact ⟨rfl, rfl⟩

/-! ## a round without interruption -/

theorem runStore_append {n : Nat} {a b : List StoreOp} {x y z : StoreRace} (h1 : runStore n x a = .ok y)
    (h2 : runStore n y b = .ok z) : runStore n x (a ++ b) = .ok z := by
  unfold runStore at h1 h2 ⊢
  rw [List.foldlM_append]
  exact R.bind_ok.2 ⟨y, h1, h2⟩

theorem runStore_worker {n : Nat} {rng : List Nat} (x : StoreRace) : runStore n x [.worker rng] = .ok (x.workerAct n rng) := rfl

theorem runStore_workers_cons {n k : Nat} {rng : List Nat} {x z : StoreRace}
    (h : runStore n (x.workerAct n rng) (List.replicate k (.worker rng)) = .ok z) :
    runStore n x (List.replicate (k + 1) (.worker rng)) = .ok z := by
  rw [List.replicate_succ]
  exact foldlM_cons_ok.2 ⟨_, rfl, h⟩

theorem visits_at_once {n : Nat} (rng : List Nat) {todo : List Nat} {m : PMem} {q : List (Sentence × Int)} {s : Sentence} {time : Int}
    {add : Bool} :
    ∃ k x', runStore n ⟨m, q, .visiting s time todo add⟩ (List.replicate k (.worker rng)) = .ok x' ∧
      match workerVisits s todo (m.heap, add) with
      | ((heap, _), some _) => x' = ⟨{ m with heap := heap }, q, .dead⟩
      | ((heap, add'), none) => x' = ⟨{ m with heap := heap }, q, .visiting s time [] add'⟩ := by
  induction todo generalizing m add with
  | nil => exact ⟨0, _, rfl, rfl⟩
  | cons r todo ih =>
    cases hv : workerVisit s (m.heap, add) r with
    | error e =>
      refine ⟨1, _, rfl, ?_⟩
      simp only [workerVisits, hv, StoreRace.workerAct]
    | ok st =>
      obtain ⟨h1, add1⟩ := st
      obtain ⟨k, x', g1, g2⟩ := ih (m := { m with heap := h1 }) (add := add1)
      refine ⟨k + 1, x', runStore_workers_cons ?_, ?_⟩
      · simp only [StoreRace.workerAct, hv]; exact g1
      · simp only [workerVisits, hv]; exact g2

theorem versions_at_once {n : Nat} (rng : List Nat) {todo : List Sentence} {m : PMem} {q : List (Sentence × Int)} {time : Int} :
    ∃ k x', runStore n ⟨m, q, .versions todo time⟩ (List.replicate k (.worker rng)) = .ok x' ∧
      match todo.foldlM (fun m i => memAddEvidenceInternal m i n time) m with
      | .error _ => x'.phase = .dead ∧ x'.queue = q
      | .ok m' => x' = ⟨m', q, .waiting⟩ := by
  induction todo generalizing m with
  | nil => exact ⟨1, _, rfl, rfl⟩
  | cons v todo ih =>
    cases hm : memAddEvidenceInternal m v n time with
    | error e =>
      refine ⟨1, _, rfl, ?_⟩
      rw [List.foldlM_cons, hm]
      simp only [StoreRace.workerAct, hm]
      exact ⟨trivial, trivial⟩
    | ok m1 =>
      obtain ⟨k, x', g1, g2⟩ := ih (m := m1)
      refine ⟨k + 1, x', runStore_workers_cons ?_, ?_⟩
      · simp only [StoreRace.workerAct, hm]; exact g1
      · rw [List.foldlM_cons, hm]; exact g2

theorem runStore_workers_append {n a b : Nat} {rng : List Nat} {x y z : StoreRace}
    (h1 : runStore n x (List.replicate a (.worker rng)) = .ok y) (h2 : runStore n y (List.replicate b (.worker rng)) = .ok z) :
    runStore n x (List.replicate (a + b) (.worker rng)) = .ok z := by
  rw [List.replicate_add]
  exact runStore_append h1 h2

theorem store_at_once {n : Nat} (rng : List Nat) {m : PMem} {q : List (Sentence × Int)} {s : Sentence} {time : Int} :
    ∃ k x', runStore n ⟨m, (s, time) :: q, .waiting⟩ (List.replicate k (.worker rng)) = .ok x' ∧
      match workerStore m s time n rng with
      | (_, some _) => x'.phase = .dead ∧ x'.queue = q
      | (m', none) => x' = ⟨m', q, .waiting⟩ := by
  cases hcp : condAndPred s.term with
  | error e =>
    refine ⟨1, _, rfl, ?_⟩
    simp only [workerStore, hcp, StoreRace.workerAct]
    exact ⟨trivial, trivial⟩
  | ok cp =>
    obtain ⟨cond, pred⟩ := cp
    obtain ⟨k, x1, g1, g2⟩ := visits_at_once (n := n) rng (todo := retBeliefsByTermsNonuniqueP m [cond, pred]) (m := m) (q := q)
      (s := s) (time := time) (add := true)
    have hfirst : runStore n ⟨m, (s, time) :: q, .waiting⟩ (List.replicate (k + 1) (.worker rng)) = .ok x1 := by
      refine runStore_workers_cons ?_
      simp only [StoreRace.workerAct, hcp]; exact g1
    rcases hvs : workerVisits s (retBeliefsByTermsNonuniqueP m [cond, pred]) (m.heap, true) with ⟨⟨heap, add⟩, none | e⟩
    · rw [hvs] at g2
      simp only at g2
      subst g2
      cases add with
      | false =>
        refine ⟨k + 1 + 1, _, runStore_workers_append hfirst rfl, ?_⟩
        simp only [workerStore, hcp, hvs, StoreRace.workerAct]; rfl
      | true =>
        have hsecond := runStore_workers_append (b := 1) hfirst (runStore_worker (n := n) (rng := rng) _)
        cases hm : memAddEvidenceInternal { m with heap := heap } s n time with
        | error e =>
          refine ⟨k + 1 + 1 + 1, _, runStore_workers_append hsecond rfl, ?_⟩
          simp only [workerStore, hcp, hvs, workerAdd, hm, StoreRace.workerAct, if_true]; exact ⟨trivial, trivial⟩
        | ok m1 =>
          cases hv : matchandintroVar1Sentence s rng with
          | error e =>
            refine ⟨k + 1 + 1 + 1, _, runStore_workers_append hsecond rfl, ?_⟩
            simp only [workerStore, hcp, hvs, workerAdd, hm, hv, StoreRace.workerAct, if_true]; exact ⟨trivial, trivial⟩
          | ok vr =>
            obtain ⟨vs, rng'⟩ := vr
            obtain ⟨k2, x2, g3, g4⟩ := versions_at_once (n := n) rng (todo := vs) (m := m1) (q := q) (time := time)
            have hthird : runStore n ⟨m, (s, time) :: q, .waiting⟩ (List.replicate (k + 1 + 1 + 1) (.worker rng)) =
                .ok ⟨m1, q, .versions vs time⟩ := by
              refine runStore_workers_append hsecond ?_
              show runStore n _ [.worker rng] = _
              rw [runStore_worker]
              simp only [StoreRace.workerAct, hm, hv, if_true]
            refine ⟨k + 1 + 1 + 1 + k2, x2, runStore_workers_append hthird g3, ?_⟩
            cases hf : vs.foldlM (fun m i => memAddEvidenceInternal m i n time) m1 with
            | error e =>
              rw [hf] at g4
              simp only [workerStore, hcp, hvs, workerAdd, hm, hv, hf]; exact g4
            | ok m2 =>
              rw [hf] at g4
              simp only [workerStore, hcp, hvs, workerAdd, hm, hv, hf]; exact g4
    · rw [hvs] at g2
      simp only at g2
      subst g2
      refine ⟨k + 1, _, hfirst, ?_⟩
      simp only [workerStore, hcp, hvs]; exact ⟨trivial, trivial⟩

theorem round_at_once {p : Proc} {rng : List Nat} (ha : p.workerAlive = true) :
    ∃ k x, runStore p.nConceptBeliefs p.storeRace (List.replicate k (.worker rng)) = .ok x ∧
      ((workerStep p rng).workerAlive = true → x = (workerStep p rng).storeRace) ∧
      ((workerStep p rng).workerAlive = false → x.phase = .dead ∧ x.queue = (workerStep p rng).queue) := by
  unfold workerStep
  rw [if_pos ha]
  split
  · exact ⟨0, _, rfl, fun _ => rfl, fun h => by rw [ha] at h; cases h⟩
  · rename_i s time rest hq
    obtain ⟨k, x', g1, g2⟩ := store_at_once (n := p.nConceptBeliefs) rng (m := p.mem) (q := rest) (s := s) (time := time)
    have hstart : p.storeRace = ⟨p.mem, (s, time) :: rest, .waiting⟩ := by
      unfold Proc.storeRace; rw [hq, if_pos ha]
    refine ⟨k, x', by rw [hstart]; exact g1, ?_⟩
    rcases hw : workerStore p.mem s time p.nConceptBeliefs rng with ⟨m', none | e⟩
    · rw [hw] at g2
      simp only at g2
      subst g2
      exact ⟨fun _ => rfl, fun h => by cases h⟩
    · rw [hw] at g2
      exact ⟨fun h => (by cases h), fun _ => g2⟩

/-! ## whole steps of the reasoner -/

theorem foldlM_map {α β σ} (f : σ → β → R σ) (g : α → β) (l : List α) (s : σ) :
    (l.map g).foldlM f s = l.foldlM (fun s a => f s (g a)) s := by
  induction l generalizing s with
  | nil => rfl
  | cons a l ih =>
    simp only [List.map_cons, List.foldlM_cons]
    cases f s (g a) with
    | error e => rfl
    | ok s' => exact ih s'

theorem disappoints_run {n : Nat} {l : List Anticipation} {m : PMem} {q : List (Sentence × Int)} {ph : StorePhase}
    {heap : List Sentence} (h : l.foldlM negConfirm m.heap = .ok heap) :
    runStore n ⟨m, q, ph⟩ (l.map (fun a => .disappoint a.evi)) = .ok ⟨{ m with heap := heap }, q, ph⟩ := by
  induction l generalizing m with
  | nil => cases foldlM_nil_ok.1 h; rfl
  | cons a l ih =>
    obtain ⟨h1, k1, k2⟩ := foldlM_cons_ok.1 h
    have hrun : StoreOp.run n ⟨m, q, ph⟩ (.disappoint a.evi) = .ok ⟨{ m with heap := h1 }, q, ph⟩ := by
      simp only [StoreOp.run, StoreRace.disappoint]
      rw [show negConfirm m.heap ⟨a.evi, 0⟩ = .ok h1 from k1]; rfl
    exact foldlM_cons_ok.2 ⟨_, hrun, ih (m := { m with heap := h1 }) k2⟩

theorem sends_run {n : Nat} {new : List (Sentence × Int)} {m : PMem} {q : List (Sentence × Int)} {ph : StorePhase}
    (h : new ≠ [] → ph ≠ .dead) :
    runStore n ⟨m, q, ph⟩ (new.map (fun x => .send x.1 x.2)) = .ok ⟨m, q ++ new, ph⟩ := by
  induction new generalizing q with
  | nil => simp [runStore, pure, Except.pure]
  | cons x new ih =>
    have hd : ph ≠ .dead := h (by simp)
    have hrun : StoreOp.run n ⟨m, q, ph⟩ (.send x.1 x.2) = .ok ⟨m, q ++ [x], ph⟩ := by
      simp only [StoreOp.run, StoreRace.send]
    refine foldlM_cons_ok.2 ⟨_, hrun, ?_⟩
    have := ih (q := q ++ [x]) (fun _ => hd)
    rw [List.append_assoc] at this
    exact this

theorem stores_run {n nb : Nat} {time : Int} {l : List Sentence} {m m' : PMem} {q : List (Sentence × Int)} {ph : StorePhase}
    (hg : (⟨m, q, ph⟩ : StoreRace).guarded = false)
    (h : l.foldlM (fun m i => memAddEvidenceInternal m i nb time) m = .ok m') :
    runStore n ⟨m, q, ph⟩ (l.map (fun s => .store s nb time)) = .ok ⟨m', q, ph⟩ := by
  induction l generalizing m with
  | nil => cases foldlM_nil_ok.1 h; rfl
  | cons s l ih =>
    obtain ⟨m1, k1, k2⟩ := foldlM_cons_ok.1 h
    have hrun : StoreOp.run n ⟨m, q, ph⟩ (.store s nb time) = .ok ⟨m1, q, ph⟩ := by
      simp only [StoreOp.run, StoreRace.store, hg, k1]; rfl
    exact foldlM_cons_ok.2 ⟨_, hrun, ih (m := m1) hg k2⟩

theorem storeRace_guarded (p : Proc) : p.storeRace.guarded = false := by
  unfold Proc.storeRace StoreRace.guarded
  cases p.workerAlive <;> rfl

theorem procOp_storeOps {call : Call} (hcall : OnlyReports call) {decay : Int → Rat} {p p' : Proc} {op : ProcOp}
    (h : op.run call decay p = .ok p') :
    p'.nConceptBeliefs = p.nConceptBeliefs ∧
    ∃ ops x, runStore p.nConceptBeliefs p.storeRace ops = .ok x ∧ x.queue = p'.queue ∧ x.phase = p'.storeRace.phase ∧
      (p'.workerAlive = p.workerAlive → x.mem = p'.mem) := by
  cases op with
  | event term => cases h; exact ⟨rfl, [], _, rfl, rfl, rfl, fun _ => rfl⟩
  | flush => cases h; exact ⟨rfl, [], _, rfl, rfl, rfl, fun _ => rfl⟩
  | goal term tv id =>
    obtain ⟨g, _, h⟩ := R.bind_ok.1 h
    cases h
    exact ⟨rfl, [], _, rfl, rfl, rfl, fun _ => rfl⟩
  | rule term tv id nb rng =>
    obtain ⟨m, hm, h⟩ := R.bind_ok.1 h
    cases h
    unfold memAddEvidence at hm
    obtain ⟨m1, h1, hm⟩ := R.bind_ok.1 hm
    obtain ⟨⟨out, rng'⟩, h2, hm⟩ := R.bind_ok.1 hm
    refine ⟨rfl, _, _, stores_run (l := _ :: out) (storeRace_guarded p) (foldlM_cons_ok.2 ⟨m1, h1, hm⟩), rfl, rfl, fun _ => rfl⟩
  | step0 draws =>
    unfold ProcOp.run narStep0 at h
    obtain ⟨an, h1, h⟩ := R.bind_ok.1 h
    obtain ⟨heap, h2, h⟩ := R.bind_ok.1 h
    obtain ⟨new, _, hal, rfl⟩ := traceStep_spec h
    unfold negConfirmAll at h2
    refine ⟨rfl, _, _, runStore_append (disappoints_run h2) (sends_run (new := new) ?_), rfl, rfl, fun _ => rfl⟩
    intro hne hdead
    have := hal hne
    simp only at this
    rw [if_pos this] at hdead
    cases hdead
  | step1 rng infs =>
    obtain ⟨⟨p5, act⟩, hn, rfl⟩ := R.map_ok.1 h
    unfold narStep1 at hn
    obtain ⟨⟨p1, picked, rng1⟩, h1, hn⟩ := R.bind_ok.1 hn
    obtain ⟨⟨p2, executed⟩, h2, hn⟩ := R.bind_ok.1 hn
    obtain ⟨p3, h3, hn⟩ := R.bind_ok.1 hn
    obtain ⟨p4, h4, hn⟩ := R.bind_ok.1 hn
    cases hn
    have e1 : p1.mem = p.mem ∧ p1.queue = p.queue ∧ p1.workerAlive = p.workerAlive ∧ p1.nConceptBeliefs = p.nConceptBeliefs := by
      obtain ⟨g, _, hd⟩ := decideAction_spec h1
      rcases hd with ⟨e, i, r, b, iv, _, _, _, _, _, _, _, rfl⟩ | ⟨_, rfl, _⟩ <;> exact ⟨rfl, rfl, rfl, rfl⟩
    have e2 : p2.mem = p1.mem ∧ p2.queue = p1.queue ∧ p2.workerAlive = p1.workerAlive ∧
        p2.nConceptBeliefs = p1.nConceptBeliefs := by
      rcases execute_spec hcall h2 with ⟨_, rfl, _⟩ | ⟨t, args, name, q, evs, _, _, _, _, _, _, rfl⟩ <;> exact ⟨rfl, rfl, rfl, rfl⟩
    obtain ⟨goals', rfl, _⟩ := inferGoals_spec (decay := decay) h4
    unfold limitAll at h3
    obtain ⟨mem, hm, h3⟩ := R.bind_ok.1 h3
    obtain ⟨goals, _, h3⟩ := R.bind_ok.1 h3
    cases h3
    refine ⟨e2.2.2.2.trans e1.2.2.2, ?_⟩
    have hph : ∀ q : Proc, q.workerAlive = p2.workerAlive → q.storeRace.phase = p.storeRace.phase := by
      intro q hq
      simp only [Proc.storeRace, hq, e2.2.2.1, e1.2.2.1]
    unfold limitMem at hm
    rw [e2.1, e1.1] at hm
    split at hm
    · refine ⟨[.forget p2.nConcepts], { p.storeRace with mem := mem }, ?_, (e2.2.1.trans e1.2.1).symm, (hph _ rfl).symm, fun _ => rfl⟩
      refine foldlM_cons_ok.2 ⟨_, ?_, foldlM_nil_ok.2 rfl⟩
      simp only [StoreOp.run, StoreRace.forget, storeRace_guarded]
      show (limitMemoryP p.mem p2.nConcepts >>= _) = _
      rw [hm]; rfl
    · cases hm
      exact ⟨[], p.storeRace, rfl, (e2.2.1.trans e1.2.1).symm, (hph _ rfl).symm, fun _ => rfl⟩
  | worker rng =>
    cases h
    unfold workerStep
    split
    · rename_i hal
      split
      · rename_i hq
        exact ⟨rfl, [], _, rfl, rfl, rfl, fun _ => rfl⟩
      · rename_i s time rest hq
        obtain ⟨k, x', g1, g2⟩ := store_at_once (n := p.nConceptBeliefs) rng (m := p.mem) (q := rest) (s := s) (time := time)
        have hstart : p.storeRace = ⟨p.mem, (s, time) :: rest, .waiting⟩ := by
          unfold Proc.storeRace; rw [hq, if_pos hal]
        refine ⟨rfl, _, x', by rw [hstart]; exact g1, ?_⟩
        rcases hw : workerStore p.mem s time p.nConceptBeliefs rng with ⟨m', none | e⟩
        · rw [hw] at g2
          simp only at g2
          subst g2
          exact ⟨rfl, rfl, fun _ => rfl⟩
        · rw [hw] at g2
          refine ⟨g2.2, g2.1, ?_⟩
          intro hc
          simp only [Option.isNone] at hc
          rw [hal] at hc; cases hc
    · exact ⟨rfl, [], _, rfl, rfl, rfl, fun _ => rfl⟩

theorem alive_before {call : Call} (hcall : OnlyReports call) {decay : Int → Rat} {p p' : Proc} {op : ProcOp}
    (h : op.run call decay p = .ok p') (ha : p'.workerAlive = true) : p.workerAlive = true := by
  obtain ⟨_, ops, x, h1, _, h3, _⟩ := procOp_storeOps hcall h
  by_contra hd
  have : p.storeRace.phase = .dead := by simp [Proc.storeRace, hd]
  have := dead_stays this h1
  rw [h3] at this
  simp [Proc.storeRace, ha] at this

theorem runProc_storeOps {call : Call} (hcall : OnlyReports call) {decay : Int → Rat} {hist : List ProcOp} {p p' : Proc}
    (h : runProc call decay p hist = .ok p') (ha : p'.workerAlive = true) :
    p.workerAlive = true ∧ p'.nConceptBeliefs = p.nConceptBeliefs ∧
      ∃ ops, runStore p.nConceptBeliefs p.storeRace ops = .ok p'.storeRace := by
  induction hist generalizing p with
  | nil => cases foldlM_nil_ok.1 h; exact ⟨ha, rfl, [], rfl⟩
  | cons op hist ih =>
    obtain ⟨p1, h1, h⟩ := foldlM_cons_ok.1 h
    obtain ⟨ha1, hn1, ops1, hr1⟩ := ih h
    have ha0 := alive_before hcall h1 ha1
    obtain ⟨hn, ops, x, g1, g2, g3, g4⟩ := procOp_storeOps hcall h1
    have hx : x = p1.storeRace := by
      obtain ⟨m, q, ph⟩ := x
      simp only at g2 g3 g4
      subst g2 g3
      rw [g4 (ha1.trans ha0.symm)]; rfl
    subst hx
    exact ⟨ha0, hn1.trans hn, ops ++ ops1, runStore_append g1 (by rw [← hn]; exact hr1)⟩

end Nar
