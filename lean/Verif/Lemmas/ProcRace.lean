import Verif.Spec.ProcRace
import Verif.Lemmas.Whole3
/-! # Lemmas about the storage worker in single locked sections -/
namespace Nar
open Term

/-! ## one action -/

theorem memAddEvidenceInternal_more {m m' : PMem} {s : Sentence} {n : Nat} {now : Int}
    (h : memAddEvidenceInternal m s n now = .ok m') : ∃ k, m'.heap = m.heap ++ List.replicate k s :=
  (memAddEvidenceInternal_spec h).1

/-- what the worker may still hold: the sentences it works on -/
def StorePhase.sentences : StorePhase → List Sentence
  | .visiting s _ _ _ => [s]
  | .adding s _ => [s]
  | .versions vs _ => vs
  | _ => []

/-- all sentences on their way are sane (versions are sane once they are rules) -/
structure SaneStore (N : Nat) (x : StoreRace) : Prop where
  tab : TabOk N x.mem
  refs : x.mem.RefsValid
  heap : ∀ b ∈ x.mem.heap, SaneRule b
  queue : ∀ q ∈ x.queue, SaneRule q.1
  phase : ∀ s ∈ x.phase.sentences, s.punct = .JUGEMENT ∧ ∃ pos cnt, Counts s pos cnt ∧ 0 ≤ pos ∧ pos ≤ cnt ∧ 1 ≤ cnt

theorem SaneStore.start (N : Nat) : SaneStore N .start where
  tab := ⟨List.nodup_nil, by intro c hc; cases hc⟩
  refs := by intro c hc; cases hc
  heap := by intro b hb; cases hb
  queue := by intro b hb; cases hb
  phase := by intro b hb; cases hb

/-- storing one sentence keeps everything sane -/
theorem stored_sane {N n : Nat} {m m' : PMem} {s : Sentence} {now : Int} (h : memAddEvidenceInternal m s n now = .ok m')
    (hn : n ≤ N) (hN : 1 ≤ N) (ht : TabOk N m) (hr : m.RefsValid) (hh : ∀ b ∈ m.heap, SaneRule b)
    (hs : s.punct = .JUGEMENT ∧ ∃ pos cnt, Counts s pos cnt ∧ 0 ≤ pos ∧ pos ≤ cnt ∧ 1 ≤ cnt) :
    TabOk N m' ∧ m'.RefsValid ∧ (∀ b ∈ m'.heap, SaneRule b) ∧ HeapGrown m.heap m'.heap := by
  obtain ⟨⟨k, hk⟩, hv, hrule⟩ := memAddEvidenceInternal_spec h
  refine ⟨memAddEvidenceInternal_tab h hn hN ht, hv hr, ?_, by rw [hk]; exact .append _ _⟩
  intro b hb
  rw [hk] at hb
  rcases List.mem_append.1 hb with hb | hb
  · exact hh b hb
  · rw [List.eq_of_mem_replicate hb]
    exact ⟨hrule, hs.1, hs.2⟩

theorem visit_sane {heap heap' : List Sentence} {s : Sentence} {add add' : Bool} {r : Nat}
    (h : workerVisit s (heap, add) r = .ok (heap', add')) (hh : ∀ b ∈ heap, SaneRule b)
    (hs : ∃ n k, Counts s n k ∧ 0 ≤ n ∧ n ≤ k) :
    (∀ b ∈ heap', SaneRule b) ∧ HeapGrown heap heap' ∧ heap'.length = heap.length := by
  have h1 := workerVisits_grown hs [r] (heap, add)
  simp only [workerVisits, h] at h1
  exact ⟨h1.2.2 hh, h1.1, h1.2.1⟩

theorem workerAct_sane {N n : Nat} (hn : n ≤ N) (hN : 1 ≤ N) {x : StoreRace} (hx : SaneStore N x) (rng : List Nat) :
    SaneStore N (x.workerAct n rng) ∧ HeapGrown x.mem.heap (x.workerAct n rng).mem.heap := by
  obtain ⟨mem, queue, phase⟩ := x
  have dead : ∀ q, (∀ m ∈ q, SaneRule m.1) → SaneStore N ⟨mem, q, .dead⟩ ∧ HeapGrown mem.heap mem.heap := fun q hq =>
    ⟨⟨hx.tab, hx.refs, hx.heap, hq, fun s hs => by cases hs⟩, .refl _⟩
  cases phase with
  | dead => exact ⟨hx, .refl _⟩
  | waiting =>
    cases queue with
    | nil => exact ⟨hx, .refl _⟩
    | cons q rest =>
      obtain ⟨s, time⟩ := q
      have hrest : ∀ m ∈ rest, SaneRule m.1 := fun m hm => hx.queue m (List.mem_cons_of_mem _ hm)
      have hs : SaneRule s := hx.queue (s, time) (by simp)
      simp only [StoreRace.workerAct]
      cases condAndPred s.term with
      | error e => exact dead _ hrest
      | ok cp =>
        refine ⟨⟨hx.tab, hx.refs, hx.heap, hrest, ?_⟩, .refl _⟩
        intro s' hs'
        simp only [StorePhase.sentences, List.mem_singleton] at hs'
        subst hs'
        exact ⟨hs.2.1, hs.2.2⟩
  | visiting s time todo add =>
    have hs := hx.phase s (by simp [StorePhase.sentences])
    cases todo with
    | nil =>
      refine ⟨⟨hx.tab, hx.refs, hx.heap, hx.queue, ?_⟩, .refl _⟩
      intro s' hs'
      simp only [StoreRace.workerAct] at hs'
      split at hs'
      · simp only [StorePhase.sentences, List.mem_singleton] at hs'
        subst hs'; exact hs
      · cases hs'
    | cons r todo =>
      simp only [StoreRace.workerAct]
      cases hv : workerVisit s (mem.heap, add) r with
      | error e => exact dead _ hx.queue
      | ok st =>
        obtain ⟨heap', add'⟩ := st
        obtain ⟨pos, cnt, hc, h0, h1, _⟩ := hs.2
        obtain ⟨g1, g2, g3⟩ := visit_sane hv hx.heap ⟨pos, cnt, hc, h0, h1⟩
        refine ⟨⟨hx.tab.heap _, ?_, g1, hx.queue, ?_⟩, g2⟩
        · intro c hcc r' hr'
          show r' < heap'.length
          rw [g3]; exact hx.refs c hcc r' hr'
        · intro s' hs'
          simp only [StorePhase.sentences, List.mem_singleton] at hs'
          subst hs'; exact hs
  | adding s time =>
    have hs := hx.phase s (by simp [StorePhase.sentences])
    simp only [StoreRace.workerAct]
    cases hm : memAddEvidenceInternal mem s n time with
    | error e => exact dead _ hx.queue
    | ok m =>
      obtain ⟨g1, g2, g3, g4⟩ := stored_sane hm hn hN hx.tab hx.refs hx.heap hs
      cases hv : matchandintroVar1Sentence s rng with
      | error e => exact ⟨⟨g1, g2, g3, hx.queue, fun s hs => by cases hs⟩, g4⟩
      | ok vr =>
        obtain ⟨vs, rng'⟩ := vr
        refine ⟨⟨g1, g2, g3, hx.queue, ?_⟩, g4⟩
        intro v hv'
        rw [introduced_sane hv (show v ∈ vs from hv')]
        exact hs
  | versions todo time =>
    cases todo with
    | nil => exact ⟨⟨hx.tab, hx.refs, hx.heap, hx.queue, fun s hs => by cases hs⟩, .refl _⟩
    | cons v todo =>
      simp only [StoreRace.workerAct]
      cases hm : memAddEvidenceInternal mem v n time with
      | error e => exact dead _ hx.queue
      | ok m =>
        obtain ⟨g1, g2, g3, g4⟩ := stored_sane hm hn hN hx.tab hx.refs hx.heap (hx.phase v (by simp [StorePhase.sentences]))
        exact ⟨⟨g1, g2, g3, hx.queue, fun s hs => hx.phase s (by
          simp only [StorePhase.sentences] at hs ⊢; exact List.mem_cons_of_mem _ hs)⟩, g4⟩

theorem negConfirm_sane {heap heap' : List Sentence} {a : Anticipation} (h : negConfirm heap a = .ok heap')
    (hh : ∀ b ∈ heap, SaneRule b) :
    (∀ b ∈ heap', SaneRule b) ∧ HeapGrown heap heap' ∧ heap'.length = heap.length := by
  obtain ⟨b, b', hb, hd, rfl⟩ := negConfirm_spec h
  refine ⟨?_, HeapGrown.set hb hd.grown, by simp⟩
  intro c hc
  rcases List.mem_or_eq_of_mem_set hc with hc | rfl
  · exact hh c hc
  · exact (hh b (List.mem_of_getElem? hb)).grown hd.grown

theorem StoreOp.run_sane {N n : Nat} (hn : n ≤ N) (hN : 1 ≤ N) {x x' : StoreRace} {op : StoreOp} (hx : SaneStore N x)
    (hop : op.Sane N) (h : op.run n x = .ok x') : SaneStore N x' ∧ HeapGrown x.mem.heap x'.mem.heap := by
  cases op with
  | worker rng => cases h; exact workerAct_sane hn hN hx rng
  | send s time =>
    simp only [StoreOp.run, StoreRace.send] at h
    split at h
    · cases h
    · cases h
      refine ⟨⟨hx.tab, hx.refs, hx.heap, ?_, hx.phase⟩, .refl _⟩
      intro q hq
      rcases List.mem_append.1 hq with hq | hq
      · exact hx.queue q hq
      · rw [List.mem_singleton] at hq; subst hq; exact hop
  | disappoint r =>
    obtain ⟨heap, hh, h⟩ := R.bind_ok.1 h
    cases h
    obtain ⟨g1, g2, g3⟩ := negConfirm_sane hh hx.heap
    refine ⟨⟨hx.tab.heap _, ?_, g1, hx.queue, hx.phase⟩, g2⟩
    intro c hcc r' hr'
    show r' < heap.length
    rw [g3]; exact hx.refs c hcc r' hr'
  | store s nb time =>
    simp only [StoreOp.run, StoreRace.store] at h
    split at h
    · cases h; exact ⟨hx, .refl _⟩
    · obtain ⟨m, hm, h⟩ := R.bind_ok.1 h
      cases h
      obtain ⟨g1, g2, g3, g4⟩ := stored_sane hm hop.2 hN hx.tab hx.refs hx.heap hop.1.2
      exact ⟨⟨g1, g2, g3, hx.queue, hx.phase⟩, g4⟩
  | forget k =>
    simp only [StoreOp.run, StoreRace.forget] at h
    split at h
    · cases h; exact ⟨hx, .refl _⟩
    · obtain ⟨m, hm, h⟩ := R.bind_ok.1 h
      cases h
      have ht := limitMemoryP_tab hm hx.tab
      obtain ⟨cs, rfl, _, hsub, _⟩ := limitMemoryP_spec hm
      exact ⟨⟨ht, fun c hc => hx.refs c (hsub c hc), hx.heap, hx.queue, hx.phase⟩, .refl _⟩

theorem runStore_sane {N n : Nat} (hn : n ≤ N) (hN : 1 ≤ N) {ops : List StoreOp} {x x' : StoreRace} (hx : SaneStore N x)
    (hops : ∀ op ∈ ops, op.Sane N) (h : runStore n x ops = .ok x') : SaneStore N x' ∧ HeapGrown x.mem.heap x'.mem.heap := by
  refine foldlM_inv (fun y : StoreRace => SaneStore N y ∧ HeapGrown x.mem.heap y.mem.heap) h ⟨hx, .refl _⟩ ?_
  rintro op hop y y' ⟨h1, h2⟩ hy
  obtain ⟨k1, k2⟩ := StoreOp.run_sane hn hN h1 (hops op hop) hy
  exact ⟨k1, h2.trans k2⟩

/-! ## what is counted -/

theorem counts_append {heap l : List Sentence} {r : Nat} {b : Sentence} (h : heap[r]? = some b) : (heap ++ l)[r]? = some b := by
  rw [List.getElem?_append_left (List.getElem?_eq_some_iff.1 h).1, h]

theorem supports_of {b s : Sentence} (h : Supports b s) : supports b s = .ok true := by
  obtain ⟨h1, h2, eb, es, h3, h4, h5⟩ := h
  have hov : ¬ Stamp.checkOverlap b.stamp s.stamp = true := fun h => h1 ((Stamp.checkOverlap_iff _ _).1 h)
  unfold supports
  rw [if_pos (by simpa using hov), h3, h4]
  have h6 : decide (eb ≥ es) = true := decide_eq_true h5
  show (Except.ok (decide (eb ≥ es) && checkEqTerm b.term s.term) : R Bool) = _
  rw [h6, (checkEqTerm_iff _ _).2 h2]; rfl

theorem workerVisit_of {heap : List Sentence} {r : Nat} {b s : Sentence} {add : Bool} {n k pos cnt : Int} (hb : heap[r]? = some b)
    (hsup : Supports b s) (hs : Counts s n k) (hc : Counts b pos cnt) : ∃ st, workerVisit s (heap, add) r = .ok st := by
  refine ⟨(heap.set r { b with stamp := Stamp.merge b.stamp s.stamp, evi := some (.CNT (pos + n) (cnt + k)) }, false), ?_⟩
  unfold workerVisit
  rw [indexAt_ok.2 hb]
  show (supports b s >>= _) = _
  rw [supports_of hsup]
  show (reviseCell b s >>= _) = _
  unfold reviseCell
  rw [cntOf_of hs, cntOf_of hc]
  rfl

/-- the effect of one action on the counters of a rule -/
theorem gain_of {N n : Nat} {x x' : StoreRace} {op : StoreOp} (hx : SaneStore N x) (h : op.run n x = .ok x') {r : Nat} {b : Sentence}
    {pos cnt : Int} (hb : x.mem.heap[r]? = some b) (hc : Counts b pos cnt) :
    ∃ p c, Gain x r op p c ∧ ∃ b', x'.mem.heap[r]? = some b' ∧ Counts b' (pos + p) (cnt + c) := by
  cases op with
  | send s time =>
    simp only [StoreOp.run, StoreRace.send] at h
    split at h
    · cases h
    · cases h; exact ⟨0, 0, .send, b, hb, by simpa using hc⟩
  | forget k =>
    refine ⟨0, 0, .forget, b, ?_, by simpa using hc⟩
    simp only [StoreOp.run, StoreRace.forget] at h
    split at h
    · cases h; exact hb
    · obtain ⟨m, hm, h⟩ := R.bind_ok.1 h
      cases h
      obtain ⟨cs, rfl, _⟩ := limitMemoryP_spec hm
      exact hb
  | store s nb time =>
    refine ⟨0, 0, .store, b, ?_, by simpa using hc⟩
    simp only [StoreOp.run, StoreRace.store] at h
    split at h
    · cases h; exact hb
    · obtain ⟨m, hm, h⟩ := R.bind_ok.1 h
      cases h
      obtain ⟨k, hk⟩ := memAddEvidenceInternal_more hm
      show m.heap[r]? = _
      rw [hk]; exact counts_append hb
  | disappoint r' =>
    obtain ⟨heap, hh, h⟩ := R.bind_ok.1 h
    cases h
    obtain ⟨d, d', hd, hdd, rfl⟩ := negConfirm_spec hh
    simp only at hd
    by_cases hr : r' = r
    · subst hr
      rw [hb] at hd; cases hd
      refine ⟨0, 1, .disappointed, d', List.getElem?_set_self (List.getElem?_eq_some_iff.1 hb).1, ?_⟩
      rcases hdd with ⟨h, _⟩ | ⟨pos', cnt', hc', rfl⟩
      · cases h
      · unfold Counts at hc hc'
        rw [hc] at hc'; cases hc'
        simp [Counts]
    · exact ⟨0, 0, .otherRule hr, b, by simp only; rw [List.getElem?_set_ne hr, hb], by simpa using hc⟩
  | worker rng =>
    cases h
    have none : (∀ s b, x.Visits r s → x.mem.heap[r]? = some b → ¬ Supports b s) →
        (x.workerAct n rng).mem.heap[r]? = some b →
        ∃ p c, Gain x r (.worker rng) p c ∧ ∃ b', (x.workerAct n rng).mem.heap[r]? = some b' ∧ Counts b' (pos + p) (cnt + c) :=
      fun h1 h2 => ⟨0, 0, .unsupported h1, b, h2, by simpa using hc⟩
    obtain ⟨mem, queue, phase⟩ := x
    cases phase with
    | dead => exact none (by rintro s b ⟨_, _, _, h⟩; cases h) hb
    | waiting =>
      refine none (by rintro s b ⟨_, _, _, h⟩; cases h) ?_
      simp only [StoreRace.workerAct]
      split
      · exact hb
      · split <;> exact hb
    | adding s time =>
      refine none (by rintro s b ⟨_, _, _, h⟩; cases h) ?_
      simp only [StoreRace.workerAct]
      cases hm : memAddEvidenceInternal mem s n time with
      | error e => exact hb
      | ok m =>
        obtain ⟨k, hk⟩ := memAddEvidenceInternal_more hm
        have hb' : m.heap[r]? = some b := by rw [hk]; exact counts_append hb
        simp only
        split <;> exact hb'
    | versions todo time =>
      refine none (by rintro s b ⟨_, _, _, h⟩; cases h) ?_
      cases todo with
      | nil => exact hb
      | cons v todo =>
        simp only [StoreRace.workerAct]
        cases hm : memAddEvidenceInternal mem v n time with
        | error e => exact hb
        | ok m =>
          obtain ⟨k, hk⟩ := memAddEvidenceInternal_more hm
          show m.heap[r]? = some b
          rw [hk]; exact counts_append hb
    | visiting s time todo add =>
      have hs := hx.phase s (by simp [StorePhase.sentences])
      cases todo with
      | nil => exact none (by rintro s b ⟨_, _, _, h⟩; cases h) hb
      | cons r' todo =>
        simp only [StoreRace.workerAct] at none ⊢
        cases hv : workerVisit s (mem.heap, add) r' with
        | error e =>
          simp only [hv] at none ⊢
          refine none ?_ hb
          rintro s1 b1 ⟨_, _, _, h⟩ hb1 hsup
          cases h
          obtain ⟨k, j, hk, _⟩ := hs.2
          rw [hb] at hb1; cases hb1
          obtain ⟨st, hst⟩ := workerVisit_of (add := add) hb hsup hk hc
          rw [hst] at hv; cases hv
        | ok st =>
          obtain ⟨heap', add'⟩ := st
          simp only [hv] at none ⊢
          obtain ⟨b0, hb0, ⟨hn0, he⟩ | ⟨hsup, b', hb', he⟩⟩ := workerVisit_spec hv
          · cases he
            refine none ?_ hb
            rintro s1 b1 ⟨_, _, _, h⟩ hb1
            cases h
            simp only at hb0 hb1
            rw [hb0] at hb1; cases hb1
            exact hn0
          · obtain ⟨rfl, rfl⟩ := Prod.mk.inj he
            simp only at hb0 hb
            by_cases hr : r' = r
            · subst hr
              rw [hb] at hb0; cases hb0
              obtain ⟨pos', cnt', k, j, hc1, hc2, rfl⟩ := hb'
              have e1 : pos' = pos ∧ cnt' = cnt := by
                unfold Counts at hc hc1; rw [hc] at hc1; cases hc1; exact ⟨rfl, rfl⟩
              obtain ⟨rfl, rfl⟩ := e1
              refine ⟨k, j, .supported ⟨time, todo, add, rfl⟩ hb hsup hc2, _,
                List.getElem?_set_self (List.getElem?_eq_some_iff.1 hb).1, by simp [Counts]⟩
            · refine none ?_ (by rw [List.getElem?_set_ne hr, hb])
              rintro s1 b1 ⟨_, _, _, h⟩ hb1
              cases h
              exact absurd rfl hr

theorem gains_of {N n : Nat} (hn : n ≤ N) (hN : 1 ≤ N) {ops : List StoreOp} {x x' : StoreRace} (hx : SaneStore N x)
    (hops : ∀ op ∈ ops, op.Sane N) (h : runStore n x ops = .ok x') {r : Nat} {b : Sentence} {pos cnt : Int}
    (hb : x.mem.heap[r]? = some b) (hc : Counts b pos cnt) :
    ∃ p c, Gains n r x ops p c ∧ ∃ b', x'.mem.heap[r]? = some b' ∧ Counts b' (pos + p) (cnt + c) := by
  induction ops generalizing x b pos cnt with
  | nil =>
    cases foldlM_nil_ok.1 h
    exact ⟨0, 0, .nil, b, hb, by simpa using hc⟩
  | cons op ops ih =>
    obtain ⟨y, hy, h⟩ := foldlM_cons_ok.1 h
    obtain ⟨p, c, hg, b1, hb1, hc1⟩ := gain_of hx hy hb hc
    obtain ⟨hsane, _⟩ := StoreOp.run_sane hn hN hx (hops op (by simp)) hy
    obtain ⟨p', c', hg', b2, hb2, hc2⟩ := ih hsane (fun o ho => hops o (by simp [ho])) h hb1 hc1
    exact ⟨p + p', c + c', .cons hy hg hg', b2, hb2, by rw [← Int.add_assoc, ← Int.add_assoc]; exact hc2⟩

/-! ## disappointments and visits can be exchanged -/

theorem negConfirm_cell {heap heap' : List Sentence} {a : Anticipation} (h : negConfirm heap a = .ok heap') :
    ∃ b pos cnt, heap[a.evi]? = some b ∧ Counts b pos cnt ∧ heap' = heap.set a.evi { b with evi := some (.CNT pos (cnt + 1)) } := by
  unfold negConfirm at h
  obtain ⟨b, hb, h⟩ := R.bind_ok.1 h
  obtain ⟨⟨pos, cnt⟩, hc, h⟩ := R.bind_ok.1 h
  cases h
  exact ⟨b, pos, cnt, indexAt_ok.1 hb, cntOf_ok hc, rfl⟩

theorem negConfirm_of {heap : List Sentence} {a : Anticipation} {b : Sentence} {pos cnt : Int} (hb : heap[a.evi]? = some b)
    (hc : Counts b pos cnt) : negConfirm heap a = .ok (heap.set a.evi { b with evi := some (.CNT pos (cnt + 1)) }) := by
  unfold negConfirm
  rw [indexAt_ok.2 hb]
  show (cntOf b >>= _) = _
  rw [cntOf_of hc]; rfl

/-- the outcome of a visit depends on the visited cell only -/
theorem workerVisit_cell (s : Sentence) (heap : List Sentence) (add : Bool) (r : Nat) (b : Sentence) (hb : heap[r]? = some b) :
    workerVisit s (heap, add) r = (supports b s).bind (fun sup => if sup then
      (reviseCell b s).bind (fun b' => .ok (heap.set r b', false)) else .ok (heap, add)) := by
  unfold workerVisit
  rw [indexAt_ok.2 hb]; rfl

theorem disappoint_visit {heap h1 h2 : List Sentence} {s : Sentence} {add add1 : Bool} {r : Nat} {a : Anticipation}
    (hv : workerVisit s (heap, add) r = .ok (h1, add1)) (hn : negConfirm h1 a = .ok h2) :
    ∃ h', negConfirm heap a = .ok h' ∧ workerVisit s (h', add) r = .ok (h2, add1) := by
  obtain ⟨c, pos, cnt, hc, hcc, rfl⟩ := negConfirm_cell hn
  obtain ⟨b, hb, hcase⟩ := workerVisit_spec hv
  simp only at hb
  have hlt := (List.getElem?_eq_some_iff.1 hb).1
  by_cases hr : a.evi = r
  · subst hr
    rcases hcase with ⟨hns, he⟩ | ⟨hsup, b', hb', he⟩
    · cases he
      have e : c = b := by rw [hb] at hc; exact (Option.some.inj hc).symm
      subst e
      refine ⟨_, negConfirm_of hb hcc, ?_⟩
      rw [workerVisit_cell _ _ _ _ _ (List.getElem?_set_self hlt)]
      rw [workerVisit_cell _ _ _ _ _ hb] at hv
      show (supports c s).bind _ = _
      cases hs : supports c s with
      | error e => rw [hs] at hv; cases hv
      | ok sup =>
        cases sup with
        | true => exact absurd ((supports_iff hs).1 rfl) hns
        | false => rfl
    · obtain ⟨rfl, rfl⟩ := Prod.mk.inj he
      obtain ⟨pos', cnt', n, k, g1, g2, rfl⟩ := hb'
      rw [List.getElem?_set_self hlt] at hc
      cases hc
      simp only [Counts, Option.some.injEq, Evidence.CNT.injEq] at hcc
      obtain ⟨rfl, rfl⟩ := hcc
      refine ⟨_, negConfirm_of hb g1, ?_⟩
      rw [workerVisit_cell _ _ _ _ _ (List.getElem?_set_self hlt)]
      show (supports b s).bind _ = _
      rw [supports_of hsup]
      show (reviseCell _ s).bind _ = _
      unfold reviseCell
      rw [cntOf_of g2, cntOf_of (s := { b with evi := some (.CNT pos' (cnt' + 1)) }) (pos := pos') (cnt := cnt' + 1) rfl]
      show (Except.ok _ : R (List Sentence × Bool)) = _
      simp only [List.set_set]
      rw [show cnt' + 1 + k = cnt' + k + 1 by omega]
  · have hc0 : heap[a.evi]? = some c := by
      rcases hcase with ⟨_, he⟩ | ⟨_, b', _, he⟩
      · cases he; exact hc
      · obtain ⟨rfl, rfl⟩ := Prod.mk.inj he
        rwa [List.getElem?_set_ne (Ne.symm hr)] at hc
    refine ⟨_, negConfirm_of hc0 hcc, ?_⟩
    rw [workerVisit_cell _ _ _ _ b (by rw [List.getElem?_set_ne hr, hb])]
    rw [workerVisit_cell _ _ _ _ _ hb] at hv
    cases hs : supports b s with
    | error e => rw [hs] at hv; cases hv
    | ok sup =>
      rw [hs] at hv
      cases sup with
      | false => cases hv; rfl
      | true =>
        cases hrv : reviseCell b s with
        | error e => simp only [Except.bind, hrv] at hv; cases hv
        | ok b' =>
          simp only [Except.bind, hrv, if_true] at hv ⊢
          obtain ⟨rfl, rfl⟩ := Prod.mk.inj (Except.ok.inj hv)
          rw [List.set_comm _ _ (Ne.symm hr)]

end Nar
