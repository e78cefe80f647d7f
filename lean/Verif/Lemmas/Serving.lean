import Verif.Spec.Serving
import Verif.Lemmas.GivenUp
import Verif.Lemmas.Deeds
/-! # Lemmas: every stored goal serves a goal given by the user -/
namespace Nar
open Term

theorem Wanted.mono {goal goal' known known' : Term → Prop} (hg : ∀ t, goal t → goal' t) (hk : ∀ t, known t → known' t) {t : Term}
    (h : Wanted goal known t) : Wanted goal' known' t := by
  induction h with
  | given h => exact .given (hg _ h)
  | condition h _ ih => exact .condition (hk _ h) ih
  | first _ ih => exact .first ih
  | last _ ih => exact .last ih
  | filled a _ ih => exact .filled a ih

/-- every stored goal is wanted because of a goal given by the user -/
def Serves (goal known : Term → Prop) (g : GoalSystem) : Prop := ∀ e, Stored g e → Wanted goal known e.sentence.term

theorem Serves.mono {goal goal' known known' : Term → Prop} (hg : ∀ t, goal t → goal' t) (hk : ∀ t, known t → known' t)
    {g : GoalSystem} (h : Serves goal known g) : Serves goal' known' g := fun e he => (h e he).mono hg hk

theorem Serves.add {goal known : Term → Prop} {g g' : GoalSystem} {t : Int} {s : Sentence} {ev : Option Nat} {d : Int}
    (h : Serves goal known g) (hs : Wanted goal known s.term) (ha : addEntry g t s ev d = .ok g') : Serves goal known g' := by
  intro e he
  rcases (addEntry_spec ha).2.2 e he with k | ⟨a, rfl⟩
  · exact h e k
  · exact hs

theorem Serves.satisfyAll {goal known : Term → Prop} {g : GoalSystem} (h : Serves goal known g) (t : Term) :
    Serves goal known (eventOccurred g t) := by
  intro e he
  obtain ⟨e0, h0, rfl⟩ := (eventOccurred_stored _ _ _).1 he
  rw [(satisfy_fields _ _ _).1]
  exact h e0 h0

theorem Serves.erase {goal known : Term → Prop} {g : GoalSystem} (h : Serves goal known g) (i : Nat) :
    Serves goal known { g with activeSet := g.activeSet.eraseIdx i } := by
  rintro e (he | he)
  · exact h e (.inl (List.mem_of_mem_eraseIdx he))
  · exact h e (.inr he)

theorem Serves.limit {goal known : Term → Prop} {decay : Int → Rat} {g g' : GoalSystem} {t : Int} (h : Serves goal known g)
    (hl : goalLimitMemory decay g t = .ok g') : Serves goal known g' := by
  obtain ⟨sorted, -, -, -, hs, -, hf⟩ := goalLimit_cases hl
  intro e he
  rcases (foldAdd_spec hf).2.2.2.1 e he with k | ⟨e1, h1, a, rfl⟩
  · exact absurd k (flushed_stored _ _)
  · obtain ⟨e0, u, h0, -, rfl⟩ := hs e1 (List.mem_of_mem_take h1)
    exact h e0 h0

theorem GoalStep.wanted {goal known : Term → Prop} {m : PMem} (hm : ∀ b ∈ m.heap, known b.term) {s c : Sentence} {ev : Option Nat}
    (h : GoalStep m s c ev) (hs : Wanted goal known s.term) : Wanted goal known c.term := by
  rcases h with ⟨-, first, rest, ts, h1, -, h2, -⟩ | ⟨r, b, -, hb, cond, ts, tb, h1, -, -, -, h2, -⟩
  · rw [h2]; rw [h1] at hs; exact .first hs
  · rw [h2]; exact .condition (h1 ▸ hm b (List.mem_of_getElem? hb)) hs

theorem GoalChain.wanted {goal known : Term → Prop} {m : PMem} (hm : ∀ b ∈ m.heap, known b.term) {s c : Sentence} {n : Nat}
    {ev : Option Nat} (h : GoalChain m s n c ev) (hs : Wanted goal known s.term) : Wanted goal known c.term := by
  induction h with
  | one h => exact h.wanted hm hs
  | more _ h ih => exact h.wanted hm ih

theorem Serves.infer {goal known : Term → Prop} {g g' : GoalSystem} {t : Int} {m : PMem} {d1 d2 : Rat} {rng : List Nat}
    (hm : ∀ b ∈ m.heap, known b.term) (h : Serves goal known g) (hi : sampleAndInference g t m d1 d2 rng = .ok g') :
    Serves goal known g' := by
  intro x hx
  rcases (sampleAndInference_spec hi).2.2 x hx with k | ⟨i, e, c, a, he, -, ⟨n, hc, -⟩, rfl⟩
  · exact h x k
  · exact hc.wanted hm (h e (.inr ⟨i, he⟩))

theorem Serves.work {goal known : Term → Prop} {decay : Int → Rat} {t : Int} {m : PMem} (hm : ∀ b ∈ m.heap, known b.term)
    {infs : List (Rat × Rat × List Nat)} {g g' : GoalSystem} (h : Serves goal known g)
    (hw : (goalWork t m infs).foldlM (GoalOp.run decay) g = .ok g') : Serves goal known g' := by
  refine foldlM_inv (fun g => Serves goal known g) hw h ?_
  intro op hop a b ha hr
  unfold goalWork at hop
  rcases List.mem_append.1 hop with k | k
  · split at k
    · rw [List.mem_singleton] at k; subst k
      exact ha.limit hr
    · cases k
  · obtain ⟨d, -, rfl⟩ := List.mem_map.1 k
    exact ha.infer hm hr

/-- from a state of a plan the rest is wanted -/
theorem Plan.wanted {heap : List Sentence} {goal known : Term → Prop} (hm : ∀ b ∈ heap, known b.term) {g : Term} {T : Tv}
    {state : Term} {rs : List Nat} {tv : Tv} (h : Plan heap g T state rs tv) (hg : Wanted goal known g) :
    Wanted goal known state := by
  induction h with
  | done => exact hg
  | step hb hbt _ _ ih => exact .first (ts := _) (.condition (hbt ▸ hm _ (List.mem_of_getElem? hb)) ih)

theorem Plan.first_wanted {heap : List Sentence} {goal known : Term → Prop} (hm : ∀ b ∈ heap, known b.term) {g : Term} {T : Tv}
    {state : Term} {r : Nat} {rs : List Nat} {tv : Tv} (h : Plan heap g T state (r :: rs) tv) (hg : Wanted goal known g)
    {b : Sentence} (hb : heap[r]? = some b) {acts : List Term} {effect : Term} (hbt : b.term = rule state acts effect) :
    Wanted goal known (.Seq (state :: acts)) := by
  cases h with
  | step hb' hbt' _ hp' =>
    rw [hb] at hb'; cases hb'
    rw [hbt] at hbt'
    obtain ⟨-, rfl, rfl⟩ := rule_inj hbt'
    have := hm b (List.mem_of_getElem? hb)
    rw [hbt] at this
    exact .condition this (hp'.wanted hm hg)

theorem IsOption.wanted {goal known : Term → Prop} {p : Proc} (hm : ∀ b ∈ p.mem.heap, known b.term)
    (hs : Serves goal known p.goals) {seq : Term} {x : Rat} {ev : Option Nat} (h : IsOption p seq x ev) :
    Wanted goal known seq := by
  rcases h with ⟨e, event, first, rest, a, he, -, ht, -, rfl, -⟩ |
    ⟨e, last, T, tv, r, rs, b, acts, effect, he, -, -, hp, hb, hbt, rfl, -⟩
  · have := hs e he
    rw [ht] at this ⊢
    exact .filled a this
  · exact hp.first_wanted hm (hs e he) hb hbt

theorem Adopted.serves {goal known : Term → Prop} {p : Proc} (hm : ∀ b ∈ p.mem.heap, known b.term) (hs : Serves goal known p.goals)
    {g : GoalSystem} (h : Adopted p g) : Serves goal known g := by
  rcases h with rfl | ⟨seq, x, r, b, acts, op, args, name, tv, hopt, -, -, -, rfl, -, hadd⟩
  · exact hs
  · exact hs.add (.last (hopt.wanted hm hs)) hadd

theorem narStep1_serves {call : Call} (hcall : OnlyReports call) {decay : Int → Rat} {goal known : Term → Prop} {p p' : Proc}
    {rng : List Nat} {infs : List (Rat × Rat × List Nat)} {act : Option Term} (hm : ∀ b ∈ p.mem.heap, known b.term)
    (hs : Serves goal known p.goals) (h : narStep1 call decay p rng infs = .ok (p', act)) :
    Serves goal known p'.goals ∧ p'.mem.heap = p.mem.heap ∧ ∀ t, act = some t → Wanted goal known t ∨ TriedOut p t := by
  obtain ⟨g, g2, an, evs, concepts, goals, ha, hd, -, rfl, -, -, -, hwork⟩ := narStep1_spec hcall h
  have hg := ha.serves hm hs
  refine ⟨?_, rfl, ?_⟩
  · refine Serves.work (m := { p.mem with concepts := concepts }) hm ?_ hwork
    rcases hd with ⟨e, i, r, b, iv, -, -, -, -, -, -, rfl, -⟩ | ⟨-, rfl, -⟩
    · exact hg.erase i
    · exact hg
  · rintro t rfl
    rcases hd with ⟨e, i, r, b, iv, he, -, -, -, -, -, -, -, k9, k10⟩ | ⟨-, -, -, k⟩
    · by_cases hreg : RegisteredCall p.ops e.sentence.term
      · rw [Option.some.inj (k9 hreg)]
        exact .inl (hg e (.inl (List.mem_of_getElem? he)))
      · cases k10 hreg
    · rcases k with k | ⟨k1, op, ho, k2, k⟩
      · cases k
      · exact .inr ⟨k1, op, ho, k2, Option.some.inj k⟩

theorem HeapGrown.known {h h' : List Sentence} (hg : HeapGrown h h') {t : Term} (hk : ∃ b ∈ h, b.term = t) :
    ∃ b ∈ h', b.term = t := by
  obtain ⟨b, hb, rfl⟩ := hk
  obtain ⟨i, hi⟩ := List.getElem?_of_mem hb
  obtain ⟨b', hb', hgr⟩ := hg i b hi
  exact ⟨b', List.mem_of_getElem? hb', hgr.1⟩

theorem workerStep_goals (p : Proc) (rng : List Nat) : (workerStep p rng).goals = p.goals := by
  unfold workerStep
  split
  · split <;> rfl
  · rfl

theorem ProcOp.run_serves {call : Call} (hcall : OnlyReports call) {decay : Int → Rat} {goal : Term → Prop} {p p' : Proc}
    {op : ProcOp} (hi : ProcInv p) (hops : ∀ o ∈ p.ops, 1 ≤ o.eviCnt) (hg : ∀ t tv id, op = .goal t tv id → goal t)
    (hs : Serves goal (KnownRule p) p.goals) (h : op.run call decay p = .ok p') : Serves goal (KnownRule p') p'.goals := by
  have hgrown := (ProcOp.run_inv hcall h hi hops).2.2
  have hs' : Serves goal (KnownRule p') p.goals := hs.mono (fun _ h => h) (fun _ h => hgrown.known h)
  cases op with
  | event t => cases h; exact hs'
  | flush => cases h; exact hs'
  | rule t tv id n rng =>
    obtain ⟨m, -, h⟩ := R.bind_ok.1 h
    cases h; exact hs'
  | goal t tv id =>
    obtain ⟨g, ha, h⟩ := R.bind_ok.1 h
    cases h
    exact hs'.add (.given (hg t tv id rfl)) ha
  | step0 draws =>
    obtain ⟨heap, new, hp, -⟩ := narStep0_spec h
    have : p'.goals = satisfyLast p := by rw [hp]
    rw [this]
    unfold satisfyLast
    split
    · exact hs'.satisfyAll _
    · exact hs'
  | step1 rng infs =>
    obtain ⟨⟨p1, act⟩, hn, rfl⟩ := R.map_ok.1 h
    exact (narStep1_serves hcall (fun b hb => hgrown.known ⟨b, hb, rfl⟩) hs' hn).1
  | worker rng =>
    cases h
    rw [workerStep_goals]; exact hs'

theorem runProc_serves {call : Call} (hcall : OnlyReports call) {decay : Int → Rat} {goal : Term → Prop} {p p' : Proc}
    {ops : List ProcOp} (hi : ProcInv p) (hops : ∀ o ∈ p.ops, 1 ≤ o.eviCnt) (hg : ∀ t tv id, .goal t tv id ∈ ops → goal t)
    (hs : Serves goal (KnownRule p) p.goals) (h : runProc call decay p ops = .ok p') : Serves goal (KnownRule p') p'.goals := by
  unfold runProc at h
  refine (foldlM_inv (fun q : Proc => ProcInv q ∧ (∀ o ∈ q.ops, 1 ≤ o.eviCnt) ∧ Serves goal (KnownRule q) q.goals) h
    ⟨hi, hops, hs⟩ ?_).2.2
  rintro op hop a b ⟨h1, h2, h3⟩ hr
  obtain ⟨k1, k2, -⟩ := ProcOp.run_inv hcall hr h1 h2
  exact ⟨k1, k2 ▸ h2, ProcOp.run_serves hcall h1 h2 (fun t tv id e => hg t tv id (e ▸ hop)) h3 hr⟩

end Nar
