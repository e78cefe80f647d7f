import Verif.Lemmas.GivenUp
import Verif.Props.Ways
/-! # C114: what no longer works is given up -/
namespace Nar.Props
open Nar Term

/-- C114: without an order the reasoner only does what has worked more often than not.  In every history of harmless input in
which no operator call is given as a goal: if a step executes an operator and this is not babbling, then a rule about what this
operator leads to is in memory, and it was confirmed in more than half of its observations. -/
theorem C114_only_what_worked (call : Call) (decay : Int → Rat) (start p p' : Proc) (hs : Started start)
    (hw : WellBehaved start.ops call) (hcall : ReportsIndirect call) (hth : 1/2 ≤ start.threshold) (ops : List ProcOp)
    (ho : ∀ op ∈ ops, op.Harmless start.ops ∧ op.Indirect start.ops) (hrun : runProc call decay start ops = .ok p)
    (rng : List Nat) (infs : List (Rat × Rat × List Nat)) (hi : ∀ d ∈ infs, 0 ≤ d.2.1) (t : Term)
    (hstep : narStep1 call decay p rng infs = .ok (p', some t)) :
    (∃ b ∈ p.mem.heap, ∃ args name pos cnt, IsCall t args name ∧ RuleFor b name ∧ Counts b pos cnt ∧ cnt < 2 * pos) ∨
    (start.enBabbling = true ∧ ∃ op ∈ start.ops, op.babbleable = true ∧ t = encodeOp [selfTerm] op.name) := by
  obtain ⟨h1, h2, h3, h4⟩ := runProc_careful hcall hw (by linarith) hs.careful ho hrun
  obtain ⟨-, -, k⟩ := step1_careful hcall (by rw [h2]; exact hw) (by rw [h3]; linarith) h1 hi hstep
  rcases k t rfl with ⟨b, hb, args, name, x, j1, j2, j3, j4⟩ | ⟨j1, op, j2, j3, j4⟩
  · obtain ⟨_, _, pos, cnt, c1, c2, c3, c4⟩ := (h1.safe.heap b hb).sane
    rw [h3] at j4
    exact .inl ⟨b, hb, args, name, pos, cnt, j1, j2, c1, record_exp c1 c4 j3 (by linarith)⟩
  · rw [h4] at j1
    rw [h2] at j2
    exact .inr ⟨j1, op, j2, j3, Option.some.inj j4⟩

/-- C114: an operator is not executed if every rule about it has failed at least as often as it was confirmed (and the reasoner
does not babble). -/
theorem C114_discredited_not_done (call : Call) (decay : Int → Rat) (start p p' : Proc) (hs : Started start)
    (hw : WellBehaved start.ops call) (hcall : ReportsIndirect call) (hth : 1/2 ≤ start.threshold) (hb : start.enBabbling = false)
    (ops : List ProcOp) (ho : ∀ op ∈ ops, op.Harmless start.ops ∧ op.Indirect start.ops)
    (hrun : runProc call decay start ops = .ok p) (name : String) (hbad : ∀ b ∈ p.mem.heap, RuleFor b name → Discredited b)
    (rng : List Nat) (infs : List (Rat × Rat × List Nat)) (hi : ∀ d ∈ infs, 0 ≤ d.2.1) (act : Option Term)
    (hstep : narStep1 call decay p rng infs = .ok (p', act)) : ¬ Does act name := by
  rintro ⟨t, args, rfl, hc⟩
  rcases C114_only_what_worked call decay start p p' hs hw hcall hth ops ho hrun rng infs hi t hstep with
    ⟨b, h1, args', name', pos, cnt, h2, h3, h4, h5⟩ | ⟨h1, -⟩
  · have := IsCall.name_eq hc h2
    subst this
    have := hbad b h1 h3 pos cnt h4
    omega
  · rw [hb] at h1; cases h1

/-- C114: an operator which is given up stays given up, until somebody reports that it was executed: in no continuation of the
history the reasoner executes it by itself. -/
theorem C114_given_up_for_good (call : Call) (decay : Int → Rat) (start p p1 p2 : Proc) (hs : Started start)
    (hw : WellBehaved start.ops call) (hcall : ReportsIndirect call) (hth : 1/2 ≤ start.threshold) (hb : start.enBabbling = false)
    (ops : List ProcOp) (ho : ∀ op ∈ ops, op.Harmless start.ops ∧ op.Indirect start.ops)
    (hrun : runProc call decay start ops = .ok p) (name : String) (hg : GivenUp name p) (hnr : NeverReports call name)
    (later : List ProcOp) (hl : ∀ op ∈ later, op.Harmless start.ops ∧ op.Indirect start.ops ∧ op.Without name)
    (hrun1 : runProc call decay p later = .ok p1) (rng : List Nat) (infs : List (Rat × Rat × List Nat))
    (hi : ∀ d ∈ infs, 0 ≤ d.2.1) (act : Option Term) (hstep : narStep1 call decay p1 rng infs = .ok (p2, act)) :
    ¬ Does act name := by
  have h0 := runProc_careful hcall hw (by linarith) hs.careful ho hrun
  have key : (Careful p1 ∧ p1.ops = start.ops ∧ p1.threshold = start.threshold ∧ p1.enBabbling = start.enBabbling) ∧ GivenUp name p1 := by
    refine foldlM_inv (fun q : Proc => (Careful q ∧ q.ops = start.ops ∧ q.threshold = start.threshold ∧
      q.enBabbling = start.enBabbling) ∧ GivenUp name q) hrun1 ⟨h0, hg⟩ ?_
    rintro op hop q q' ⟨⟨k1, k2, k3, k4⟩, k5⟩ hq
    obtain ⟨a1, a2, a3⟩ := hl op hop
    obtain ⟨j1, j2, j3, j4⟩ := ProcOp.run_careful hcall (by rw [k2]; exact hw) (by rw [k3]; linarith) k1
      (by rw [k2]; exact a1) (by rw [k2]; exact a2) hq
    exact ⟨⟨j1, j2.trans k2, j3.trans k3, j4.trans k4⟩, run_givenUp hcall hnr (by rw [k2]; exact hw) (by rw [k3]; exact hth)
      (by rw [k4]; exact hb) k1 (by rw [k2]; exact a1) a3 k5 hq⟩
  obtain ⟨⟨h1, h2, h3, h4⟩, h5⟩ := key
  obtain ⟨-, -, k⟩ := step1_careful hcall (by rw [h2]; exact hw) (by rw [h3]; linarith) h1 hi hstep
  rintro ⟨t, args, rfl, hc⟩
  rcases k t rfl with ⟨b, hbm, args', name', x, j1, j2, j3, j4⟩ | ⟨j1, -⟩
  · obtain ⟨_, _, pos, cnt, c1, c2, c3, c4⟩ := (h1.safe.heap b hbm).sane
    have := IsCall.name_eq hc j1
    subst this
    rw [h3] at j4
    have := record_exp c1 c4 j3 (by linarith)
    have := h5.rules b hbm j2 pos cnt c1
    omega
  · rw [h4, hb] at j1; cases j1

/-! ## a pupil which tries in vain -/

/-- a new reasoner whose operator `^l` gives each observation the weight 1; it does not babble and has room for one goal -/
def pupil : Proc :=
  { narInit with ops := [⟨"^l", true, 1⟩], enBabbling := false, t := 11, goals := makeGoalSystem 1 8 }

theorem pupil_started : Started pupil where
  fresh := ⟨rfl, rfl, rfl⟩
  trace := rfl
  alive := rfl
  time := by decide
  table := by decide +kernel
  goals := ⟨1, 8, by decide, by decide, rfl⟩
  weights := by decide

/-- `a` is seen (again), then the reasoner may act -/
def lookA (rng : List Nat) (infs : List (Rat × Rat × List Nat)) : List ProcOp :=
  [.step0 firstDraws, .flush, .event (.Name "a"), .step1 rng infs]

/-- once `^l` was followed by `b`, and `b` is wanted -/
def hopeful : List ProcOp := learnLB ++ [.goal (.Name "b") ⟨1, 9/10⟩ 100, .flush]

/-- each copy of the rule is tried once, in vain -/
def inVain : List ProcOp := hopeful ++ (lookA [0] [] ++ (lookA [1] [(0, 0, [0, 0])] ++ (lookA [0] [] ++ (lookA [0] [(0, 0, [0, 1])] ++
  (lookA [0] [] ++ lookA [0] []))))) 

theorem noEffect_indirect : ReportsIndirect noEffect := by
  intro name args p p' h
  cases h
  exact ⟨[], by simp, by simp⟩

theorem noEffect_never (name : String) : NeverReports noEffect name := by
  intro n args p p' h
  cases h
  exact ⟨[], by simp, by simp⟩

theorem lookA_meets (ops : List Op) (rng : List Nat) (infs : List (Rat × Rat × List Nat)) (hi : ∀ d ∈ infs, 0 ≤ d.2.1) :
    ∀ op ∈ lookA rng infs, op.Harmless ops ∧ op.Indirect ops ∧ op.Without "^l" := by
  intro op hop
  simp only [lookA, List.mem_cons, List.not_mem_nil, or_false] at hop
  rcases hop with rfl | rfl | rfl | rfl
  · exact ⟨trivial, trivial, trivial⟩
  · exact ⟨trivial, trivial, trivial⟩
  · refine ⟨plain_name _ _, fun h => ?_, fun args h => ?_⟩
    · simp [StartsWithCall] at h
    · cases h.2
  · exact ⟨hi, trivial, trivial⟩

theorem hopeful_meets (ops : List Op) (h : ∃ o ∈ ops, o.name = "^l") : ∀ op ∈ hopeful, op.Harmless ops ∧ op.Indirect ops := by
  intro op hop
  simp only [hopeful, learnLB, List.mem_append, List.mem_cons, List.not_mem_nil, or_false] at hop
  have hn : ∀ n, ¬ StartsWithCall (.Name n) := by intro n h; simp [StartsWithCall] at h
  rcases hop with (rfl | rfl | rfl | rfl | rfl | rfl | rfl | rfl) | rfl | rfl
  · exact ⟨plain_name _ _, fun h => absurd h (hn _)⟩
  · exact ⟨call_plain (args := [selfTerm]) (name := "^l") ⟨by simp, rfl⟩ ⟨_, rfl⟩, fun _ => ⟨[selfTerm], "^l", ⟨by simp, rfl⟩, h⟩⟩
  · exact ⟨plain_name _ _, fun h => absurd h (hn _)⟩
  · exact ⟨trivial, trivial⟩
  · exact ⟨fun d hd => (by cases hd), trivial⟩
  · exact ⟨fun d hd => (by cases hd), trivial⟩
  · exact ⟨fun d hd => (by cases hd), trivial⟩
  · exact ⟨fun d hd => (by cases hd), trivial⟩
  · exact ⟨printable_name _, hn _⟩
  · exact ⟨trivial, trivial⟩

theorem inVain_meets : ∀ op ∈ inVain, op.Harmless pupil.ops ∧ op.Indirect pupil.ops := by
  have hl : ∀ rng infs, (∀ d ∈ infs, (0 : Rat) ≤ d.2.1) → ∀ op ∈ lookA rng infs, op.Harmless pupil.ops ∧ op.Indirect pupil.ops :=
    fun rng infs hi op hop => ⟨(lookA_meets pupil.ops rng infs hi op hop).1, (lookA_meets pupil.ops rng infs hi op hop).2.1⟩
  have h0 : ∀ d ∈ ([] : List (Rat × Rat × List Nat)), (0 : Rat) ≤ d.2.1 := by simp
  have h1 : ∀ l, ∀ d ∈ ([(0, 0, l)] : List (Rat × Rat × List Nat)), (0 : Rat) ≤ d.2.1 := by
    intro l d hd
    rw [List.mem_singleton] at hd
    subst hd
    exact le_refl _
  intro op hop
  unfold inVain at hop
  rcases List.mem_append.1 hop with hop | hop
  · exact hopeful_meets _ ⟨_, List.mem_singleton.2 rfl, rfl⟩ op hop
  rcases List.mem_append.1 hop with hop | hop
  · exact hl _ _ h0 op hop
  rcases List.mem_append.1 hop with hop | hop
  · exact hl _ _ (h1 _) op hop
  rcases List.mem_append.1 hop with hop | hop
  · exact hl _ _ h0 op hop
  rcases List.mem_append.1 hop with hop | hop
  · exact hl _ _ (h1 _) op hop
  rcases List.mem_append.1 hop with hop | hop
  · exact hl _ _ h0 op hop
  · exact hl _ _ h0 op hop

/-- the first time the pupil does act -/
example : ∃ p p', runProc noEffect (fun _ => 1) pupil (hopeful ++ [.event (.Name "a")]) = .ok p ∧
    narStep1 noEffect (fun _ => 1) p [0] [] = .ok (p', some opL) := by
  have h : (runProc noEffect (fun _ => 1) pupil (hopeful ++ [.event (.Name "a")])).bind (fun p =>
      (narStep1 noEffect (fun _ => 1) p [0] []).map (·.2)) = .ok (some opL) := by decide +kernel
  obtain ⟨p, hp, h⟩ := R.bind_ok.1 h
  obtain ⟨⟨p', act⟩, h1, h2⟩ := R.map_ok.1 h
  simp only at h2
  subst h2
  exact ⟨p, p', hp, h1⟩

theorem inVain_end : ∃ p, runProc noEffect (fun _ => 1) pupil inVain = .ok p ∧
    (p.mem.heap.map (fun b => (b.term, b.evi)), p.queue.length, p.trace.map (·.name)) =
      (List.replicate 4 (leadsAB, some (.CNT 1 2)), 0, [.Name "a"]) :=
  R.map_ok.1 (show (runProc noEffect (fun _ => 1) pupil inVain).map (fun p => (p.mem.heap.map (fun b => (b.term, b.evi)), p.queue.length, p.trace.map (·.name))) = _ by decide +kernel)

/-- after four attempts in vain the pupil has given up `^l` -/
theorem inVain_givenUp : ∃ p, runProc noEffect (fun _ => 1) pupil inVain = .ok p ∧ GivenUp "^l" p ∧
    ∃ b ∈ p.mem.heap, RuleFor b "^l" := by
  obtain ⟨p, hp, h⟩ := inVain_end
  simp only [Prod.mk.injEq] at h
  obtain ⟨h1, h2, h3⟩ := h
  refine ⟨p, hp, ⟨?_, ?_, ?_⟩, ?_⟩
  · intro b hb _ pos cnt hc
    obtain ⟨-, h4⟩ := seen_rules h1 hb
    unfold Counts at hc
    rw [h4] at hc
    cases hc
    decide
  · rw [List.length_eq_zero_iff.1 h2]; simp
  · intro e he args hc
    have := List.mem_map_of_mem (f := fun e : Event => e.name) he
    rw [h3, List.mem_singleton] at this
    rw [this] at hc
    cases hc.2
  · have hlen : p.mem.heap.length = 4 := by have := congrArg List.length h1; simpa using this
    have hm : p.mem.heap[0] ∈ p.mem.heap := List.getElem_mem _
    refine ⟨p.mem.heap[0], hm, .Name "a", [], opL, .Name "b", [selfTerm], ?_, by simp, rfl⟩
    rw [(seen_rules h1 hm).1]
    rfl

/-- from then on seeing `a` does not make the pupil act, whatever it draws -/
example (n : Nat) (rng : List Nat) (p p1 p2 : Proc) (h : runProc noEffect (fun _ => 1) pupil inVain = .ok p)
    (h1 : runProc noEffect (fun _ => 1) p (List.replicate n (lookA rng [])).flatten = .ok p1) (act : Option Term)
    (h2 : narStep1 noEffect (fun _ => 1) p1 rng [] = .ok (p2, act)) : ¬ Does act "^l" := by
  obtain ⟨q, hq, hg, -⟩ := inVain_givenUp
  rw [h] at hq
  cases hq
  refine C114_given_up_for_good noEffect _ pupil p p1 p2 pupil_started (noEffect_wellBehaved _) noEffect_indirect (by decide +kernel)
    rfl inVain inVain_meets h "^l" hg (noEffect_never _) _ ?_ h1 rng [] (by simp) act h2
  intro op hop
  obtain ⟨l, hl, hop⟩ := List.mem_flatten.1 hop
  rw [List.eq_of_mem_replicate hl] at hop
  exact lookA_meets _ _ _ (by simp) op hop

/-- C114, violated for what the user sees: a rule is kept in several copies, each with its own record, and failures count for one
copy only.  The pupil has seen `^l` work once; after it has failed three times, it does it once more. -/
theorem C114_failures_spread_over_copies : ∃ p p', runProc noEffect (fun _ => 1) pupil
      (hopeful ++ (lookA [0] [] ++ (lookA [1] [(0, 0, [0, 0])] ++ (lookA [0] [] ++ (lookA [0] [(0, 0, [0, 1])] ++
        (lookA [0] []).dropLast))))) = .ok p ∧
    (p.mem.heap.map (fun b => (b.term, b.evi))) =
      [(leadsAB, some (.CNT 1 2)), (leadsAB, some (.CNT 1 2)), (leadsAB, some (.CNT 1 2)), (leadsAB, some (.CNT 1 1))] ∧
    narStep1 noEffect (fun _ => 1) p [0] [] = .ok (p', some opL) := by
  have h : (runProc noEffect (fun _ => 1) pupil
      (hopeful ++ (lookA [0] [] ++ (lookA [1] [(0, 0, [0, 0])] ++ (lookA [0] [] ++ (lookA [0] [(0, 0, [0, 1])] ++
        (lookA [0] []).dropLast)))))).bind (fun p =>
      (narStep1 noEffect (fun _ => 1) p [0] []).map (fun x => (x.2, p.mem.heap.map (fun b => (b.term, b.evi))))) =
      .ok (some opL, [(leadsAB, some (.CNT 1 2)), (leadsAB, some (.CNT 1 2)), (leadsAB, some (.CNT 1 2)), (leadsAB, some (.CNT 1 1))]) := by
    decide +kernel
  obtain ⟨p, hp, h⟩ := R.bind_ok.1 h
  obtain ⟨⟨p', act⟩, h1, h2⟩ := R.map_ok.1 h
  obtain ⟨e1, e2⟩ := Prod.mk.inj h2
  simp only at e1
  subst e1
  exact ⟨p, p', hp, e2, h1⟩

end Nar.Props
