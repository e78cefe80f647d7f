import Verif.Lemmas.Proc8
import Verif.Props.Proc
/-! # The procedural reasoner does not crash: C63 -/
namespace Nar.Props
open Nar

/-- C63, what holds: a reasoner which is only given plain events and goals (no rules, and no events about operator
calls or parts of them) never crashes, whatever happens in whatever order; the only way not to finish a history is
that the loop which selects operators needs more draws than there are. -/
theorem C63_never_crashes_partial (call : Call) (decay : Int → Rat) (p : Proc) (hp : Started p) (hcall : WellBehaved p.ops call)
    (ops : List ProcOp) (ho : ∀ op ∈ ops, op.Harmless p.ops) (e : Err) (h : runProc call decay p ops = .error e) :
    e = .fuel := by
  rcases runProc_safe (decay := decay) hcall hp.safe ho with ⟨p', h', _⟩ | ⟨h', _⟩
  · rw [h'] at h; cases h
  · rw [h'] at h; cases h; rfl

/-- C63: with one operator per rule (the default) every such history is finished. -/
theorem C63_always_finishes (call : Call) (decay : Int → Rat) (p : Proc) (hp : Started p) (hcall : WellBehaved p.ops call)
    (ops : List ProcOp) (ho : ∀ op ∈ ops, op.Harmless p.ops) (h1 : p.nOpsMax = 1) (hd : ∀ op ∈ ops, op.Drawn) :
    ∃ p', runProc call decay p ops = .ok p' := by
  rcases runProc_safe (decay := decay) hcall hp.safe ho with ⟨p', h', _⟩ | ⟨_, h'⟩
  · exact ⟨p', h'⟩
  · exact (h' ⟨h1, hd⟩).elim

/-- C63: and its storage worker survives, so that everything observed is eventually stored. -/
theorem C63_worker_survives (call : Call) (decay : Int → Rat) (p p' : Proc) (hp : Started p) (hcall : WellBehaved p.ops call)
    (ops : List ProcOp) (ho : ∀ op ∈ ops, op.Harmless p.ops) (h : runProc call decay p ops = .ok p') :
    p'.workerAlive = true := by
  rcases runProc_safe (decay := decay) hcall hp.safe ho with ⟨p'', h', hs⟩ | ⟨h', _⟩
  · rw [h'] at h; cases h; exact hs.alive
  · rw [h'] at h; cases h

theorem noEffect_wellBehaved (ops : List Op) : WellBehaved ops noEffect := by
  intro name args p
  exact ⟨[], by simp [noEffect], by simp⟩

theorem agent_started : Started agent where
  fresh := agent_fresh
  trace := rfl
  alive := rfl
  time := by decide
  table := by decide +kernel
  goals := ⟨20, 8, by decide, by decide, rfl⟩
  weights := agent_ops

theorem plain_name (ops : List Op) (n : String) : PlainEvent ops (.Name n) :=
  ⟨printable_name n, fun x ps h => by cases h⟩

example : ∀ op ∈ pursueB, op.Harmless agent.ops := by
  intro op hop
  simp only [pursueB, learnLB, List.mem_append, List.mem_cons, List.not_mem_nil, or_false] at hop
  rcases hop with (rfl | rfl | rfl | rfl | rfl | rfl | rfl | rfl) | rfl | rfl | rfl | rfl
  all_goals first | exact plain_name _ _ | exact printable_name _ | trivial | simp [ProcOp.Harmless]
  exact call_plain (args := [selfTerm]) (name := "^l") ⟨by simp, rfl⟩ ⟨_, rfl⟩

/-- an event about a thing, `<{x} --> [on]>`, is plain -/
example : PlainEvent agent.ops (.Stmt .INH (.SetExt [.Name "x"]) (.SetInt [.Name "on"])) := by
  refine ⟨⟨_, rfl⟩, ?_⟩
  rintro x ps h
  cases h
  rintro (⟨args, name, _, h⟩ | ⟨args, h⟩ | ⟨args, h⟩ | ⟨o, _, h⟩) <;> cases h

/-! ### the restrictions are needed -/

/-- `<x --> [pr]>` -/
def hasProp (x : Term) (pr : String) : Term := .Stmt .INH x (.SetInt [.Name pr])
/-- see `a`, do `^l`, see `b`; the worker handles one message with the draws `rng` -/
def learnOne (a b : Term) (rng : List Nat) : List ProcOp :=
  [.event a, .event opL, .event b, .step0 firstDraws, .worker rng]

/-- C63, violated: the alphabet of the random variable names has 15 characters, but 16 are drawn from.  The draw 15
ends the storage worker, and then the next observation crashes the reasoner.  All input is plain. -/
theorem C63_draw_kills_worker : ∃ p, runProc noEffect (fun _ => 1) agent
      (learnOne (hasProp (.Name "x") "on") (hasProp (.Name "x") "off") [15]) = .ok p ∧
    p.workerAlive = false ∧ runProc noEffect (fun _ => 1) p [.step0 firstDraws] = .error .unwrapNone := by
  have h : ((runProc noEffect (fun _ => 1) agent
      (learnOne (hasProp (.Name "x") "on") (hasProp (.Name "x") "off") [15])).map (fun p =>
      (p.workerAlive == false) && decide ((runProc noEffect (fun _ => 1) p [.step0 firstDraws]).map (fun _ => ()) = .error .unwrapNone)))
      = .ok true := by decide +kernel
  obtain ⟨p, hp, h⟩ := R.map_ok.1 h
  simp only [Bool.and_eq_true, beq_iff_eq, decide_eq_true_iff] at h
  refine ⟨p, hp, h.1, ?_⟩
  have h2 := h.2
  cases hr : runProc noEffect (fun _ => 1) p [.step0 firstDraws] with
  | ok a => rw [hr] at h2; cases h2
  | error e => rw [hr] at h2; cases h2; rfl

/-- C63, violated: almost four out of five names kill the worker: only lists of draws without 15 (modulo 16) do not. -/
theorem C63_names_exact (n : Nat) (rng : List Nat) (hlen : n ≤ rng.length) :
    (∃ r, varNameLoop n rng = .ok r) ↔ ∀ d ∈ rng.take n, d % 16 ≠ 15 := by
  induction n generalizing rng with
  | zero => simp [varNameLoop]
  | succ n ih =>
    cases rng with
    | nil => simp at hlen
    | cons d ds =>
      have ih := ih ds (by simpa using hlen)
      have hlt := Nat.mod_lt d (show 16 > 0 by omega)
      simp only [varNameLoop, genRange, if_neg (show ¬ (16 : Nat) = 0 by omega), bind, Except.bind, List.headD_cons,
        List.tail_cons, List.take_succ_cons, List.mem_cons, forall_eq_or_imp]
      rw [← ih]
      by_cases hd : d % 16 = 15
      · have : varAlphabet[d % 16]? = none := by rw [hd]; rfl
        simp only [this, unwrap]
        constructor
        · rintro ⟨r, h⟩; cases h
        · rintro ⟨h, _⟩; exact (h hd).elim
      · obtain ⟨c, hc⟩ : ∃ c, varAlphabet[d % 16]? = some c :=
          ⟨_, List.getElem?_eq_getElem (by simp [varAlphabet]; omega)⟩
        simp only [hc, unwrap]
        constructor
        · rintro ⟨r, h⟩
          refine ⟨hd, ?_⟩
          cases hv : varNameLoop n ds with
          | ok a => exact ⟨a, rfl⟩
          | error e => rw [hv] at h; cases h
        · rintro ⟨_, r, h⟩
          rw [h]
          exact ⟨_, rfl⟩

example : (∃ r, varNameLoop 3 [1, 2, 3] = .ok r) ∧ ¬ ∃ r, varNameLoop 3 [1, 31, 3] = .ok r := by
  rw [C63_names_exact _ _ (by decide), C63_names_exact _ _ (by decide)]
  decide

/-- C63, violated: a rule told by the user has no delay.  The first observation about a concept of that rule ends the
storage worker. -/
theorem C63_told_rule_kills_worker : ∃ p, runProc noEffect (fun _ => 1) agent
      (.rule (rule (.Name "a") [opL] (.Name "c")) ⟨1, 9/10⟩ 100 10 [] :: learnOne (.Name "a") (.Name "b") []) = .ok p ∧
    p.workerAlive = false := by
  have h : (runProc noEffect (fun _ => 1) agent
      (.rule (rule (.Name "a") [opL] (.Name "c")) ⟨1, 9/10⟩ 100 10 [] :: learnOne (.Name "a") (.Name "b") [])).map
      (·.workerAlive) = .ok false := by decide +kernel
  exact R.map_ok.1 h

/-- C63, violated: telling the reasoner any temporal rule whose condition is no sequence crashes it. -/
theorem C63_told_rule_crashes (call : Call) (decay : Int → Rat) (p : Proc) (cond effect : Term) (tv : Tv) (id : Int)
    (n : Nat) (rng : List Nat) (h : ∀ ts, cond ≠ .Seq ts) :
    (ProcOp.rule (.Stmt .PREDIMPL cond effect) tv id n rng).run call decay p = .error .explicit := by
  have h1 : retSeqCond (.Stmt .PREDIMPL cond effect) = .error .explicit := by
    cases cond <;> first | rfl | exact absurd rfl (h _)
  simp only [ProcOp.run, inputRule, memAddEvidence, memAddEvidenceInternal, newEternalSentenceByTv, bind, Except.bind, h1]

/-- C63, violated: pursuing a goal with a told rule which does not end in an operator crashes the reasoner. -/
theorem C63_told_rule_without_operator : (runProc noEffect (fun _ => 1) agent
      [.rule (rule (.Name "a") [.Name "x"] (.Name "b")) ⟨1, 9/10⟩ 100 10 [], .goal (.Name "b") ⟨1, 9/10⟩ 101,
       .event (.Name "a"), .step1 [] []]).map (fun _ => ()) = .error .explicit := by decide +kernel

/-- C63, violated: an event about a thing with the name of an operator.  The variable introduced for the thing also
replaces the name of the operator; as soon as the condition is met by something else, the reasoner crashes. -/
theorem C63_operator_named_thing : (runProc noEffect (fun _ => 1) agent
      (learnOne (hasProp (.Name "^l") "on") (.Name "e") [] ++ [.goal (.Name "e") ⟨1, 9/10⟩ 100, .flush,
        .step1 [9] [(0, 0, [])], .event (hasProp (.SetExt [.Name "x"]) "on"), .step1 [9] []])).map (fun _ => ())
      = .error .explicit := by decide +kernel

/-- C63, violated: the reasoner prints what it decides to do, and an empty compound has no text.  After an operator with
an empty set as argument led to `b`, wanting `b` crashes the reasoner when the condition is met again. -/
theorem C63_empty_compound_crashes : (runProc noEffect (fun _ => 1) agent
      [.event (.Name "a"), .event (encodeOp [.SetExt []] "^l"), .event (.Name "b"), .step0 firstDraws, .worker [],
       .goal (.Name "b") ⟨1, 9/10⟩ 100, .flush, .event (.Name "a"), .step1 [] []]).map (fun _ => ()) = .error .index := by
  decide +kernel

/-- with a filled set nothing happens -/
example : (runProc noEffect (fun _ => 1) agent
      [.event (.Name "a"), .event (encodeOp [.SetExt [.Name "x"]] "^l"), .event (.Name "b"), .step0 firstDraws, .worker [],
       .goal (.Name "b") ⟨1, 9/10⟩ 100, .flush, .event (.Name "a"), .step1 [] []]).map (fun _ => ()) = .ok () := by
  decide +kernel

/-- C63: an executed action is always printed; if it cannot be printed, the step crashes after the operator was called,
and the execution is not perceived. -/
theorem C63_unprintable_action_crashes (call : Call) (p p1 : Proc) (t : Term) (args : List Term) (name : String)
    (h : IsCall t args name) (hr : RegisteredCall p.ops t) (hc : call name args p = .ok p1) (ht : ¬ Term.Printable t) :
    execute call p (some t) = .error .index := by
  obtain ⟨a, n, h', o, ho, hn⟩ := hr
  obtain ⟨rfl, rfl⟩ : args = a ∧ name = n := by
    have := (decodeOp_iff _ _ _).2 h
    rw [(decodeOp_iff _ _ _).2 h'] at this
    cases this
    exact ⟨rfl, rfl⟩
  unfold execute
  simp only [(decodeOp_iff t args name).2 h, unwrap, bind, Except.bind]
  cases hop : retOpByName p.ops name with
  | none =>
    obtain ⟨o', ho'⟩ := retOpByName_isSome.1 ⟨o, ho, hn⟩
    rw [hop] at ho'
    cases ho'
  | some o' =>
    simp only [hc]
    unfold printTerm
    cases hx : Term.convTermToStr t with
    | some x => exact absurd ⟨x, hx⟩ ht
    | none => rfl

example : ¬ Term.Printable (encodeOp [.SetExt []] "^l") := by
  rintro ⟨x, h⟩
  cases h

/-- C63, violated: if no operator is allowed, the loop which selects operators never ends, whatever is drawn. -/
theorem C63_selection_endless (idxs : List Nat) (hne : idxs ≠ []) (draws : List Nat) :
    selectOps idxs 0 draws [] = .error .fuel := by
  rcases selectOps_cases hne 0 draws [] with ⟨r, h, hr⟩ | h
  · obtain ⟨_, _, h3⟩ := selectOps_spec h (by simp) (by simp)
    exact (hr (List.length_eq_zero_iff.1 h3)).elim
  · exact h

example : nSelOps { agent with nOpsMax := 0 } 3 0 = 0 := by decide +kernel

end Nar.Props
