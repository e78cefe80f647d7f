import Verif.Lemmas.Unprompted
import Verif.Props.Serving
import Verif.Props.Transfer
/-! # C126: what must not be tried out is not done unprompted -/
namespace Nar.Props
open Nar Term

/-- C126: in every history, whatever the acting side remembers, wants, learns and does mentions only names which it was given:
let `ok` be any property of names which all names in the events, goals and rules given have, and all names in what the operators
report, the name SELF and the names of the operators which may be tried out.  Then all names in its memory of events, in its
rules, in its goals and in what it executes have the property. -/
theorem C126_only_given_names (ok : String → Prop) (call : Call) (hcall : ReportsOnly ok call) (hself : ok "SELF") (decay : Int → Rat)
    (start p : Proc) (hs : Started start) (htry : ∀ o ∈ start.ops, o.babbleable = true → ok o.name) (ops : List ProcOp)
    (hg : ∀ op ∈ ops, ∀ t, op.Gives t → MentionsOnly ok t) (hrun : runProc call decay start ops = .ok p) :
    (∀ e ∈ p.trace, MentionsOnly ok e.name) ∧ (∀ t, KnownRule p t → MentionsOnly ok t) ∧
      (∀ e, Stored p.goals e → MentionsOnly ok e.sentence.term) ∧
      ∀ rng infs p' t, narStep1 call decay p rng infs = .ok (p', some t) → MentionsOnly ok t := by
  have h := runProc_mentions hcall hself hg (hs.mentions htry) hrun
  exact ⟨h.trace, fun t ⟨b, hb, e⟩ => e ▸ h.heap b hb, h.goals, fun rng infs p' t k => (narStep1_mentions hcall hself h k).2 t rfl⟩

/-- C126: so an operator which must not be tried out is not executed unless its name is mentioned: in an event, in a goal, in a
rule, or in what an operator reports. -/
theorem C126_not_done_unprompted_partial (call : Call) (decay : Int → Rat) (start p p' : Proc) (hs : Started start) (name : String)
    (hn : name ≠ "SELF") (hno : ∀ o ∈ start.ops, o.name = name → o.babbleable = false) (hcall : ReportsOnly (· ≠ name) call)
    (ops : List ProcOp) (hg : ∀ op ∈ ops, ∀ t, op.Gives t → ¬ Mentions t name) (hrun : runProc call decay start ops = .ok p)
    (rng : List Nat) (infs : List (Rat × Rat × List Nat)) (act : Option Term)
    (hstep : narStep1 call decay p rng infs = .ok (p', act)) : ¬ Does act name := by
  rintro ⟨t, args, rfl, hc⟩
  have h := (C126_only_given_names (· ≠ name) call hcall (Ne.symm hn) decay start p hs
    (fun o ho hb e => by rw [hno o ho e] at hb; cases hb) ops (fun op ho t ht x hx e => hg op ho t ht (e ▸ hx)) hrun).2.2.2
    rng infs p' t hstep
  exact (mentionsOnly_call hc h).2 rfl

/-- C126: the same for the whole reasoner.  Every name in what a step executes (with any rounds of the storage worker between its
two parts), and every name in its memory of events, was mentioned in an event, a goal or a temporal rule which was told, typed or
found in a text, or it is the name of an operator which a line allowed to be tried out, or SELF. -/
theorem C126_reasoner_only_given_names (env : Env) (ops : List NarOp) (r : Reasoner) (hr : runNar env ops = .ok r) :
    (∀ e ∈ r.proc.trace, ∀ x, Mentions e.name x → Heard env ops x) ∧
    ∀ (draws : Nat → SampleDraws) (p : Proc), narStep0 r.proc draws = .ok p →
      ∀ (between : List (List Nat)) (rng : List Nat) (infs : List (Rat × Rat × List Nat)) (p' : Proc) (t : Term),
      narStep1 libCall env.goalDecay (between.foldl workerStep p) rng infs = .ok (p', some t) → ∀ x, Mentions t x → Heard env ops x := by
  have hself : Heard env ops "SELF" := .inr rfl
  have h := runNar_mentions hself hr (fun op ho t ht x hx => .inl ⟨op, ho, .inl ⟨t, ht, hx⟩⟩) (fun op ho n k => .inl ⟨op, ho, .inr k⟩)
  refine ⟨h.trace, ?_⟩
  intro draws p h0 between rng infs p' t h1
  exact (narStep1_mentions (libCall_mentions _) hself (workers_mention between (narStep0_mentions h h0)) h1).2 t rfl

/-- C126: so the reasoner executes an operator only if somebody allowed to try it out, or mentioned its name in an event, a goal or
a temporal rule. -/
theorem C126_reasoner_not_unprompted_partial (env : Env) (ops : List NarOp) (r : Reasoner) (hr : runNar env ops = .ok r)
    (name : String) (hn : name ≠ "SELF") (hno : ∀ op ∈ ops, ¬ Permits op name)
    (hg : ∀ op ∈ ops, ∀ t, GivesForActing env op t → ¬ Mentions t name)
    (draws : Nat → SampleDraws) (p p' : Proc) (h0 : narStep0 r.proc draws = .ok p) (between : List (List Nat)) (rng : List Nat)
    (infs : List (Rat × Rat × List Nat)) (act : Option Term)
    (h1 : narStep1 libCall env.goalDecay (between.foldl workerStep p) rng infs = .ok (p', act)) : ¬ Does act name := by
  rintro ⟨t, args, rfl, hc⟩
  have hx : Mentions t name := by
    rw [hc.2]
    exact .inside (by simp [parts]) (.refl _)
  rcases (C126_reasoner_only_given_names env ops r hr).2 draws p h0 between rng infs p' t h1 name hx with ⟨op, ho, ⟨u, k, m⟩ | k⟩ | k
  · exact hg op ho u k m
  · exact hno op ho k
  · exact hn k

/-! ## to be mentioned is enough -/

/-- The operator `^l` is itself a thing which is `on`; when it was executed, `e` followed.  Later `e` is wanted, and `^nlpRel0`, which
must not be tried out, is `on`. -/
def mentionedOnly : List NarOp :=
  [ln "!por NOP ^l", ln "!por nlpRel0", ln "!peb 0", stepWith [] [], stepWith [] [], ln "<^l --> [on]>. :|:", happens opL,
   ln "e. :|:", stepWith [[1, 2, 3, 4, 5, 6, 7, 8]] [], ln "z. :|:", ln "e! :|:", stepWith [] [(0, 0, [2, 0]), (0, 0, [1, 0])],
   ln "<^nlpRel0 --> [on]>. :|:", stepWith [] []]

/-- the sentence in a line, if it has one -/
def lineTerm (l : List Char) : List Term :=
  match dispatch (trimNewline l), parseNarsese env0.pf (trimNewline l) with
  | .ok .narsese, .ok (some (t, _)) => [t]
  | _, _ => []
/-- the sentence given by the action -/
def actTerm : NarOp → List Term
  | .line l _ => lineTerm l
  | .tell t _ _ _ _ => [t]
  | _ => []
/-- the operator which the line registers -/
def lineOp (l : List Char) : List Op :=
  match dispatch (trimNewline l) with
  | .ok (.register arg) => (registeredOp (splitWhitespace arg [])).toList
  | _ => []
def actOp : NarOp → List Op
  | .line l _ => lineOp l
  | _ => []
def noRels : NarOp → Bool
  | .line _ d => d.rels.isEmpty
  | _ => true

theorem gives_actTerm {op : NarOp} (hd : noRels op = true) {t : Term} (h : GivesForActing env0 op t) : t ∈ actTerm op := by
  cases op with
  | line l d =>
    rcases h with ⟨h1, tv, punct, isEvent, h2, -⟩ | ⟨-, rel, hrel, -⟩
    · simp only [actTerm, lineTerm, h1, h2, List.mem_singleton]
    · have : d.rels = [] := List.isEmpty_iff.1 hd
      rw [this] at hrel; cases hrel
  | tell t' punct tv isEvent rng =>
    rw [← h.1]; exact List.mem_singleton.2 rfl
  | _ => exact h.elim

theorem permits_actOp {op : NarOp} {n : String} (h : Permits op n) : ∃ o ∈ actOp op, o.babbleable = true ∧ o.name = n := by
  cases op with
  | line l d =>
    obtain ⟨arg, o, h1, h2, h3, h4⟩ := h
    exact ⟨o, by simp [actOp, lineOp, h1, h2], h3, h4⟩
  | _ => exact h.elim

/-- the term is a call of `^nlpRel0` -/
def isRelCall : Term → Bool
  | .Stmt .INH (.SetExt [.Prod _]) (.Name n) => n == "^nlpRel0"
  | _ => false

/-- C126, violated: to be mentioned is enough.  An operator which must not be tried out should be executed only if somebody told that
it is, or should be, executed, or what follows then.  But if the name of an operator has itself once been seen as a thing, the
variable introduced for the thing also stands for the operator: then anything said about another operator may lead to its execution.
Here `^nlpRel0` is executed, though nobody ever told anything about its execution but only that it is `on`. -/
theorem C126_mentioned_is_executed :
    (∃ r, runNar env0 mentionedOnly = .ok r ∧ r.proc.trace.map (·.name) =
      [isQ "^l" "on", opL, .Name "e", .Name "z", isQ "^nlpRel0" "on", encodeOp [selfTerm] "^nlpRel0"]) ∧
    (∀ op ∈ mentionedOnly, ¬ Permits op "^nlpRel0") ∧
    ∀ op ∈ mentionedOnly, ∀ t, GivesForActing env0 op t → ∀ args, ¬ IsSubterm (encodeOp args "^nlpRel0") t := by
  refine ⟨?_, ?_, ?_⟩
  · have h : (runNar env0 mentionedOnly).map (fun r => r.proc.trace.map (·.name)) =
        .ok [isQ "^l" "on", opL, .Name "e", .Name "z", isQ "^nlpRel0" "on", encodeOp [selfTerm] "^nlpRel0"] := by decide +kernel
    obtain ⟨r, hr, h⟩ := R.map_ok.1 h
    exact ⟨r, hr, h⟩
  · intro op ho hp
    obtain ⟨o, k1, k2, k3⟩ := permits_actOp hp
    have : ∀ op ∈ mentionedOnly, ∀ o ∈ actOp op, o.babbleable = true → o.name ≠ "^nlpRel0" := by decide +kernel
    exact this op ho o k1 k2 k3
  · intro op ho t ht args hs
    have h1 : ∀ op ∈ mentionedOnly, noRels op = true := by decide +kernel
    have h2 : ∀ op ∈ mentionedOnly, ∀ t ∈ actTerm op, ∀ s ∈ retSubterms t, isRelCall s = false := by decide +kernel
    have := h2 op ho t (gives_actTerm (h1 op ho) ht) _ ((mem_retSubterms _ _).2 hs)
    simp [isRelCall, encodeOp] at this

/-! ## concrete cases -/

/-- the same without the last event: `^nlpRel0` is registered, is never mentioned, and the last step does nothing -/
def notMentioned : List NarOp := mentionedOnly.take 12

example : ∃ r p p', runNar env0 notMentioned = .ok r ∧ narStep0 r.proc firstDraws = .ok p ∧
    narStep1 libCall env0.goalDecay (([] : List (List Nat)).foldl workerStep p) [0] [] = .ok (p', none) ∧
    (∀ op ∈ notMentioned, ¬ Permits op "^nlpRel0") ∧ (∀ op ∈ notMentioned, ∀ t, GivesForActing env0 op t → ¬ Mentions t "^nlpRel0") ∧
    r.proc.ops = [⟨"^l", true, 3⟩, ⟨"^nlpRel0", false, 3⟩] := by
  have h : (runNar env0 notMentioned).bind (fun r => (narStep0 r.proc firstDraws).bind (fun p =>
      (narStep1 libCall env0.goalDecay p [0] []).map (fun x => (x.2, r.proc.ops)))) =
      .ok (none, [⟨"^l", true, 3⟩, ⟨"^nlpRel0", false, 3⟩]) := by decide +kernel
  obtain ⟨r, hr, h⟩ := R.bind_ok.1 h
  obtain ⟨p, hp, h⟩ := R.bind_ok.1 h
  obtain ⟨⟨p', act⟩, h1, h⟩ := R.map_ok.1 h
  simp only [Prod.mk.injEq] at h
  obtain ⟨rfl, h2⟩ := h
  refine ⟨r, p, p', hr, hp, h1, ?_, ?_, h2⟩
  · intro op ho hp
    obtain ⟨o, k1, k2, k3⟩ := permits_actOp hp
    have : ∀ op ∈ notMentioned, ∀ o ∈ actOp op, o.babbleable = true → o.name ≠ "^nlpRel0" := by decide +kernel
    exact this op ho o k1 k2 k3
  · intro op ho t ht hs
    have h1 : ∀ op ∈ notMentioned, noRels op = true := by decide +kernel
    have h2 : ∀ op ∈ notMentioned, ∀ t ∈ actTerm op, ∀ s ∈ retSubterms t, s ≠ .Name "^nlpRel0" := by decide +kernel
    exact h2 op ho t (gives_actTerm (h1 op ho) ht) _ ((mem_retSubterms _ _).2 hs) rfl

/-- in this history `^l`, `on`, `e` and `z` are heard of, `^nlpRel0` is not -/
example : Heard env0 notMentioned "^l" ∧ ¬ Heard env0 notMentioned "^nlpRel0" := by
  constructor
  · exact .inl ⟨happens opL, by simp [notMentioned, mentionedOnly], .inl ⟨opL, ⟨rfl, by simp [BearsOnActing]⟩,
      .inside (by simp [opL, encodeOp, parts]) (.refl _)⟩⟩
  · rintro (⟨op, ho, ⟨t, ht, hs⟩ | hp⟩ | h)
    · have h1 : ∀ op ∈ notMentioned, noRels op = true := by decide +kernel
      have h2 : ∀ op ∈ notMentioned, ∀ t ∈ actTerm op, ∀ s ∈ retSubterms t, s ≠ .Name "^nlpRel0" := by decide +kernel
      exact h2 op ho t (gives_actTerm (h1 op ho) ht) _ ((mem_retSubterms _ _).2 hs) rfl
    · obtain ⟨o, k1, k2, k3⟩ := permits_actOp hp
      have : ∀ op ∈ notMentioned, ∀ o ∈ actOp op, o.babbleable = true → o.name ≠ "^nlpRel0" := by decide +kernel
      exact this op ho o k1 k2 k3
    · exact absurd h (by decide)

/-- an agent with an operator `^r` which must not be tried out learns and pursues `b`; nothing it is given mentions `^r` -/
example : ∃ p, runProc noEffect (fun _ => 1) agent pursueB = .ok p ∧ ReportsOnly (· ≠ "^r") noEffect ∧ Started agent ∧
    (∀ o ∈ agent.ops, o.name = "^r" → o.babbleable = false) ∧ (∀ op ∈ pursueB, ∀ t, op.Gives t → ¬ Mentions t "^r") ∧
    p.trace.map (·.name) = [.Name "a", opL] := by
  have h : (runProc noEffect (fun _ => 1) agent pursueB).map (fun p => p.trace.map (·.name)) = .ok [.Name "a", opL] := by
    decide +kernel
  obtain ⟨p, hp, h⟩ := R.map_ok.1 h
  refine ⟨p, hp, ?_, agent_started, by decide, ?_, h⟩
  · intro name args q q' hq
    cases hq
    exact ⟨[], by simp, fun _ e he => by cases he⟩
  · intro op ho t ht hs
    have hs := (mem_retSubterms _ _).2 hs
    simp only [pursueB, learnLB, List.cons_append, List.nil_append, List.mem_cons, List.not_mem_nil, or_false] at ho
    casesm* _ ∨ _
    all_goals subst op
    all_goals first
      | exact ht.elim
      | (obtain rfl := ht; revert hs; decide +kernel)

end Nar.Props
