import Verif.Spec.GivenUp
import Verif.Lemmas.Everyday1
import Verif.Lemmas.Ways
/-! # Lemmas: giving up what does not work -/
namespace Nar
open Term

theorem IsCall.starts {t : Term} {args : List Term} {name : String} (h : IsCall t args name) : StartsWithCall t := by
  obtain ⟨h1, rfl⟩ := h
  obtain ⟨x, xs, rfl⟩ := List.exists_cons_of_ne_nil h1
  simp [StartsWithCall]

theorem decode_starts {t : Term} (h : (decodeOp t).isSome = true) : StartsWithCall t := by
  cases hd : decodeOp t with
  | none => rw [hd] at h; cases h
  | some x =>
    obtain ⟨args, name⟩ := x
    exact IsCall.starts ((decodeOp_iff t args name).1 hd)

theorem starts_seq (t : Term) (ts : List Term) : StartsWithCall (.Seq (t :: ts)) ↔ StartsWithCall t := by
  rw [StartsWithCall.eq_def]

theorem var_starts {w q : Term} (h : IsVar w) (hq : StartsWithCall (.Stmt .INH w q)) : False := by
  cases w <;> simp_all [IsVar, StartsWithCall]

/-! ## the worker -/

theorem introduced_starts {cond effect : Term} {acts : List Term} {rng rng' : List Nat} {ts : List Term}
    (h : matchandintroVar1 (rule cond acts effect) rng = .ok (ts, rng')) {t : Term} (ht : t ∈ ts) :
    ∃ w q acts' effect', IsVar w ∧ t = rule (.Stmt .INH w q) acts' effect' := by
  unfold matchandintroVar1 at h
  split at h
  · rename_i x ps b c heq
    unfold rule at heq
    injection heq with _ heq hc
    injection heq with heq
    obtain ⟨rfl, rfl⟩ : cond = Stmt .INH x (SetInt ps) ∧ acts = [b] := by
      injection heq with h1 h2; exact ⟨h1, h2⟩
    unfold introVars at h
    split at h
    · cases h; simp at ht
    · obtain ⟨⟨w, rng1⟩, hw, h⟩ := R.bind_ok.1 h
      cases h
      rw [List.mem_singleton] at ht
      subst ht
      have n1 : rule (Stmt .INH x (SetInt ps)) [b] effect ≠ x := by
        intro e
        have := congrArg sizeOf e
        simp [rule] at this
        omega
      have n2 : Term.Seq [Stmt .INH x (SetInt ps), b] ≠ x := by
        intro e
        have := congrArg sizeOf e
        simp at this
        omega
      have n3 : Stmt .INH x (SetInt ps) ≠ x := by
        intro e
        have := congrArg sizeOf e
        simp at this
        omega
      have hx : replaceTerm x x w = w := by
        rw [replaceTerm.eq_def, if_pos ((checkEqTerm_iff _ _).2 rfl)]
      refine ⟨w, replaceTerm (SetInt ps) x w, [replaceTerm b x w], replaceTerm effect x w, createRandomVarname_var hw, ?_⟩
      rw [replaceTerm_ne n1]
      unfold rule
      simp only [replaceTerm_ne n2, List.map_cons, List.map_nil, replaceTerm_ne n3, hx]
  · cases h; simp at ht

theorem introduced_for {ops : List Op} {cond effect : Term} {acts : List Term} {rng rng' : List Nat} {ts : List Term}
    (hp : PlainEvent ops cond) (ha : ∀ a ∈ acts, RegisteredCall ops a)
    (h : matchandintroVar1 (rule cond acts effect) rng = .ok (ts, rng')) {t : Term} (ht : t ∈ ts) :
    ∃ op args name cond' op' args' effect', acts = [op] ∧ IsCall op args name ∧ t = rule cond' [op'] effect' ∧ IsCall op' args' name := by
  unfold matchandintroVar1 at h
  split at h
  · rename_i x ps b c heq
    unfold rule at heq
    injection heq with _ heq hc
    injection heq with heq
    obtain ⟨rfl, rfl⟩ : cond = Stmt .INH x (SetInt ps) ∧ acts = [b] := by
      injection heq with h1 h2; exact ⟨h1, h2⟩
    have hx := hp.2 x ps rfl
    unfold introVars at h
    split at h
    · cases h; simp at ht
    · obtain ⟨⟨w, rng1⟩, hw, h⟩ := R.bind_ok.1 h
      cases h
      rw [List.mem_singleton] at ht
      subst ht
      have n1 : rule (Stmt .INH x (SetInt ps)) [b] effect ≠ x := by
        intro e
        have := congrArg sizeOf e
        simp [rule] at this
        omega
      have n2 : Term.Seq [Stmt .INH x (SetInt ps), b] ≠ x := by
        intro e
        have := congrArg sizeOf e
        simp at this
        omega
      obtain ⟨args, name, hcall, o, ho, rfl⟩ := ha b (by simp)
      have hc : IsCall (replaceTerm b x w) (args.map (replaceTerm · x w)) o.name := by
        obtain ⟨hne, rfl⟩ := hcall
        have h1 : Stmt .INH (.SetExt [.Prod args]) (.Name o.name) ≠ x := fun e => hx (.inl ⟨args, o.name, hne, e.symm⟩)
        have h2 : Term.SetExt [.Prod args] ≠ x := fun e => hx (.inr (.inl ⟨args, e.symm⟩))
        have h3 : Term.Prod args ≠ x := fun e => hx (.inr (.inr (.inl ⟨args, e.symm⟩)))
        have h4 : Term.Name o.name ≠ x := fun e => hx (.inr (.inr (.inr ⟨o, ho, e.symm⟩)))
        refine ⟨by simpa using hne, ?_⟩
        rw [replaceTerm_ne h1]
        simp only [replaceTerm_ne h2, List.map_cons, List.map_nil, replaceTerm_ne h3, replaceTerm_ne h4]
      refine ⟨b, args, o.name, replaceTerm (Stmt .INH x (SetInt ps)) x w, replaceTerm b x w, _, replaceTerm effect x w, rfl, hcall, ?_, hc⟩
      rw [replaceTerm_ne n1]
      unfold rule
      simp only [replaceTerm_ne n2, List.map_cons, List.map_nil]
  · cases h; simp at ht

theorem workerVisits_others {s : Sentence} (refs : List Nat) (st : List Sentence × Bool) :
    ∀ b ∈ (workerVisits s refs st).1.1, b ∈ st.1 ∨ b.term = s.term := by
  induction refs generalizing st with
  | nil => exact fun b hb => .inl hb
  | cons r rs ih =>
    rw [workerVisits]
    cases hv : workerVisit s st r with
    | error e => exact fun b hb => .inl hb
    | ok st' =>
      simp only
      intro b hb
      obtain ⟨b0, hb0, ⟨-, rfl⟩ | ⟨hs, b', hb', rfl⟩⟩ := workerVisit_spec hv
      · exact ih _ b hb
      · rcases ih _ b hb with hb | hb
        · rcases List.mem_or_eq_of_mem_set hb with hb | rfl
          · exact .inl hb
          · right
            obtain ⟨_, _, _, _, _, _, rfl⟩ := hb'
            exact hs.2.1
        · exact .inr hb

theorem workerAdd_terms {m : PMem} {s : Sentence} {n : Nat} {now : Int} {rng : List Nat} :
    ∀ b ∈ (workerAdd m s n now rng).1.heap, b ∈ m.heap ∨ b.term = s.term ∨
      ∃ ts rng', matchandintroVar1 s.term rng = .ok (ts, rng') ∧ b.term ∈ ts := by
  unfold workerAdd
  split
  · exact fun b hb => .inl hb
  · rename_i m1 h1
    obtain ⟨⟨k, hk⟩, -, -⟩ := memAddEvidenceInternal_spec h1
    have first : ∀ b ∈ m1.heap, b ∈ m.heap ∨ b.term = s.term := by
      intro b hb
      rw [hk] at hb
      rcases List.mem_append.1 hb with hb | hb
      · exact .inl hb
      · rw [List.eq_of_mem_replicate hb]; exact .inr rfl
    have first' : ∀ b ∈ m1.heap, b ∈ m.heap ∨ b.term = s.term ∨
      ∃ ts rng', matchandintroVar1 s.term rng = .ok (ts, rng') ∧ b.term ∈ ts :=
      fun b hb => (first b hb).imp id .inl
    split
    · exact first'
    · rename_i out rng' h2
      split
      · exact first'
      · rename_i m2 h3
        obtain ⟨⟨l, hl, hx⟩, -⟩ := foldAddP_spec h3
        intro b hb
        rw [show m2.heap = m1.heap ++ l from hl] at hb
        rcases List.mem_append.1 hb with hb | hb
        · exact first' b hb
        · right; right
          obtain ⟨ho, -⟩ := hx b hb
          unfold matchandintroVar1Sentence at h2
          obtain ⟨⟨ts, rng1⟩, h4, h5⟩ := R.bind_ok.1 h2
          obtain ⟨rfl, rfl⟩ := Prod.mk.inj (Except.ok.inj h5)
          obtain ⟨t, ht, rfl⟩ := List.mem_map.1 ho
          exact ⟨ts, rng1, h4, ht⟩

theorem workerStore_terms {m : PMem} {s : Sentence} {n : Nat} {now : Int} {rng : List Nat} :
    ∀ b ∈ (workerStore m s now n rng).1.heap, b ∈ m.heap ∨ b.term = s.term ∨
      ∃ ts rng', matchandintroVar1 s.term rng = .ok (ts, rng') ∧ b.term ∈ ts := by
  unfold workerStore
  split
  · exact fun b hb => .inl hb
  · rename_i cond pred h
    have key := workerVisits_others (s := s) (retBeliefsByTermsNonuniqueP m [cond, pred]) (m.heap, true)
    split
    · rename_i heap fl e hv
      rw [hv] at key
      exact fun b hb => (key b hb).imp id .inl
    · rename_i heap hv
      rw [hv] at key
      intro b hb
      rcases workerAdd_terms b hb with hb | hb
      · exact (key b hb).imp id .inl
      · exact .inr hb
    · rename_i heap hv
      rw [hv] at key
      exact fun b hb => (key b hb).imp id .inl

theorem workerStep_terms (p : Proc) (rng : List Nat) :
    ∀ b ∈ (workerStep p rng).mem.heap, b ∈ p.mem.heap ∨ ∃ m ∈ p.queue, b.term = m.1.term ∨
      ∃ ts rng', matchandintroVar1 m.1.term rng = .ok (ts, rng') ∧ b.term ∈ ts := by
  unfold workerStep
  split
  · split
    · exact fun b hb => .inl hb
    · rename_i s time rest hq
      intro b hb
      rcases workerStore_terms b hb with h | h
      · exact .inl h
      · exact .inr ⟨(s, time), by rw [hq]; simp, h⟩
  · exact fun b hb => .inl hb

/-! ## goals -/

/-- no goal in the levels begins with a call, derived goals want the condition of the rule they were derived with, and
no wanted call is above the threshold -/
structure GCalm (heap : List Sentence) (threshold : Rat) (g : GoalSystem) : Prop where
  levels : ∀ i e, StoredAt g i e → ¬ StartsWithCall e.sentence.term ∧ ∀ r, e.evidence = some r →
    ∃ b effect, heap[r]? = some b ∧ b.term = .Stmt .PREDIMPL e.sentence.term effect
  resting : ∀ e ∈ g.activeSet, ∀ x, Expectation e.sentence x → x ≤ threshold

/-- the condition of no rule begins with a call -/
def PlainHeads (heap : List Sentence) : Prop :=
  ∀ b ∈ heap, ∀ cond acts effect, b.term = rule cond acts effect → ¬ StartsWithCall cond

theorem storedAt_notOp {g : GoalSystem} (h : GInv g) {i : Nat} {e : Entry} (he : StoredAt g i e) :
    (decodeOp e.sentence.term).isSome = false := by
  obtain ⟨level, gr, h1, h2, h3⟩ := he
  have := h.groups i level h1 gr h2
  rw [this.term e h3]
  exact this.notOp

theorem GCalm.grown {heap heap' : List Sentence} {th : Rat} {g : GoalSystem} (h : GCalm heap th g) (hg : HeapGrown heap heap') :
    GCalm heap' th g := by
  refine ⟨fun i e he => ⟨(h.levels i e he).1, fun r hr => ?_⟩, h.resting⟩
  obtain ⟨b, eff, h1, h2⟩ := (h.levels i e he).2 r hr
  obtain ⟨b', h3, h4⟩ := hg r b h1
  exact ⟨b', eff, h3, by rw [h4.1]; exact h2⟩

theorem GCalm.satisfy {heap : List Sentence} {th : Rat} {p : Proc} (h : GCalm heap th p.goals) : GCalm heap th (satisfyLast p) := by
  unfold satisfyLast
  split
  · rename_i ev _
    constructor
    · intro i e he
      obtain ⟨y, hy, rfl⟩ := (eventOccurred_storedAt _ _ _ _).1 he
      obtain ⟨h1, h2, _⟩ := satisfy_fields p.goals.enGoalSatisfaction ev.name y
      rw [h1, h2]
      exact h.levels i y hy
    · intro e he
      simp only [eventOccurred, List.mem_map] at he
      obtain ⟨y, hy, rfl⟩ := he
      rw [(satisfy_fields _ _ _).1, (satisfy_fields _ _ _).1]
      exact h.resting y hy
  · exact h

theorem GCalm.told {heap : List Sentence} {th : Rat} {g g' : GoalSystem} (h : GCalm heap th g) (hi : GInv g) (hi' : GInv g')
    {t : Int} {goal : Sentence} {d : Int} (ha : addEntry g t goal none d = .ok g') (hc : ¬ StartsWithCall goal.term) :
    GCalm heap th g' := by
  obtain ⟨-, -, h3⟩ := addEntry_spec ha
  constructor
  · intro i e he
    rcases h3 e (.inr ⟨i, he⟩) with (k | ⟨j, k⟩) | ⟨a, rfl⟩
    · have := storedAt_notOp hi' he
      rw [hi.activeOp e k] at this
      cases this
    · exact h.levels j e k
    · exact ⟨hc, fun r hr => by cases hr⟩
  · intro e he
    rcases h3 e (.inl he) with (k | ⟨j, k⟩) | ⟨a, rfl⟩
    · exact h.resting e k
    · have := storedAt_notOp hi k
      rw [hi'.activeOp e he] at this
      cases this
    · exact absurd (decode_starts (hi'.activeOp _ he)) hc

theorem GCalm.limit {heap : List Sentence} {th : Rat} {g g' : GoalSystem} (h : GCalm heap th g) (hi : GInv g) (hi' : GInv g')
    {decay : Int → Rat} {t : Int} (ha : goalLimitMemory decay g t = .ok g') : GCalm heap th g' := by
  obtain ⟨sorted, -, -, -, hs, -, hf⟩ := goalLimit_cases ha
  have key : ∀ x, Stored g' x → ∃ y, Stored g y ∧ x.sentence = y.sentence ∧ x.evidence = y.evidence := by
    intro x hx
    rcases (foldAdd_spec hf).2.2.2.1 x hx with he | ⟨x', hx', a, rfl⟩
    · exact (flushed_stored _ _ he).elim
    · obtain ⟨y, u, hy, -, rfl⟩ := hs x' (List.mem_of_mem_take hx')
      exact ⟨y, hy, rfl, rfl⟩
  constructor
  · intro i e he
    obtain ⟨y, hy, e1, e2⟩ := key e (.inr ⟨i, he⟩)
    have hn := storedAt_notOp hi' he
    rw [e1] at hn ⊢
    rw [e2]
    rcases hy with hy | ⟨j, hy⟩
    · rw [hi.activeOp y hy] at hn; cases hn
    · exact h.levels j y hy
  · intro e he
    obtain ⟨y, hy, e1, e2⟩ := key e (.inl he)
    have hn := hi'.activeOp e he
    rw [e1] at hn ⊢
    rcases hy with hy | ⟨j, hy⟩
    · exact h.resting y hy
    · rw [storedAt_notOp hi hy] at hn; cases hn

theorem GoalStep.plain {table : List Int} {m : PMem} (hm : ∀ b ∈ m.heap, RuleOk table b) (hh : PlainHeads m.heap) {s c : Sentence}
    {ev : Option Nat} (h : GoalStep m s c ev) (hs : ¬ StartsWithCall s.term) : ¬ StartsWithCall c.term ∧
      ∀ r, ev = some r → ∃ b effect, m.heap[r]? = some b ∧ b.term = .Stmt .PREDIMPL c.term effect := by
  rcases h with ⟨rfl, first, rest, ts, h1, -, h2, -⟩ | ⟨r', b, rfl, hb, cond, ts, tb, h1, -, -, -, h2, -⟩
  · rw [h1, starts_seq] at hs
    rw [h2]
    exact ⟨hs, fun r hr => by cases hr⟩
  · have hmem := List.mem_of_getElem? hb
    obtain ⟨c', as, op, e, args, name, h3, h4⟩ := (hm b hmem).shape
    have h5 := hh b hmem _ _ _ h3
    constructor
    · rw [h1] at h3
      injection h3 with _ h3 _
      rw [h2, h3, starts_seq]
      exact h5
    · intro r hr
      cases hr
      exact ⟨b, s.term, hb, by rw [h2]; exact h1⟩

theorem GoalChain.plain {table : List Int} {m : PMem} (hm : ∀ b ∈ m.heap, RuleOk table b) (hh : PlainHeads m.heap) {s c : Sentence}
    {n : Nat} {ev : Option Nat} (h : GoalChain m s n c ev) (hs : ¬ StartsWithCall s.term) : ¬ StartsWithCall c.term ∧
      ∀ r, ev = some r → ∃ b effect, m.heap[r]? = some b ∧ b.term = .Stmt .PREDIMPL c.term effect := by
  induction h with
  | one h => exact h.plain hm hh hs
  | more _ h ih => exact h.plain hm hh ih.1

theorem GCalm.infer {table : List Int} {m : PMem} (hm : ∀ b ∈ m.heap, RuleOk table b) (hh : PlainHeads m.heap) {th : Rat}
    {g g' : GoalSystem} (h : GCalm m.heap th g) (hi : GInv g) (hi' : GInv g') {t : Int} {d1 d2 : Rat} {rng : List Nat}
    (ha : sampleAndInference g t m d1 d2 rng = .ok g') : GCalm m.heap th g' := by
  obtain ⟨-, -, h3⟩ := sampleAndInference_spec ha
  constructor
  · intro i e he
    rcases h3 e (.inr ⟨i, he⟩) with (k | ⟨j, k⟩) | ⟨j, y, c, a, hy, -, ⟨n, hc, -⟩, rfl⟩
    · have := storedAt_notOp hi' he
      rw [hi.activeOp e k] at this
      cases this
    · exact h.levels j e k
    · exact hc.plain hm hh (h.levels j y hy).1
  · intro e he
    rcases h3 e (.inl he) with (k | ⟨j, k⟩) | ⟨j, y, c, a, hy, -, ⟨n, hc, -⟩, rfl⟩
    · exact h.resting e k
    · have := storedAt_notOp hi k
      rw [hi'.activeOp e he] at this
      cases this
    · exact absurd (decode_starts (hi'.activeOp _ he)) (hc.plain hm hh (h.levels j y hy).1).1

theorem GCalm.work {table : List Int} {m : PMem} (hm : ∀ b ∈ m.heap, RuleOk table b) (hr : m.RefsValid) (hh : PlainHeads m.heap)
    {th : Rat} {decay : Int → Rat} {t : Int} {infs : List (Rat × Rat × List Nat)} (hi : ∀ d ∈ infs, 0 ≤ d.2.1)
    {g g' : GoalSystem} (hs : GSafe m.heap.length g) (h : GCalm m.heap th g)
    (hw : (goalWork t m infs).foldlM (GoalOp.run decay) g = .ok g') : GCalm m.heap th g' := by
  refine (foldlM_inv (fun x => GSafe m.heap.length x ∧ GCalm m.heap th x) hw ⟨hs, h⟩ ?_).2
  rintro op hop x x' ⟨k1, k2⟩ hx
  unfold goalWork at hop
  rcases List.mem_append.1 hop with hop | hop
  · split at hop
    · rw [List.mem_singleton] at hop
      subst hop
      obtain ⟨y, hy, hys⟩ := k1.limit decay t
      have : y = x' := by
        have hx : goalLimitMemory decay x t = .ok x' := hx
        rw [hy] at hx; exact Except.ok.inj hx
      subst this
      exact ⟨hys, k2.limit k1.inv hys.inv hy⟩
    · cases hop
  · obtain ⟨d, hd, rfl⟩ := List.mem_map.1 hop
    obtain ⟨y, hy, hys⟩ := k1.infer (t := t) (d1 := d.1) (rng := d.2.2) hm hr (hi d hd)
    have : y = x' := by
      have hx : sampleAndInference x t m d.1 d.2.1 d.2.2 = .ok x' := hx
      rw [hy] at hx; exact Except.ok.inj hx
    subst this
    exact ⟨hys, k2.infer hm hh k1.inv hys.inv hy⟩

/-! ## the decision -/

theorem IsCall.name_eq {t : Term} {args args' : List Term} {name name' : String} (h : IsCall t args name) (h' : IsCall t args' name') :
    name = name' := by
  obtain ⟨-, rfl⟩ := h
  obtain ⟨-, h'⟩ := h'
  injection h' with _ _ h'
  injection h'

theorem option_rule {p : Proc} (hp : PSafe p) (hg : GCalm p.mem.heap p.threshold p.goals) {acts : List Term} {op : Term} {x : Rat}
    {r : Nat} {args : List Term} {name : String} (h : IsOption p (.Seq (acts ++ [op])) x (some r)) (hc : IsCall op args name)
    {b : Sentence} (hb : p.mem.heap[r]? = some b) : RuleFor b name := by
  obtain ⟨c0, as0, op0, e0, args0, name0, hs, hc0⟩ := (hp.heap b (List.mem_of_getElem? hb)).shape
  rcases h with ⟨e, event, first, rest, a, hst, -, h1, -, h2, -, h3⟩ | ⟨e, last, T, tv, r', rs, b', acts', effect, -, -, -, -, hb', h1, h2, -, h3⟩
  · rcases hst with hst | ⟨i, hst⟩
    · have := hp.goals.inv.activeOp e hst
      rw [h1] at this
      cases this
    · obtain ⟨b1, eff, k1, k2⟩ := (hg.levels i e hst).2 r h3.symm
      rw [hb] at k1
      cases k1
      rw [hs] at k2
      unfold rule at k2
      injection k2 with _ k2 _
      rw [← k2, unifySubst] at h2
      injection h2 with h2
      rw [show c0 :: (as0 ++ [op0]) = (c0 :: as0) ++ [op0] from rfl, unifySubstL_append] at h2
      have := (List.append_inj_right' h2 (by simp [unifySubstL]))
      simp only [unifySubstL, List.cons.injEq, and_true] at this
      have hn := IsCall.name_eq hc (this ▸ hc0.subst a)
      exact ⟨c0, as0, op0, e0, args0, hs, hn ▸ hc0⟩
  · cases h3
    rw [hb] at hb'
    cases hb'
    rw [hs] at h1
    unfold rule at h1
    injection h1 with _ h1 _
    rw [← h1] at h2
    injection h2 with h2
    rw [show c0 :: (as0 ++ [op0]) = (c0 :: as0) ++ [op0] from rfl] at h2
    have := (List.append_inj_right' h2 rfl)
    simp only [List.cons.injEq, and_true] at this
    have hn := IsCall.name_eq hc (this ▸ hc0)
    exact ⟨c0, as0, op0, e0, args0, hs, hn ▸ hc0⟩

/-- the executed call rests on a rule above the threshold -/
def RestsOn (p : Proc) (t : Term) : Prop :=
  ∃ b ∈ p.mem.heap, ∃ args name x, IsCall t args name ∧ RuleFor b name ∧ Expectation b x ∧ p.threshold < x

theorem calm_no_best {heap : List Sentence} {th : Rat} {g : GoalSystem} (h : GCalm heap th g) (e : Entry) : ¬ BestGoal g th e := by
  rintro ⟨h1, -, x, h2, h3, -⟩
  exact absurd (h.resting e h1 x h2) (not_le.2 h3)

theorem decision_calm {p : Proc} (hp : PSafe p) (hth : 0 ≤ p.threshold) (hg : GCalm p.mem.heap p.threshold p.goals) {g g2 : GoalSystem}
    {an : List Anticipation} {act : Option Term} (ha : Adopted p g) (hd : Decision p g g2 an act) :
    GCalm p.mem.heap p.threshold g2 ∧ ∀ t, act = some t → RestsOn p t ∨
      (p.enBabbling = true ∧ ∃ op ∈ p.ops, op.babbleable = true ∧ act = some (encodeOp [selfTerm] op.name)) := by
  have same : g = p.goals → GCalm p.mem.heap p.threshold g2 ∧ ∀ t, act = some t → RestsOn p t ∨
      (p.enBabbling = true ∧ ∃ op ∈ p.ops, op.babbleable = true ∧ act = some (encodeOp [selfTerm] op.name)) := by
    rintro rfl
    rcases hd with ⟨e, i, r, b, iv, -, k2, -⟩ | ⟨-, rfl, -, k⟩
    · exact absurd k2 (calm_no_best hg e)
    · refine ⟨hg, fun t ht => .inr ?_⟩
      rcases k with k | k
      · rw [k] at ht; cases ht
      · exact k
  rcases ha with h | ⟨seq, x, r, b, acts, op, args, name, tv, hopt, hx, hb, htv, rfl, hc, hadd⟩
  · exact same h
  · rcases (addEntry_cases hadd).2 with ⟨-, h⟩ | ⟨-, hadd⟩
    · exact same h
    · rcases addEntry2_cases hadd with ⟨-, -, h⟩ | ⟨-, -, h⟩ | ⟨h, -⟩
      · exact same h
      · obtain ⟨new, hnew⟩ : ∃ new, new = newEntry p.t (newEternalSentenceByTv op .GOAL tv b.stamp) (some r) 0 := ⟨_, rfl⟩
        rw [← hnew] at h
        have hexp : ∀ y, Expectation new.sentence y ↔ y = (tv.f - 1/2) * tv.c + 1/2 := by
          intro y
          rw [hnew]
          constructor
          · rintro ⟨tv', h1, h2⟩
            have : tv' = tv := by
              have h3 : HasTruth (newEternalSentenceByTv op .GOAL tv b.stamp) tv := rfl
              unfold HasTruth at h1 h3
              rw [show (newEntry p.t (newEternalSentenceByTv op .GOAL tv b.stamp) (some r) 0).sentence =
                newEternalSentenceByTv op .GOAL tv b.stamp from rfl, h3] at h1
              exact (Option.some.inj (Except.ok.inj h1)).symm
            rw [h2, this]
          · intro h1
            exact ⟨tv, rfl, h1⟩
        have hact : g.activeSet = p.goals.activeSet ++ [new] := by rw [h]
        have honly : ∀ e, BestGoal g p.threshold e → e = new := by
          rintro e ⟨h1, -, y, h2, h3, -⟩
          rw [hact] at h1
          rcases List.mem_append.1 h1 with h1 | h1
          · exact absurd (hg.resting e h1 y h2) (not_le.2 h3)
          · exact List.mem_singleton.1 h1
        have hlev : ∀ i e, StoredAt g i e → StoredAt p.goals i e := by
          intro i e he
          rw [h] at he
          exact he
        rcases hd with ⟨e, i, r', b', iv, k1, k2, k3, k4, k5, k6, k7, k8, k9, k10⟩ | ⟨k1, hg2, -, k⟩
        · have hen := honly e k2
          have hi : ¬ i < p.goals.activeSet.length := by
            intro hlt
            obtain ⟨-, -, y, h2, h3, -⟩ := k2
            rw [hact, List.getElem?_append_left hlt] at k1
            exact absurd (hg.resting e (List.mem_of_getElem? k1) y h2) (not_le.2 h3)
          have hi2 : i < (p.goals.activeSet ++ [new]).length := by
            rw [← hact]
            exact (List.getElem?_eq_some_iff.1 k1).1
          have hi3 : i = p.goals.activeSet.length := by simp at hi2; omega
          refine ⟨⟨?_, ?_⟩, ?_⟩
          · intro j e' he'
            rw [k7] at he'
            exact hg.levels j e' (hlev j e' he')
          · intro e' he' y hy
            rw [k7] at he'
            have he' : e' ∈ g.activeSet.eraseIdx i := he'
            rw [hact, hi3, List.eraseIdx_append_of_length_le (le_refl _)] at he'
            simp at he'
            exact hg.resting e' he' y hy
          · intro t ht
            left
            have : t = op := by
              by_cases hreg : RegisteredCall p.ops e.sentence.term
              · rw [k9 hreg] at ht
                rw [← Option.some.inj ht, hen, hnew]
                rfl
              · rw [k10 hreg] at ht; cases ht
            subst this
            obtain ⟨-, -, y, h2, h3, -⟩ := k2
            rw [hen, hexp] at h2
            exact ⟨b, List.mem_of_getElem? hb, args, name, y, hc, option_rule hp hg hopt hc hb, ⟨tv, htv, h2⟩, h3⟩
        · rw [hg2]
          refine ⟨⟨fun i e he => hg.levels i e (hlev i e he), ?_⟩, fun t ht => .inr ?_⟩
          · intro e he y hy
            rw [hact] at he
            rcases List.mem_append.1 he with he | he
            · exact hg.resting e he y hy
            · rw [List.mem_singleton] at he
              subst he
              by_contra hlt
              rw [not_le] at hlt
              have hbest : BestGoal g p.threshold e := by
                refine ⟨by rw [hact]; simp, (by rw [hnew]; show (1 : Rat) / 10000 < 1; norm_num), y, hy, hlt, lt_of_le_of_lt hth hlt, ?_⟩
                intro e' he' _ x' hx'
                rw [hact] at he'
                rcases List.mem_append.1 he' with he' | he'
                · exact le_of_lt (lt_of_le_of_lt (hg.resting e' he' x' hx') hlt)
                · rw [List.mem_singleton] at he'
                  subst he'
                  rw [hexp] at hx' hy
                  rw [hx', hy]
              rcases k1 with k1 | ⟨e', k1, k2⟩
              · exact k1 e hbest
              · have he' := honly e' k1
                subst he'
                rcases k2 with k2 | k2
                · rw [hnew] at k2; cases k2
                · apply k2
                  rw [hnew]
                  exact ⟨args, name, hc⟩
          · rcases k with k | k
            · rw [k] at ht; cases ht
            · exact k
      · have : (decodeOp op).isSome = true := by rw [(decodeOp_iff op args name).2 hc]; rfl
        have h : (decodeOp op).isSome = false := h
        rw [this] at h
        cases h

/-! ## steps -/

theorem narStep1_reports {call : Call} {P : Proc → Event → Prop} (hP : ∀ (q : Proc) (g : GoalSystem) (an : List Anticipation) (e : Event),
      P { q with goals := g, anticipated := an } e → P q e)
    (hcall : ∀ name args q q', call name args q = .ok q' → ∃ evs, q' = { q with trace := q.trace ++ evs } ∧ ∀ e ∈ evs, P q e)
    {decay : Int → Rat} {p p' : Proc} {rng : List Nat} {infs : List (Rat × Rat × List Nat)} {act : Option Term}
    (h : narStep1 call decay p rng infs = .ok (p', act)) :
    ∀ e ∈ p'.trace, e ∈ p.trace ∨ P p e ∨ act = some e.name := by
  unfold narStep1 at h
  obtain ⟨⟨p1, picked, rng1⟩, h1, h⟩ := R.bind_ok.1 h
  obtain ⟨⟨p2, executed⟩, h2, h⟩ := R.bind_ok.1 h
  obtain ⟨p3, h3, h⟩ := R.bind_ok.1 h
  obtain ⟨p4, h4, h⟩ := R.bind_ok.1 h
  obtain ⟨rfl, rfl⟩ := Prod.mk.inj (Except.ok.inj h)
  obtain ⟨g, an, rfl⟩ : ∃ g an, p1 = { p with goals := g, anticipated := an } := by
    obtain ⟨g, hg, hd⟩ := decideAction_spec h1
    rcases hd with ⟨e, i, r, b, iv, k1, k2, k3, k4, k5, k6, k7, k8⟩ | ⟨k1, k2, k3⟩
    · exact ⟨_, _, k8⟩
    · exact ⟨g, p.anticipated, k2⟩
  have hr : OnlyReports call := by
    intro name args q q' hq
    obtain ⟨evs, he, -⟩ := hcall name args q q' hq
    exact ⟨evs, he⟩
  have key : ∀ e ∈ p2.trace, e ∈ p.trace ∨ P p e ∨ executed = some e.name := by
    rcases execute_spec hr h2 with ⟨rfl, rfl, -⟩ | ⟨t, args, name, q1, evs, rfl, rfl, -, -, k3, k4, rfl⟩
    · exact fun e he => .inl he
    · intro e he
      obtain ⟨evs', e1, e2⟩ := hcall _ _ _ _ k3
      have : evs = evs' := by
        rw [k4] at e1
        have := congrArg Proc.trace e1
        exact List.append_cancel_left this
      subst this
      rcases List.mem_append.1 he with he | he
      · rcases List.mem_append.1 he with he | he
        · exact .inl he
        · exact .inr (.inl (hP _ _ _ _ (e2 e he)))
      · rw [List.mem_singleton] at he
        subst he
        exact .inr (.inr rfl)
  obtain ⟨concepts, goals, rfl, -⟩ := limitAll_spec h3
  obtain ⟨goals', rfl, -⟩ := inferGoals_spec (decay := decay) h4
  intro e he
  exact key e ((newest_suffix _ _).subset he)

/-- nothing in the reasoner wants a call for itself -/
structure Careful (p : Proc) : Prop where
  safe : PSafe p
  heads : PlainHeads p.mem.heap
  msgs : ∀ m ∈ p.queue, ∀ cond acts effect, m.1.term = rule cond acts effect → ¬ StartsWithCall cond
  trace : ∀ e ∈ p.trace, StartsWithCall e.name → RegisteredCall p.ops e.name
  goals : GCalm p.mem.heap p.threshold p.goals

theorem ReportsIndirect.reports {call : Call} (h : ReportsIndirect call) : OnlyReports call := by
  intro name args q q' hq
  obtain ⟨evs, he, -⟩ := h name args q q' hq
  exact ⟨evs, he⟩

theorem step1_careful {call : Call} {decay : Int → Rat} (hcall : ReportsIndirect call) {p p' : Proc} (hw : WellBehaved p.ops call)
    (hth : 0 ≤ p.threshold) (h : Careful p) {rng : List Nat} {infs : List (Rat × Rat × List Nat)} (hi : ∀ d ∈ infs, 0 ≤ d.2.1)
    {act : Option Term} (hs : narStep1 call decay p rng infs = .ok (p', act)) :
    Careful p' ∧ (p'.ops = p.ops ∧ p'.threshold = p.threshold ∧ p'.enBabbling = p.enBabbling) ∧ ∀ t, act = some t → RestsOn p t ∨
      (p.enBabbling = true ∧ ∃ op ∈ p.ops, op.babbleable = true ∧ act = some (encodeOp [selfTerm] op.name)) := by
  have htr := narStep1_reports (P := fun q e => StartsWithCall e.name → RegisteredCall q.ops e.name) (fun q g an e k => k) hcall hs
  obtain ⟨q, ex, k1, k2, -⟩ := narStep1_safe (decay := decay) hw h.safe rng hi
  rw [k1] at hs
  obtain ⟨rfl, rfl⟩ := Prod.mk.inj (Except.ok.inj hs)
  obtain ⟨g, g2, an, evs, concepts, goals, ha, hd, -, rfl, -, hcon, -, hwork⟩ := narStep1_spec hcall.reports k1
  obtain ⟨c1, c2⟩ := decision_calm h.safe hth h.goals ha hd
  have hact : ∀ t, ex = some t → RegisteredCall p.ops t := by
    rintro t rfl
    rcases hd with ⟨e, i, r, b, iv, -, -, -, -, -, -, -, -, k9, k10⟩ | ⟨-, -, -, k⟩
    · by_cases hreg : RegisteredCall p.ops e.sentence.term
      · rw [Option.some.inj (k9 hreg)]; exact hreg
      · cases k10 hreg
    · rcases k with k | ⟨-, op, ho, -, k⟩
      · cases k
      · rw [Option.some.inj k]; exact encodeOp_registered ho
  have hsg : GSafe p.mem.heap.length g2 := by
    obtain ⟨p1, picked, rng1, h1, hp1, -⟩ := decideAction_total h.safe rng
    -- the goals after the decision are safe whatever they are
    have hgs : GSafe p.mem.heap.length g := by
      rcases ha with rfl | ⟨seq, x, r, b, acts, op, args, name, tv, hopt, hx, hb, htv, rfl, hc, hadd⟩
      · exact h.safe.goals
      · obtain ⟨g', e1, e2⟩ := h.safe.goals.add (t := p.t) (goal := newEternalSentenceByTv op .GOAL tv b.stamp) (ev := some r) (d := 0)
          rfl ⟨tv, rfl⟩ (le_refl _) (by
            intro r' hr'
            cases hr'
            exact ⟨(List.getElem?_eq_some_iff.1 hb).1, .inl ⟨args, name, hc⟩⟩)
          ((printable_seq.1 (hopt.text h.safe)).2 op (by simp))
        rw [hadd] at e1
        rw [Except.ok.inj e1]
        exact e2
    rcases hd with ⟨e, i, r, b, iv, -, -, -, -, -, -, rfl, -⟩ | ⟨-, rfl, -⟩
    · exact hgs.erase i
    · exact hgs
  refine ⟨⟨k2, h.heads, h.msgs, ?_, ?_⟩, ⟨rfl, rfl, rfl⟩, c2⟩
  · intro e he hst
    rcases htr e he with he | he | he
    · exact h.trace e he hst
    · exact he hst
    · exact hact _ he
  · exact GCalm.work (m := { p.mem with concepts := concepts }) (decay := decay) h.safe.heap
      (fun c hc => h.safe.refs c (hcon c hc)) h.heads hi hsg c1 hwork

theorem ProcOp.run_careful {call : Call} {decay : Int → Rat} (hcall : ReportsIndirect call) {p p' : Proc} {op : ProcOp}
    (hw : WellBehaved p.ops call) (hth : 0 ≤ p.threshold) (h : Careful p) (ho : op.Harmless p.ops) (hi : op.Indirect p.ops)
    (hr : op.run call decay p = .ok p') :
    Careful p' ∧ p'.ops = p.ops ∧ p'.threshold = p.threshold ∧ p'.enBabbling = p.enBabbling := by
  have hsafe : PSafe p' := by
    rcases ProcOp.run_safe (decay := decay) hw h.safe ho with ⟨q, k1, k2, -⟩ | ⟨k1, -⟩
    · rw [hr] at k1; rw [Except.ok.inj k1]; exact k2
    · rw [hr] at k1; cases k1
  cases op with
  | event t =>
    cases hr
    refine ⟨⟨hsafe, h.heads, h.msgs, ?_, h.goals⟩, rfl, rfl, rfl⟩
    intro e he
    rcases List.mem_append.1 he with he | he
    · exact h.trace e he
    · rw [List.mem_singleton] at he; subst he; exact hi
  | flush =>
    cases hr
    exact ⟨⟨hsafe, h.heads, h.msgs, by intro e he; simp [traceFlush] at he, h.goals⟩, rfl, rfl, rfl⟩
  | rule => exact ho.elim
  | goal t tv id =>
    obtain ⟨g, hg, hr⟩ := R.bind_ok.1 hr
    cases hr
    exact ⟨⟨hsafe, h.heads, h.msgs, h.trace, h.goals.told h.safe.goals.inv hsafe.goals.inv hg hi⟩, rfl, rfl, rfl⟩
  | step0 draws =>
    obtain ⟨heap, new, rfl, h1, _, h2, h3⟩ := narStep0_spec hr
    have hg : HeapGrown p.mem.heap heap := by
      intro r b hb
      obtain ⟨b', hb', hd⟩ := h3 r b hb
      exact ⟨b', hb', hd.grown⟩
    refine ⟨⟨hsafe, ?_, ?_, h.trace, ?_⟩, rfl, rfl, rfl⟩
    · intro b' hb' cond acts effect he
      obtain ⟨b, hb, hbg⟩ := HeapGrown.mem h2 hg hb'
      exact h.heads b hb cond acts effect (by rw [← hbg.1]; exact he)
    · intro m hm cond acts effect he
      rcases List.mem_append.1 hm with hm | hm
      · exact h.msgs m hm cond acts effect he
      · obtain ⟨first, acts', act, last, n, args, name, hsub, -, hf, -, -, hterm, -⟩ := (h1 m hm).2
        rw [hterm] at he
        obtain ⟨rfl, -, -⟩ := rule_inj he
        exact fun hst => hf (h.trace first (hsub.subset (by simp)) hst)
    · exact (h.goals.grown hg).satisfy
  | step1 rng infs =>
    obtain ⟨⟨p1, act⟩, hn, rfl⟩ := R.map_ok.1 hr
    obtain ⟨k1, k2, -⟩ := step1_careful hcall hw hth h ho hn
    exact ⟨k1, k2⟩
  | worker rng =>
    have hgrown : HeapGrown p.mem.heap p'.mem.heap := by
      have hinv : ProcInv p := ⟨fun b hb => (h.safe.heap b hb).sane, fun m hm => (h.safe.queue m hm).rule.sane, h.safe.refs⟩
      exact (ProcOp.run_inv hcall.reports hr hinv h.safe.weights).2.2
    cases hr
    obtain ⟨r1, r2, r3, r4, r5⟩ := workerStep_rest p rng
    have hcfg : (workerStep p rng).threshold = p.threshold ∧ (workerStep p rng).enBabbling = p.enBabbling ∧
        (workerStep p rng).goals = p.goals := by
      unfold workerStep
      split
      · split <;> exact ⟨rfl, rfl, rfl⟩
      · exact ⟨rfl, rfl, rfl⟩
    refine ⟨⟨hsafe, ?_, fun m hm => h.msgs m (r5 m hm), by rw [r1, r3]; exact h.trace, ?_⟩, r3, hcfg.1, hcfg.2.1⟩
    · intro b hb cond acts effect he
      rcases workerStep_terms p rng b hb with hb | ⟨m, hm, hb | ⟨ts, rng', hts, hb⟩⟩
      · exact h.heads b hb cond acts effect he
      · exact h.msgs m hm cond acts effect (by rw [← hb]; exact he)
      · obtain ⟨c0, as0, op0, e0, args0, name0, hs, -⟩ := (h.safe.queue m hm).rule.shape
        rw [hs] at hts
        obtain ⟨w, q, acts', effect', hv, ht⟩ := introduced_starts hts hb
        rw [he] at ht
        obtain ⟨rfl, -, -⟩ := rule_inj ht
        exact var_starts hv
    · rw [hcfg.1, hcfg.2.2]
      exact h.goals.grown hgrown

theorem Started.careful {p : Proc} (h : Started p) : Careful p := by
  have hs := h.safe
  obtain ⟨n, d, hn, hd, hg⟩ := h.goals
  obtain ⟨h1, h2, h3⟩ := h.fresh
  refine ⟨hs, ?_, ?_, ?_, ?_⟩
  · rw [h1]; intro b hb; simp [PMem.empty] at hb
  · rw [h3]; simp
  · rw [h.trace]; simp
  · rw [hg]
    constructor
    · rintro i e ⟨level, gr, hl, hgr, -⟩
      simp [makeGoalSystem, List.getElem?_replicate] at hl
      rw [hl.2] at hgr; simp at hgr
    · simp [makeGoalSystem]

theorem runProc_careful {call : Call} {decay : Int → Rat} (hcall : ReportsIndirect call) {p p' : Proc} {ops : List ProcOp}
    (hw : WellBehaved p.ops call) (hth : 0 ≤ p.threshold) (h : Careful p) (ho : ∀ op ∈ ops, op.Harmless p.ops ∧ op.Indirect p.ops)
    (hr : runProc call decay p ops = .ok p') :
    Careful p' ∧ p'.ops = p.ops ∧ p'.threshold = p.threshold ∧ p'.enBabbling = p.enBabbling := by
  refine foldlM_inv (fun q : Proc => Careful q ∧ q.ops = p.ops ∧ q.threshold = p.threshold ∧ q.enBabbling = p.enBabbling) hr
    ⟨h, rfl, rfl, rfl⟩ ?_
  rintro op hop q q' ⟨k1, k2, k3, k4⟩ hq
  obtain ⟨j1, j2, j3, j4⟩ := ProcOp.run_careful hcall (by rw [k2]; exact hw) (by rw [k3]; exact hth) k1
    (by rw [k2]; exact (ho op hop).1) (by rw [k2]; exact (ho op hop).2) hq
  exact ⟨j1, j2.trans k2, j3.trans k3, j4.trans k4⟩

/-! ## records -/

theorem record_exp {b : Sentence} {pos cnt : Int} {x : Rat} (h : Counts b pos cnt) (hc : 1 ≤ cnt) (hx : Expectation b x)
    (hlt : 1/2 < x) : cnt < 2 * pos := by
  obtain ⟨tv, h1, rfl⟩ := hx
  unfold HasTruth retTv at h1
  rw [show b.evi = _ from h] at h1
  simp only [retFreq, retConf, if_neg (show ¬ cnt = 0 by omega), if_neg (show ¬ cnt = -1 by omega), bind, Except.bind] at h1
  have h2 := Option.some.inj (Except.ok.inj h1)
  rw [← h2] at hlt
  simp only at hlt
  have hcq : (1 : Rat) ≤ cnt := by exact_mod_cast hc
  have hpos : (0 : Rat) < (cnt : Rat) / ((cnt : Rat) + 1) := by positivity
  have h3 : (0 : Rat) < ((pos : Rat) / cnt - 1/2) * ((cnt : Rat) / ((cnt : Rat) + 1)) := by linarith
  have h4 := (pos_iff_pos_of_mul_pos h3).2 hpos
  have h5 : (cnt : Rat) < 2 * pos := by
    have h6 : (1 : Rat)/2 < pos / cnt := by linarith
    rw [lt_div_iff₀ (by linarith)] at h6
    linarith
  exact_mod_cast h5

/-! ## for good -/

theorem Discredited.worse {b b' : Sentence} {n : Nat} (h : Discredited b) (hd : Disappointed n b b') : Discredited b' := by
  rcases hd with ⟨-, rfl⟩ | ⟨pos, cnt, h1, rfl⟩
  · exact h
  · intro pos' cnt' h2
    have := h pos cnt h1
    unfold Counts at h2
    cases h2
    omega

theorem run_givenUp {call : Call} {decay : Int → Rat} {name : String} (hcall : ReportsIndirect call) (hnr : NeverReports call name)
    {p p' : Proc} {op : ProcOp} (hw : WellBehaved p.ops call) (hth : 1/2 ≤ p.threshold) (hb : p.enBabbling = false) (h : Careful p)
    (ho : op.Harmless p.ops) (hwo : op.Without name)
    (hg : GivenUp name p) (hr : op.run call decay p = .ok p') : GivenUp name p' := by
  cases op with
  | event t =>
    cases hr
    refine ⟨hg.rules, hg.pending, ?_⟩
    intro e he
    rcases List.mem_append.1 he with he | he
    · exact hg.window e he
    · rw [List.mem_singleton] at he; subst he; exact hwo
  | flush => cases hr; exact ⟨hg.rules, hg.pending, by intro e he; simp [traceFlush] at he⟩
  | rule => exact ho.elim
  | goal t tv id =>
    obtain ⟨g, hg', hr⟩ := R.bind_ok.1 hr
    cases hr
    exact ⟨hg.rules, hg.pending, hg.window⟩
  | step0 draws =>
    obtain ⟨heap, new, rfl, h1, _, h2, h3⟩ := narStep0_spec hr
    refine ⟨?_, ?_, hg.window⟩
    · intro b' hb' hrf
      obtain ⟨r, hlt, hr'⟩ := List.getElem_of_mem hb'
      have hlt' : r < p.mem.heap.length := by rw [← h2]; exact hlt
      obtain ⟨b1, hb1, hd⟩ := h3 r _ (List.getElem?_eq_getElem hlt')
      rw [List.getElem?_eq_getElem hlt, hr'] at hb1
      cases hb1
      have hrf' : RuleFor p.mem.heap[r] name := by
        obtain ⟨c, as, o, e, args, k1, k2⟩ := hrf
        exact ⟨c, as, o, e, args, by rw [← hd.grown.1]; exact k1, k2⟩
      exact (hg.rules _ (List.getElem_mem hlt') hrf').worse hd
    · intro m hm
      rcases List.mem_append.1 hm with hm | hm
      · exact hg.pending m hm
      · obtain ⟨first, acts', act, last, n, args, name', hsub, -, hf, -, -, hterm, -⟩ := (h1 m hm).2
        rintro ⟨c, as, o, e, args, k1, k2⟩
        rw [hterm] at k1
        obtain ⟨-, k3, -⟩ := rule_inj k1
        simp only [List.map_append, List.map_cons, List.map_nil] at k3
        have k4 := List.append_inj_right' k3 rfl
        simp only [List.cons.injEq, and_true] at k4
        exact hg.window act (hsub.subset (by simp)) args (k4 ▸ k2)
  | step1 rng infs =>
    obtain ⟨⟨p1, act⟩, hn, rfl⟩ := R.map_ok.1 hr
    obtain ⟨-, -, k3⟩ := step1_careful hcall hw (by linarith) h ho hn
    have htr := narStep1_reports (P := fun q e => ∀ args', ¬ IsCall e.name args' name) (fun q g an e k => k) hnr hn
    obtain ⟨g, g2, an, evs, concepts, goals, _, _, _, rfl, _, _, _⟩ := narStep1_spec hcall.reports hn
    refine ⟨hg.rules, hg.pending, ?_⟩
    intro e he args hc
    rcases htr e he with he | he | he
    · exact hg.window e he args hc
    · exact he args hc
    · rcases k3 _ he with ⟨b, hbm, args', name', x, j1, j2, j3, j4⟩ | ⟨j, -⟩
      · have := IsCall.name_eq hc j1
        subst this
        obtain ⟨_, _, pos, cnt, c1, c2, c3, c4⟩ := (h.safe.heap b hbm).sane
        have := record_exp c1 c4 j3 (by linarith)
        have := hg.rules b hbm j2 pos cnt c1
        omega
      · rw [hb] at j; cases j
  | worker rng =>
    cases hr
    obtain ⟨r1, r2, r3, r4, r5⟩ := workerStep_rest p rng
    refine ⟨?_, fun m hm => hg.pending m (r5 m hm), by rw [r1]; exact hg.window⟩
    intro b hb hrf
    rcases workerStep_terms p rng b hb with hb | ⟨m, hm, hb | ⟨ts, rng', hts, hb⟩⟩
    · exact hg.rules b hb hrf
    · obtain ⟨c, as, o, e, args, k1, k2⟩ := hrf
      exact absurd ⟨c, as, o, e, args, by rw [← hb]; exact k1, k2⟩ (hg.pending m hm)
    · obtain ⟨cond, acts, effect, hterm, hp, ha⟩ := (h.safe.queue m hm).plain
      rw [hterm] at hts
      obtain ⟨op, args, nm, cond', op', args', effect', e1, e2, e3, e4⟩ := introduced_for hp ha hts hb
      obtain ⟨c, as, o, e, args2, k1, k2⟩ := hrf
      rw [e3] at k1
      obtain ⟨-, k3, -⟩ := rule_inj k1
      have k4 := List.append_inj_right' (show [] ++ [op'] = as ++ [o] from k3) rfl
      simp only [List.cons.injEq, and_true] at k4
      have := IsCall.name_eq (k4 ▸ k2) e4
      subst this
      exact absurd ⟨cond, [], op, effect, args, by rw [hterm, e1]; rfl, e2⟩ (hg.pending m hm)

end Nar
